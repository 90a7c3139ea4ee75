import Verif.Model.Outcome

/-!
# Spec: values of one of several types

What a program can rely on when it works with variables that hold a value of one of several types: which
alternative each variable holds, and which value. Only the description of the types is shared with the model.
-/

namespace Bms.Sum

/-- The types of the alternatives, which are numbered, and how values of these types behave. -/
structure Alts (α : Type) where
  types : List Nat
  /-- The copy constructor of a type never throws. -/
  nothrowCopy : Nat → Bool
  /-- The copy assignment of a type never throws. -/
  nothrowAssign : Nat → Bool
  /-- What is left of a value from which another one was constructed by a move. -/
  moved : α → α
  /-- What is left of a value that was assigned by a move. -/
  movedAssign : α → α
  /-- What is left of a value that is assigned to itself by a move. -/
  selfMoved : α → α
  /-- What is left when a copy assignment throws. -/
  torn : α → α → α

/-- What a program does with its variables. The types of the values decide whether a copy throws an exception;
`raise` says that it does so if it can. -/
inductive Op (α : Type) where
  | default (i : Nat) (x : α)
  | value (i : Nat) (type : Nat) (x : α)
  | copy (i j : Nat) (raise : Bool)
  | move (i j : Nat)
  | assignCopy (i j : Nat) (raise : Bool)
  | assignMove (i j : Nat)
  | destroy (i : Nat)

/-- The variables that exist: the number of the alternative and the value. -/
abbrev Vars (α : Type) := Nat → Option (Nat × α)

/-- A change of one place. -/
def put {β : Type} (s : Nat → Option β) (i : Nat) (v : Option β) : Nat → Option β :=
  fun j => if j = i then v else s j

variable {α : Type}

/-- The type of an alternative. -/
def Alts.type (a : Alts α) (k : Nat) : Nat := a.types.getD k 0

/-- What each operation means. There is no result if the program constructs a variable that exists, or uses one
that does not exist. The second component says whether an exception is thrown. -/
def step (a : Alts α) (s : Vars α) : Op α → Option (Vars α × Bool)
  | .default i x => if (s i).isSome then none else some (put s i (some (0, x)), false)
  | .value i t x =>
    if (s i).isSome ∨ t ∉ a.types then none else some (put s i (some (a.types.idxOf t, x)), false)
  | .copy i j raise =>
    match s i, s j with
    | none, some (k, x) =>
      if raise && !a.nothrowCopy (a.type k) then some (s, true) else some (put s i (some (k, x)), false)
    | _, _ => none
  | .move i j =>
    match s i, s j with
    | none, some (k, x) => some (put (put s j (some (k, a.moved x))) i (some (k, x)), false)
    | _, _ => none
  | .assignCopy i j raise =>
    match s i, s j with
    | some (k, x), some (l, y) =>
      if k = l then
        if raise && !a.nothrowAssign (a.type l) then some (put s i (some (k, a.torn x y)), true)
        else some (put s i (some (l, y)), false)
      else if raise && !a.nothrowCopy (a.type l) then some (s, true)
      else some (put s i (some (l, y)), false)
    | _, _ => none
  | .assignMove i j =>
    match s i, s j with
    | some (k, x), some (l, y) =>
      if i = j then some (put s i (some (k, a.selfMoved x)), false)
      else if k = l then some (put (put s j (some (l, a.movedAssign y))) i (some (l, y)), false)
      else some (put (put s j (some (l, a.moved y))) i (some (l, y)), false)
    | _, _ => none
  | .destroy i => if (s i).isSome then some (put s i none, false) else none

/-- Several operations; the list says which of them threw an exception. -/
def steps (a : Alts α) (s : Vars α) : List (Op α) → Option (Vars α × List Bool)
  | [] => some (s, [])
  | op :: ops =>
    match step a s op with
    | none => none
    | some (s', b) =>
      match steps a s' ops with
      | none => none
      | some (s'', bs) => some (s'', b :: bs)

/-- The number of variables before `n` that hold a value of a type. -/
def holders (a : Alts α) (s : Vars α) (n t : Nat) : Nat :=
  (List.range n).countP fun i => (s i).any fun v => decide (a.type v.1 = t)

/-- Every object of a type that was made was destroyed again or is held by a variable. -/
def Balanced (a : Alts α) (s : Vars α) (t made gone : Nat) : Prop :=
  ∃ n, (∀ i, n ≤ i → s i = none) ∧ made = gone + holders a s n t

end Bms.Sum
