import Verif.Spec.Sum

/-!
# Variant

Transcribes src/common/variant.hpp and `pack_first_index_of_v` of src/common/packs.hpp.

Simplifications:
* Types are numbers, and values of all types are taken from one set. How values are copied and moved is given by
  `Alts`. Values have no parts that are variants.
* The storage is raw memory in which an object of a type is alive or none. It is undefined behaviour to access or
  destroy an object that is not alive or of another type. The constructors of values that throw leave no object.
* Objects are counted: `made` and `gone` are the numbers of constructed and destroyed objects of each type.
* There are at least two alternatives: with one alternative, `visit` (l. 61-63) does not compile, because it
  calls `std::get`. The specialization for trivially copyable types (l. 341-394) behaves in the same way, except that
  copies are made by copying all bytes.
-/

namespace Bms.Sum

variable {α β : Type}

/-- An object that is alive. -/
structure Obj (α : Type) where
  type : Nat
  value : α

/-- `Variant`, variant.hpp:189-201. -/
structure Var (α : Type) where
  index : Nat
  storage : Option (Obj α)

/-- The variables of a program, and how many objects were made and destroyed. -/
structure Mem (β : Type) where
  vars : Nat → Option β
  made : Nat → Nat
  gone : Nat → Nat

/-- Access to a variable, which has to exist. -/
def Mem.get (m : Mem β) (i : Nat) : Outcome Empty β :=
  match m.vars i with
  | some v => .ok v
  | none => .ub

def Mem.set (m : Mem β) (i : Nat) (v : Option β) : Mem β := { m with vars := put m.vars i v }

/-- An object was constructed. -/
def Mem.make (m : Mem β) (t : Nat) : Mem β := { m with made := fun u => if u = t then m.made u + 1 else m.made u }

/-- An object was destroyed. -/
def Mem.lose (m : Mem β) (t : Nat) : Mem β := { m with gone := fun u => if u = t then m.gone u + 1 else m.gone u }

/-- `*std::launder(reinterpret_cast<T*>(m_storage))`. -/
def Var.as (v : Var α) (t : Nat) : Outcome Empty α :=
  match v.storage with
  | some o => if o.type = t then .ok o.value else .ub
  | none => .ub

/-- `visit`, variant.hpp:54-130, up to the call: the type and the value of the alternative. -/
def visit (a : Alts α) (v : Var α) : Outcome Empty (Nat × α) :=
  match a.types[v.index]? with
  | none => .throws
  | some t => do
    let x ← v.as t
    return (t, x)

/-- `std::construct_at(reinterpret_cast<T*>(m_storage), …)`. -/
def constructIn (m : Mem (Var α)) (i t : Nat) (x : α) : Outcome Empty (Mem (Var α)) := do
  let v ← m.get i
  return (m.set i (some { v with storage := some ⟨t, x⟩ })).make t

/-- `destroy`, variant.hpp:329-336. -/
def destroyIn (a : Alts α) (m : Mem (Var α)) (i : Nat) : Outcome Empty (Mem (Var α)) := do
  let v ← m.get i
  let r ← visit a v
  return (m.set i (some { v with storage := none })).lose r.1

/-- A value is replaced in an object. -/
def assignIn (m : Mem (Var α)) (i t : Nat) (x : α) : Outcome Empty (Mem (Var α)) := do
  let v ← m.get i
  let _ ← v.as t
  return m.set i (some { v with storage := some ⟨t, x⟩ })

/-- `m_index = …`. -/
def setIndex (m : Mem (Var α)) (i k : Nat) : Outcome Empty (Mem (Var α)) := do
  let v ← m.get i
  return m.set i (some { v with index := k })

/-- `pack_first_index_of_v`, packs.hpp:21-29. -/
def firstIndexOf (t : Nat) : List Nat → Nat → Option Nat
  | [], _ => none
  | u :: us, i => if t = u then some i else firstIndexOf t us (i + 1)

/-- The default constructor, variant.hpp:204-209. -/
def default (a : Alts α) (m : Mem (Var α)) (i : Nat) (x : α) : Outcome Empty (Mem (Var α)) :=
  match a.types with
  | [] => .throws
  | t :: _ => constructIn (m.set i (some ⟨0, none⟩)) i t x

/-- The constructor from a value, variant.hpp:233-240; it is required that the type is one of the
alternatives. -/
def fromValue (a : Alts α) (m : Mem (Var α)) (i t : Nat) (x : α) : Outcome Empty (Mem (Var α)) :=
  match firstIndexOf t a.types 0 with
  | none => .throws
  | some k => constructIn (m.set i (some ⟨k, none⟩)) i t x

/-- The copy constructor, variant.hpp:222-231. -/
def copyConstruct (a : Alts α) (m : Mem (Var α)) (i j : Nat) (raise : Bool) :
    Outcome Empty (Mem (Var α) × Bool) := do
  let other ← m.get j
  let m' := m.set i (some ⟨other.index, none⟩)
  let r ← visit a other
  if raise && !a.nothrowCopy r.1 then return (m'.set i none, true)
  else do
    let m'' ← constructIn m' i r.1 r.2
    return (m'', false)

/-- The move constructor, variant.hpp:211-220. -/
def moveConstruct (a : Alts α) (m : Mem (Var α)) (i j : Nat) : Outcome Empty (Mem (Var α)) := do
  let other ← m.get j
  let m' := m.set i (some ⟨other.index, none⟩)
  let r ← visit a other
  let m'' ← constructIn m' i r.1 r.2
  assignIn m'' j r.1 (a.moved r.2)

/-- Move assignment, variant.hpp:247-268. -/
def assignMove (a : Alts α) (m : Mem (Var α)) (i j : Nat) : Outcome Empty (Mem (Var α)) := do
  let this ← m.get i
  let other ← m.get j
  if this.index = other.index then do
    let r ← visit a other
    if i = j then assignIn m i r.1 (a.selfMoved r.2)
    else do
      let m' ← assignIn m i r.1 r.2
      assignIn m' j r.1 (a.movedAssign r.2)
  else do
    let m1 ← destroyIn a m i
    let r ← visit a other
    let m2 ← constructIn m1 i r.1 r.2
    let m3 ← assignIn m2 j r.1 (a.moved r.2)
    setIndex m3 i other.index

/-- Copy assignment, variant.hpp:270-303. -/
def assignCopy (a : Alts α) (m : Mem (Var α)) (i j : Nat) (raise : Bool) : Outcome Empty (Mem (Var α) × Bool) := do
  let this ← m.get i
  let other ← m.get j
  if this.index = other.index then do
    let r ← visit a other
    let x ← this.as r.1
    if raise && !a.nothrowAssign r.1 then do
      let m' ← assignIn m i r.1 (a.torn x r.2)
      return (m', true)
    else do
      let m' ← assignIn m i r.1 r.2
      return (m', false)
  else do
    let r ← visit a other
    if a.nothrowCopy r.1 then do
      let m1 ← destroyIn a m i
      let m2 ← constructIn m1 i r.1 r.2
      let m3 ← setIndex m2 i other.index
      return (m3, false)
    else if raise then return (m, true)
    else do
      let m1 ← destroyIn a (m.make r.1) i
      let m2 ← constructIn m1 i r.1 r.2
      let m3 ← setIndex (m2.lose r.1) i other.index
      return (m3, false)

/-- The destructor, variant.hpp:242-245. -/
def destruct (a : Alts α) (m : Mem (Var α)) (i : Nat) : Outcome Empty (Mem (Var α)) := do
  let m' ← destroyIn a m i
  return m'.set i none

/-- An operation that does not throw. -/
def calm (r : Outcome Empty (Mem β)) : Outcome Empty (Mem β × Bool) := do
  let m ← r
  return (m, false)

/-- An operation of a program. -/
def run (a : Alts α) (m : Mem (Var α)) : Op α → Outcome Empty (Mem (Var α) × Bool)
  | .default i x => calm (default a m i x)
  | .value i t x => calm (fromValue a m i t x)
  | .copy i j raise => copyConstruct a m i j raise
  | .move i j => calm (moveConstruct a m i j)
  | .assignCopy i j raise => assignCopy a m i j raise
  | .assignMove i j => calm (assignMove a m i j)
  | .destroy i => calm (destruct a m i)

/-- Operations of a program in which exceptions are caught. -/
def runs {Op' : Type} (f : Mem β → Op' → Outcome Empty (Mem β × Bool)) (m : Mem β) :
    List Op' → Outcome Empty (Mem β × List Bool)
  | [] => .ok (m, [])
  | op :: ops => do
    let r ← f m op
    let rs ← runs f r.1 ops
    return (rs.1, r.2 :: rs.2)

/-- Nothing exists. -/
def Mem.empty : Mem β := ⟨fun _ => none, fun _ => 0, fun _ => 0⟩

/-- `holds_alternative`, variant.hpp:396-403. -/
def holdsAlternative (a : Alts α) (v : Var α) (t : Nat) : Bool := firstIndexOf t a.types 0 = some v.index

/-- `get_if`, variant.hpp:425-445, for a type. -/
def getIf (a : Alts α) (v : Var α) (t : Nat) : Outcome Empty (Option α) :=
  if firstIndexOf t a.types 0 = some v.index then do
    let x ← v.as t
    return some x
  else .ok none

/-- `get`, variant.hpp:483-521, for a type. -/
def get (a : Alts α) (v : Var α) (t : Nat) : Outcome Empty α :=
  if firstIndexOf t a.types 0 = some v.index then v.as t else .throws

/-- `get_if`, variant.hpp:405-423, for the number of an alternative; other numbers do not compile. -/
def getIfAt (a : Alts α) (v : Var α) (k : Nat) : Outcome Empty (Option α) :=
  if v.index = k then do
    let x ← v.as (a.type k)
    return some x
  else .ok none

/-- `get`, variant.hpp:447-481, for the number of an alternative; other numbers do not compile. -/
def getAt (a : Alts α) (v : Var α) (k : Nat) : Outcome Empty α :=
  if k = v.index then v.as (a.type k) else .throws

/-- `operator==` of two variants, variant.hpp:310-318. -/
def eqVar (a : Alts α) (eq : α → α → Bool) (x y : Var α) : Outcome Empty Bool :=
  if x.index = y.index then do
    let r ← visit a x
    let z ← y.as r.1
    return eq r.2 z
  else .ok false

/-- `operator==` of a variant and a value, variant.hpp:320-326. -/
def eqValue (a : Alts α) (eq : α → α → Bool) (v : Var α) (t : Nat) (x : α) : Outcome Empty Bool :=
  if firstIndexOf t a.types 0 = some v.index then do
    let z ← v.as t
    return eq z x
  else .ok false

end Bms.Sum
