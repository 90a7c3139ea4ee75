import Verif.Spec.GenC
import Verif.Spec.Analysis

/-!
# Specification: what a C program computes, and for which programs this is what the BMS program computes

Integers as in the C standard (C23, 6.2.5, 6.3.1, 6.5), on a machine where `int` has 32 bits and `long` has
64. What the standard leaves undefined or to the implementation is undefined here. The operands of an
operator are evaluated from left to right; as expressions have no side effects, the order does not matter.
Whether a program violates a constraint of C (for example, two variables of the same name in one block) is
not considered here.
-/

namespace Bms.C

open Spec (Prog fnDef typeOf)

/-! ## Values -/

/-- Types of values: `uint w` is `uintN_t`, `bits w` is `unsigned _BitInt(w)`. -/
inductive VTy where
  | void | bool | int | long | uint (w : Nat) | bits (w : Nat)
deriving DecidableEq, Repr

def Ty.value : Ty → VTy
  | .void => .void
  | .bool => .bool
  | .int => .int
  | .exact w => .uint w
  | .bits w => .bits w

def VTy.width : VTy → Nat
  | .void => 0
  | .bool => 1
  | .int => 32
  | .long => 64
  | .uint w | .bits w => w

def VTy.signed : VTy → Bool
  | .int | .long => true
  | _ => false

/-- The values of the type. -/
def VTy.Holds : VTy → Int → Prop
  | .void, x => x = 0
  | .bool, x => x = 0 ∨ x = 1
  | .int, x => -2 ^ 31 ≤ x ∧ x < 2 ^ 31
  | .long, x => -2 ^ 63 ≤ x ∧ x < 2 ^ 63
  | .uint w, x | .bits w, x => 0 ≤ x ∧ x < 2 ^ w

instance (t : VTy) (x : Int) : Decidable (t.Holds x) := by
  unfold VTy.Holds; cases t <;> infer_instance

structure CV where
  type : VTy
  int : Int
deriving DecidableEq, Repr

/-- What comes of running something: `aborts` for a failed assertion. -/
inductive CRes (α : Type) where
  | ok (a : α)
  | undef
  | aborts
  | timeout
deriving DecidableEq, Repr

def CRes.bind {α β : Type} : CRes α → (α → CRes β) → CRes β
  | .ok a, f => f a
  | .undef, _ => .undef
  | .aborts, _ => .aborts
  | .timeout, _ => .timeout

instance : Monad CRes where
  pure := .ok
  bind := CRes.bind

/-- The result of an operation in the type: unsigned types wrap around. -/
def VTy.reduce (t : VTy) (z : Int) : CRes CV :=
  match t with
  | .uint w | .bits w => .ok ⟨t, z % 2 ^ w⟩
  | .int | .long => if t.Holds z then .ok ⟨t, z⟩ else .undef
  | _ => .undef

/-- Conversion of a value, C23 6.3.1.2, 6.3.1.3. -/
def convert (t : VTy) (v : CV) : CRes CV :=
  if t = .void then .ok ⟨.void, 0⟩
  else if v.type = .void then .undef
  else if t = .bool then .ok ⟨.bool, if v.int = 0 then 0 else 1⟩
  else t.reduce v.int

/-- Integer promotions, C23 6.3.1.1. -/
def VTy.promote : VTy → VTy
  | .bool => .int
  | .uint w => if w < 32 then .int else .uint w
  | t => t

/-- The conversion rank, C23 6.3.1.1: larger for larger width; a bit-precise type has a smaller rank than
other types of this width. -/
def VTy.rank : VTy → Nat
  | .bits w => 2 * w
  | t => 2 * t.width + 1

/-- Usual arithmetic conversions, C23 6.3.1.8. -/
def usual (a b : VTy) : VTy :=
  let a := a.promote
  let b := b.promote
  if a = b then a
  else if a.signed = b.signed then if a.rank < b.rank then b else a
  else
    let s := if a.signed = true then a else b
    let u := if a.signed = true then b else a
    if s.rank ≤ u.rank then u
    else if u.width < s.width then s
    else .uint s.width

/-- The bits of the value in the type, and the value for bits. -/
def VTy.toBits (t : VTy) (x : Int) : Nat := (x % 2 ^ t.width).toNat

def VTy.ofBits (t : VTy) (n : Nat) : CV :=
  ⟨t, if t.signed = true ∧ 2 ^ (t.width - 1) ≤ n then (n : Int) - 2 ^ t.width else n⟩

def CV.truth (b : Bool) : CV := ⟨.int, if b then 1 else 0⟩

/-- Operators on two values of the same type. -/
def operate (op : BinOp) (t : VTy) (x y : Int) : CRes CV :=
  match op with
  | .add => t.reduce (x + y)
  | .sub => t.reduce (x - y)
  | .mul => t.reduce (x * y)
  | .div => if y = 0 then .undef else t.reduce (x.tdiv y)
  | .rem => if y = 0 then .undef else t.reduce (x.tdiv y) >>= fun _ => t.reduce (x.tmod y)
  | .band => .ok (t.ofBits (t.toBits x &&& t.toBits y))
  | .bor => .ok (t.ofBits (t.toBits x ||| t.toBits y))
  | .bxor => .ok (t.ofBits (t.toBits x ^^^ t.toBits y))
  | .eq => .ok (.truth (x = y))
  | .ne => .ok (.truth (x ≠ y))
  | .lt => .ok (.truth (x < y))
  | .gt => .ok (.truth (x > y))
  | .le => .ok (.truth (x ≤ y))
  | .ge => .ok (.truth (x ≥ y))
  | _ => .undef

/-- Shifts, C23 6.5.8: of the promoted left operand, by less than its width. -/
def shift (op : BinOp) (t : VTy) (x n : Int) : CRes CV :=
  if n < 0 ∨ (t.width : Int) ≤ n then .undef
  else if t.signed = true ∧ x < 0 then .undef
  else if op = .shl then t.reduce (x * 2 ^ n.toNat) else t.reduce (x / 2 ^ n.toNat)

/-- Operators with two operands other than `&&` and `||`. -/
def binary (op : BinOp) (l r : CV) : CRes CV :=
  if l.type = .void ∨ r.type = .void then .undef
  else if op = .shl ∨ op = .shr then shift op l.type.promote l.int r.int
  else
    let t := usual l.type r.type
    convert t l >>= fun l => convert t r >>= fun r => operate op t l.int r.int

/-- Operators with one operand. -/
def unary (op : UnOp) (v : CV) : CRes CV :=
  if v.type = .void then .undef
  else
    let t := v.type.promote
    match op with
    | .plus => .ok ⟨t, v.int⟩
    | .minus => t.reduce (-v.int)
    | .lnot => .ok (.truth (v.int = 0))
    | .bnot => .ok (t.ofBits ((2 ^ t.width - 1) ^^^ t.toBits v.int))

/-- A decimal literal, C23 6.4.4.1. -/
def number (n : Nat) : CRes CV :=
  if n < 2 ^ 31 then .ok ⟨.int, n⟩ else if n < 2 ^ 63 then .ok ⟨.long, n⟩ else .undef

/-- Whether a value counts as true. -/
def truthOf (v : CV) : CRes Bool := if v.type = .void then .undef else .ok (decide (v.int ≠ 0))

/-! ## Expressions -/

/-- Variables that are visible, innermost first: name, type and value. -/
abbrev Env := List (List Char × VTy × Option Int)

def Env.find (E : Env) (x : List Char) : Option (VTy × Option Int) := E.lookup x

/-- A function: its type, and what a call results in. -/
structure Fun where
  ret : Ty
  params : List Ty
  call : List CV → CRes CV

/-- The type of an expression. -/
def typeC (F : List Char → Option Fun) (E : Env) : CExpr → Option VTy
  | .num n => if n < 2 ^ 31 then some .int else if n < 2 ^ 63 then some .long else none
  | .bool _ => some .bool
  | .var x => (E.find x).map Prod.fst
  | .call x _ => if E.find x = none then (F x).map fun f => f.ret.value else none
  | .unary op e => if op = .lnot then some .int else (typeC F E e).map VTy.promote
  | .cast t _ => some t.value
  | .bin op l r =>
    if op = .shl ∨ op = .shr then (typeC F E l).map VTy.promote
    else if op = .add ∨ op = .sub ∨ op = .mul ∨ op = .div ∨ op = .rem ∨ op = .band ∨ op = .bor ∨ op = .bxor then
      (typeC F E l).bind fun a => (typeC F E r).map fun b => usual a b
    else some .int
  | .cond _ a b => (typeC F E a).bind fun s => (typeC F E b).map fun t => usual s t

mutual

/-- The value of an expression. The name of a variable does not refer to a function. -/
def evalC (F : List Char → Option Fun) (E : Env) : CExpr → CRes CV
  | .num n => number n
  | .bool b => .ok ⟨.bool, if b then 1 else 0⟩
  | .var x =>
    match E.find x with
    | some (t, some v) => .ok ⟨t, v⟩
    | _ => .undef
  | .call x args =>
    match E.find x, F x with
    | none, some f => evalCs F E f.params args >>= f.call
    | _, _ => .undef
  | .unary op e => evalC F E e >>= unary op
  | .cast t e => evalC F E e >>= convert t.value
  | .bin op l r =>
    if op = .land then
      evalC F E l >>= truthOf >>= fun b =>
        if b then evalC F E r >>= truthOf >>= fun b => .ok (.truth b) else .ok (.truth false)
    else if op = .lor then
      evalC F E l >>= truthOf >>= fun b =>
        if b then .ok (.truth true) else evalC F E r >>= truthOf >>= fun b => .ok (.truth b)
    else evalC F E l >>= fun l => evalC F E r >>= binary op l
  | .cond c a b =>
    evalC F E c >>= truthOf >>= fun t =>
      match typeC F E a, typeC F E b with
      | some s, some u => (if t then evalC F E a else evalC F E b) >>= convert (usual s u)
      | _, _ => .undef

/-- The values of arguments, converted to the types of parameters. -/
def evalCs (F : List Char → Option Fun) (E : Env) : List Ty → List CExpr → CRes (List CV)
  | [], [] => .ok []
  | t :: ts, e :: es =>
    evalC F E e >>= convert t.value >>= fun v => evalCs F E ts es >>= fun vs => .ok (v :: vs)
  | _, _ => .undef

end

/-! ## Statements -/

/-- How a statement ends. -/
inductive CFlow where
  | normal (E : Env)
  | break_ (E : Env)
  | continue_ (E : Env)
  | return_ (v : CV)

/-- The variables that were visible before: the last `n`. -/
def Env.leave (n : Nat) (E : Env) : Env := E.drop (E.length - n)

def CFlow.leave (n : Nat) : CFlow → CFlow
  | .normal E => .normal (E.leave n)
  | .break_ E => .break_ (E.leave n)
  | .continue_ E => .continue_ (E.leave n)
  | .return_ v => .return_ v

/-- The variables after a value was stored in the innermost one of this name. -/
def Env.store : Env → List Char → Int → Env
  | [], _, _ => []
  | (y, t, o) :: E, x, v => if y = x then (y, t, some v) :: E else (y, t, o) :: Env.store E x v

/-- `while`, with fuel for that many evaluations of the condition. -/
def loopC (cond : Env → CRes Bool) (body : Env → CRes CFlow) : Nat → Env → CRes CFlow
  | 0, _ => .timeout
  | n + 1, E =>
    cond E >>= fun b =>
      if b then
        body E >>= fun
          | .normal E => loopC cond body n E
          | .continue_ E => loopC cond body n E
          | .break_ E => .ok (.normal E)
          | .return_ v => .ok (.return_ v)
      else .ok (.normal E)

mutual

/-- The effect of a statement, in a function with result type `ret`. The scope of a variable begins before
its initializer. -/
def execC (F : List Char → Option Fun) (ret : Ty) (fuel : Nat) : CStmt → Env → CRes CFlow
  | .decl _ t x i, E =>
    match i with
    | none => .ok (.normal ((x, t.value, none) :: E))
    | some e =>
      evalC F ((x, t.value, none) :: E) e >>= convert t.value >>= fun v =>
        .ok (.normal ((x, t.value, some v.int) :: E))
  | .ifThen c b, E =>
    evalC F E c >>= truthOf >>= fun t => if t then execC F ret fuel b E else .ok (.normal E)
  | .ifElse c b e, E =>
    evalC F E c >>= truthOf >>= fun t => if t then execC F ret fuel b E else execC F ret fuel e E
  | .while_ c b, E =>
    loopC (fun E => evalC F E c >>= truthOf) (fun E => execC F ret fuel b E) fuel E
  | .return_ e, E =>
    match e with
    | none => .ok (.return_ ⟨.void, 0⟩)
    | some e => evalC F E e >>= convert ret.value >>= fun v => .ok (.return_ v)
  | .break_, E => .ok (.break_ E)
  | .continue_, E => .ok (.continue_ E)
  | .assign x e, E =>
    match E.find x with
    | some (t, _) => evalC F E e >>= convert t >>= fun v => .ok (.normal (E.store x v.int))
    | none => .undef
  | .call e, E => evalC F E e >>= fun _ => .ok (.normal E)
  | .block ss, E => execCs F ret fuel ss E >>= fun f => .ok (f.leave E.length)

/-- Statements one after the other. -/
def execCs (F : List Char → Option Fun) (ret : Ty) (fuel : Nat) : List CStmt → Env → CRes CFlow
  | [], E => .ok (.normal E)
  | s :: ss, E =>
    execC F ret fuel s E >>= fun
      | .normal E => execCs F ret fuel ss E
      | f => .ok f

end

/-! ## Programs -/

/-- The function of this name. -/
def findFn (x : List Char) : List CDecl → Option (Ty × List (Ty × List Char) × CStmt)
  | [] => none
  | .function t y ps b :: ds => if y = x then some (t, ps, b) else findFn x ds
  | .const .. :: ds => findFn x ds

/-- `assert` of the standard library. -/
def assertFun : Fun where
  ret := .void
  params := [.bool]
  call
    | [v] => if v.int = 0 then .aborts else .ok ⟨.void, 0⟩
    | _ => .undef

/-- The functions that can be called, given what calls result in. -/
def functions (ds : List CDecl) (call : List Char → List CV → CRes CV) (x : List Char) : Option Fun :=
  match findFn x ds with
  | some (t, ps, _) => some ⟨t, ps.map Prod.fst, call x⟩
  | none => if x = "assert".toList then some assertFun else none

/-- The variables of a call. -/
def bindC : List (Ty × List Char) → List CV → Env
  | (t, x) :: ps, v :: vs => (x, t.value, some v.int) :: bindC ps vs
  | _, _ => []

/-- The result of a call from how its body ended. -/
def finishC (ret : Ty) : CFlow → CRes CV
  | .return_ v => .ok v
  | .normal _ => if ret = .void then .ok ⟨.void, 0⟩ else .undef
  | _ => .undef

/-- What a call of a function results in, with fuel for nested calls and iterations of loops. -/
def callC (ds : List CDecl) : Nat → List Char → List CV → CRes CV
  | 0, _, _ => .timeout
  | n + 1, x, vs =>
    match findFn x ds with
    | none => .undef
    | some (t, ps, b) =>
      if vs.length = ps.length then
        execC (functions ds (callC ds n)) t (n + 1) b (bindC ps vs) >>= finishC t
      else .undef

/-! ## The BMS program -/

/-- The function with this key. -/
def functionOf (k : Key) : List ADecl → Option AFn
  | [] => none
  | .function f :: ds => if f.k = k ∧ f.generic = false then some f else functionOf k ds
  | _ :: ds => functionOf k ds

/-- The meaning of the declarations as a program of the reference semantics. -/
def programOf (cs : Consts) (ds : List ADecl) : Prog where
  fns k := (functionOf k ds).map fnDef
  consts k :=
    match cs k with
    | some (some ⟨t, some x⟩) => some ⟨t, x⟩
    | _ => none

/-! ## Programs that compute the same in C -/

/-- Types whose operations are the same in C: `Bool`, `Int`, and `Uint` of at least 32 bits, as smaller
types are promoted to `int`. -/
def Wide : CType → Prop
  | .void => False
  | .bool | .int => True
  | .uint w => 32 ≤ w

/-- What surrounds an expression: constants, types of variables, and functions with their names. -/
structure Around where
  cs : Consts
  vars : Key → Option CType
  fns : Key → Option (Name × List CType × CType)
  /-- No operation is allowed that may be undefined in C and has a value in BMS. -/
  strict : Bool

/-- Variables that are visible, innermost first; without key, if they cannot be used yet. -/
abbrev Visible := List (Name × Option Key)

/-- The common type of two integers. -/
inductive Common : CType → CType → CType → Prop
  | same {t} : t = .int ∨ (∃ w, t = .uint w) → Common t t t
  | left {w} : Common .int (.uint w) (.uint w)
  | right {w} : Common (.uint w) .int (.uint w)

/-- Operators that compute an integer from two integers, other than shifts. -/
def isCalculation : ExprType → Bool
  | .binary_plus | .binary_minus | .multiplication | .division | .remainder | .bitwise_and | .bitwise_or
  | .bitwise_xor => true
  | _ => false

def isComparison : ExprType → Bool
  | .equals | .not_equals | .less_than | .greater_than | .less_or_equal | .greater_or_equal => true
  | _ => false

/-- A literal for a number less than `w`. -/
def LiteralBelow (w : Nat) : AExpr → Prop
  | .literal _ (some ⟨.int, some x⟩) _ => x < w
  | _ => False

mutual

/-- Expressions that compute the same in C, with their type, and whether they have this type also in C:
constants of type `Uint` are written without their type, so that they are of type `int` in C. One operand
must have the type of the operation. -/
inductive SameE (A : Around) (ρ : Visible) : AExpr → CType → Bool → Prop
  | true_ {k} : SameE A ρ (.literal k (some ⟨.bool, some 1⟩) (some .true_)) .bool false
  | false_ {k} : SameE A ρ (.literal k (some ⟨.bool, some 0⟩) (some .false_)) .bool false
  | number {k text} {n : Int} : parseIntegerLiteral text = some n → 0 ≤ n → n < 2 ^ 31 →
      SameE A ρ (.literal k (some ⟨.int, some n⟩) (some (.integer text))) .int false
  | constant {k cv x n g t v} : A.cs n = some (some ⟨t, some v⟩) → Wide t → Spec.WF ⟨t, v⟩ →
      -2 ^ 31 < v → v < 2 ^ 31 → SameE A ρ (.id k cv x (some (.node n)) g) t false
  | var {k cv x n g t} : A.cs n = none → ρ.lookup x = some (some n) → A.vars n = some t →
      SameE A ρ (.id k cv x (some (.node n)) g) t true
  | param {k cv x n g t} : ρ.lookup x = some (some n) → A.vars n = some t →
      SameE A ρ (.id k cv x (some (.param n)) g) t true
  | conversion {k cv e s f t ct} : SameE A ρ e s f → TypeOf t ct → Wide ct →
      SameE A ρ (.conversion k cv e t) ct true
  | calculation {k cv op l r s f s' f' t} : isCalculation op = true → SameE A ρ l s f → SameE A ρ r s' f' →
      Common s s' t → (t = .int → A.strict = false) →
      (t ≠ .int → (s = t ∧ f = true) ∨ (s' = t ∧ f' = true)) →
      SameE A ρ (.binary k cv op l r) t true
  | shift {k cv op l r w s f} : op = .shift_left ∨ op = .shift_right → SameE A ρ l (.uint w) true →
      SameE A ρ r s f → (A.strict = false ∨ LiteralBelow w r) →
      SameE A ρ (.binary k cv op l r) (.uint w) true
  | comparison {k cv op l r s f s' f' t} : isComparison op = true → SameE A ρ l s f → SameE A ρ r s' f' →
      Common s s' t → SameE A ρ (.binary k cv op l r) .bool false
  | logical {k cv op l r f f'} : op = .logical_and ∨ op = .logical_or → SameE A ρ l .bool f →
      SameE A ρ r .bool f' → SameE A ρ (.binary k cv op l r) .bool false
  | plus {k cv e t f} : SameE A ρ e t f → t ≠ .bool → SameE A ρ (.prefix k cv .unary_plus e) t f
  | minus {k cv e t f} : SameE A ρ e t f → t ≠ .bool → (t = .int → A.strict = false) →
      (t ≠ .int → f = true) → SameE A ρ (.prefix k cv .unary_minus e) t true
  | not_ {k cv e f} : SameE A ρ e .bool f → SameE A ρ (.prefix k cv .logical_not e) .bool false
  | complement {k cv e w} : SameE A ρ e (.uint w) true → SameE A ρ (.prefix k cv .bitwise_not e) (.uint w) true
  | ite {k v l c r s f s' f' g t} : SameE A ρ l s f → SameE A ρ c .bool g → SameE A ρ r s' f' →
      Common s s' t ∨ (s = .bool ∧ s' = .bool ∧ t = .bool) → v.type = t → t.WF →
      SameE A ρ (.ite k (some v) l c r) t ((decide (s = t) && f) || (decide (s' = t) && f'))
  | call {k cv st x n args ts t} : A.fns n = some (x, ts, t) → ρ.lookup x = none → Wide t →
      SameEs A ρ args ts →
      SameE A ρ (.call k cv st x (some (.node n)) args) t true

/-- Arguments for parameters of the types. -/
inductive SameEs (A : Around) (ρ : Visible) : List AExpr → List CType → Prop
  | nil : SameEs A ρ [] []
  | cons {e es s f t ts} : SameE A ρ e s f → Wide t → SameEs A ρ es ts → SameEs A ρ (e :: es) (t :: ts)

end

mutual

/-- Statements that do the same in C, with the variables that are visible before and after them. Variables
have keys of their own. -/
inductive SameS (A : Around) (ret : CType) : Visible → AStmt → Visible → Prop
  | const_ {ρ k cv x t e} : SameS A ret ρ (.const_ k cv x t e) ρ
  | declare {ρ k t v x ty} : Wide t → A.vars k = some t → some k ∉ ρ.map Prod.snd →
      SameS A ret ρ (.let_ k (some ⟨t, v⟩) x ty none) ((x, some k) :: ρ)
  | let_ {ρ k t v x ty e s f} : Wide t → A.vars k = some t → some k ∉ ρ.map Prod.snd → SameE A ((x, none) :: ρ) e s f →
      SameS A ret ρ (.let_ k (some ⟨t, v⟩) x ty (some e)) ((x, some k) :: ρ)
  | staticAssert {ρ k cv e} : SameS A ret ρ (.staticAssert k cv e) ρ
  | ifThen {ρ k cv c b f} : SameE A ρ c .bool f → SameS A ret ρ b ρ → SameS A ret ρ (.ifThen k cv c b) ρ
  | ifElse {ρ k cv c b e f} : SameE A ρ c .bool f → SameS A ret ρ b ρ → SameS A ret ρ e ρ →
      SameS A ret ρ (.ifElse k cv c b e) ρ
  | while_ {ρ k cv c b f} : SameE A ρ c .bool f → SameS A ret ρ b ρ → SameS A ret ρ (.while_ k cv c b) ρ
  | break_ {ρ k cv} : SameS A ret ρ (.control k cv .break_ none) ρ
  | continue_ {ρ k cv} : SameS A ret ρ (.control k cv .continue_ none) ρ
  | returnVoid {ρ k cv} : ret = .void → SameS A ret ρ (.control k cv .return_ none) ρ
  | return_ {ρ k cv e s f} : SameE A ρ e s f → Wide ret → SameS A ret ρ (.control k cv .return_ (some e)) ρ
  | assign {ρ k v x n e s f} : A.cs n = none → ρ.lookup x = some (some n) → A.vars n = some v.type →
      SameE A ρ e s f → SameS A ret ρ (.assign k (some v) x (some (.node n)) e) ρ
  | call {ρ k cv st x n args ts t} : A.fns n = some (x, ts, t) → ρ.lookup x = none → SameEs A ρ args ts →
      SameS A ret ρ (.call (.call k cv st x (some (.node n)) args)) ρ
  | assert {ρ k cv st e f} : (∀ n ts t, A.fns n ≠ some ("assert".toList, ts, t)) →
      ρ.lookup "assert".toList = none → SameE A ρ e .bool f →
      SameS A ret ρ (.call (.call k cv st "assert".toList (some (.builtin .assert)) [e])) ρ
  | block {ρ ρ' k cv ss} : SameSs A ret ρ ss ρ' → SameS A ret ρ (.block k cv ss) ρ

/-- Several statements. -/
inductive SameSs (A : Around) (ret : CType) : Visible → List AStmt → Visible → Prop
  | nil {ρ} : SameSs A ret ρ [] ρ
  | cons {ρ ρ' ρ'' s ss} : SameS A ret ρ s ρ' → SameSs A ret ρ' ss ρ'' → SameSs A ret ρ (s :: ss) ρ''

end

/-- The functions of the program, with their names and types. -/
def fnsOf (ds : List ADecl) (k : Key) : Option (Name × List CType × CType) :=
  (functionOf k ds).map fun f => (f.name, f.params.map fun p => typeOf p.type, typeOf f.ret)

/-- Programs that compute the same in C: functions have names and keys of their own, and the variables of every
function have types so that its statements do the same. -/
structure SameProgram (cs : Consts) (strict : Bool) (ds : List ADecl) : Prop where
  names : ∀ f g, ADecl.function f ∈ ds → ADecl.function g ∈ ds → f.generic = false → g.generic = false →
    f.name = g.name → f = g
  keys : ∀ f g, ADecl.function f ∈ ds → ADecl.function g ∈ ds → f.generic = false → g.generic = false →
    f.k = g.k → f = g
  bodies : ∀ f, ADecl.function f ∈ ds → f.generic = false → ∃ vars ρ,
    (∀ k t, vars k = some t → t.WF) ∧
    (∀ p ∈ f.params, TypeOf p.type (typeOf p.type) ∧ vars p.k = some (typeOf p.type) ∧ Wide (typeOf p.type)) ∧
    (f.params.map AParam.k).Nodup ∧ TypeOf f.ret (typeOf f.ret) ∧ (typeOf f.ret = .void ∨ Wide (typeOf f.ret)) ∧
    SameSs ⟨cs, vars, fnsOf ds, strict⟩ (typeOf f.ret) (f.params.map fun p => (p.name, some p.k)) f.body ρ

/-- The value in C for an argument. -/
def ArgIs (v : CVal) (c : CV) : Prop :=
  (∃ ty, TypeIs v.type ty ∧ c.type = ty.value) ∧ c.int = v.int ∧ c.type.Holds c.int

/-- The call in C results in the same number; or it is undefined, if this is allowed. -/
def SameResult (strict : Bool) (v : CVal) (r : CRes CV) : Prop :=
  (∃ c, r = .ok c ∧ c.int = v.int) ∨ (strict = false ∧ r = .undef)

end Bms.C
