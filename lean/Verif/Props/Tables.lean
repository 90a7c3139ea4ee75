import Verif.Model.Tribool
import Verif.Model.TokenTables
import Verif.Spec.Tokens

/-!
# Properties C23, C24, C44: finite tables
-/

namespace Bms

open Spec

/-! ## C23: Kleene logic -/

/-- Specification: the three truth values, ordered `no < unknown < yes`. -/
inductive Kleene where
  | no | unknown | yes
deriving DecidableEq, Repr

namespace Kleene

/-- Degree of truth. -/
def rank : Kleene → Nat
  | no => 0
  | unknown => 1
  | yes => 2

/-- The value of the given degree of truth. -/
def ofRank : Nat → Kleene
  | 0 => no
  | 1 => unknown
  | _ => yes

/-- Conjunction is the minimum, disjunction the maximum, negation reverses the order. -/
def and (x y : Kleene) : Kleene := ofRank (min x.rank y.rank)
def or (x y : Kleene) : Kleene := ofRank (max x.rank y.rank)
def not (x : Kleene) : Kleene := ofRank (2 - x.rank)

/-- A three-valued observation of a Boolean: everything that is compatible with it. -/
def Admits : Kleene → Bool → Prop
  | no, b => b = false
  | unknown, _ => True
  | yes, b => b = true

/-- The representation in the C++ type. -/
def repr : Kleene → Tribool
  | no => .fawse
  | unknown => .maybe
  | yes => .twue

end Kleene

/-- **C23.** The operators of `Tribool` are the Kleene connectives, without undefined behaviour;
equality is decided if and only if no operand is `maybe`; `bool` embeds as `fawse` and `twue`. -/
theorem C23_kleene (x y : Kleene) :
    Tribool.not x.repr = .ok x.not.repr ∧
    Tribool.and x.repr y.repr = .ok (x.and y).repr ∧
    Tribool.or x.repr y.repr = .ok (x.or y).repr ∧
    Tribool.equals x.repr y.repr = .ok (if x = .unknown ∨ y = .unknown then .maybe
      else if x = y then .twue else .fawse) ∧
    Tribool.notEquals x.repr y.repr = .ok (if x = .unknown ∨ y = .unknown then .maybe
      else if x = y then .fawse else .twue) ∧
    (x.repr = y.repr → x = y) := by
  cases x <;> cases y <;> decide

theorem C23_embedding (a b : Bool) :
    Tribool.ofBool a = Kleene.repr (if a then .yes else .no) ∧
    Tribool.and (.ofBool a) (.ofBool b) = .ok (.ofBool (a && b)) ∧
    Tribool.or (.ofBool a) (.ofBool b) = .ok (.ofBool (a || b)) ∧
    Tribool.not (.ofBool a) = .ok (.ofBool !a) ∧
    Tribool.equals (.ofBool a) (.ofBool b) = .ok (.ofBool (a == b)) ∧
    Tribool.notEquals (.ofBool a) (.ofBool b) = .ok (.ofBool (a != b)) := by
  cases a <;> cases b <;> decide

/-- **C23, meaning.** A result describes exactly the Booleans that operands compatible with the
arguments can produce. -/
theorem C23_exact_abstraction (x y : Kleene) (c : Bool) :
    ((x.and y).Admits c ↔ ∃ a b, x.Admits a ∧ y.Admits b ∧ c = (a && b)) ∧
    ((x.or y).Admits c ↔ ∃ a b, x.Admits a ∧ y.Admits b ∧ c = (a || b)) ∧
    (x.not.Admits c ↔ ∃ a, x.Admits a ∧ c = !a) := by
  cases x <;> cases y <;> cases c <;>
    simp [Kleene.and, Kleene.or, Kleene.not, Kleene.rank, Kleene.ofRank, Kleene.Admits]

/-- **C23, laws** on the C++ type, for its three values. -/
theorem C23_laws (x y z : Kleene) :
    Tribool.and x.repr y.repr = Tribool.and y.repr x.repr ∧
    Tribool.or x.repr y.repr = Tribool.or y.repr x.repr ∧
    (Tribool.and x.repr y.repr >>= fun a => Tribool.and a z.repr) =
      (Tribool.and y.repr z.repr >>= fun a => Tribool.and x.repr a) ∧
    (Tribool.or x.repr y.repr >>= fun a => Tribool.or a z.repr) =
      (Tribool.or y.repr z.repr >>= fun a => Tribool.or x.repr a) ∧
    (Tribool.or y.repr z.repr >>= fun a => Tribool.and x.repr a) =
      (Tribool.and x.repr y.repr >>= fun a => Tribool.and x.repr z.repr >>= fun b => Tribool.or a b) ∧
    (Tribool.and x.repr y.repr >>= Tribool.not) =
      (Tribool.not x.repr >>= fun a => Tribool.not y.repr >>= fun b => Tribool.or a b) ∧
    (Tribool.not x.repr >>= Tribool.not) = .ok x.repr := by
  cases x <;> cases y <;> cases z <;> decide

/-! ## C24: precedence -/

/-- The comparison `x` binds weaker than `y`. -/
def BindsWeaker (x y : ExprType) : Prop := comparePrecedence x y = .less

instance (x y : ExprType) : Decidable (BindsWeaker x y) :=
  inferInstanceAs (Decidable (_ = _))

/-- **C24.** The precedence is a strict partial order. -/
theorem C24_strict_partial_order :
    (∀ x, ¬ BindsWeaker x x) ∧
    (∀ x y, BindsWeaker x y → ¬ BindsWeaker y x) ∧
    (∀ x y z, BindsWeaker x y → BindsWeaker y z → BindsWeaker x z) ∧
    (∀ x y, comparePrecedence x y = .greater ↔ BindsWeaker y x) ∧
    (∀ x y, comparePrecedence x y ≠ .equivalent) := by
  have h1 : ∀ x ∈ ExprType.all, ¬ BindsWeaker x x := by decide +kernel
  have h2 : ∀ x ∈ ExprType.all, ∀ y ∈ ExprType.all, BindsWeaker x y → ¬ BindsWeaker y x := by
    decide +kernel
  have h3 : ∀ x ∈ ExprType.all, ∀ y ∈ ExprType.all, ∀ z ∈ ExprType.all,
      BindsWeaker x y → BindsWeaker y z → BindsWeaker x z := by decide +kernel
  have h4 : ∀ x ∈ ExprType.all, ∀ y ∈ ExprType.all,
      (comparePrecedence x y = .greater ↔ BindsWeaker y x) ∧
      comparePrecedence x y ≠ .equivalent := by decide +kernel
  have m := ExprType.mem_all
  exact ⟨fun x => h1 x (m x), fun x y => h2 x (m x) y (m y),
    fun x y z => h3 x (m x) y (m y) z (m z), fun x y => (h4 x (m x) y (m y)).1,
    fun x y => (h4 x (m x) y (m y)).2⟩

/-- Specification: the operators of the language by kind. -/
def comparisonOps : List ExprType :=
  [.equals, .not_equals, .less_than, .greater_than, .less_or_equal, .greater_or_equal]
def arithmeticOps : List ExprType :=
  [.binary_plus, .binary_minus, .multiplication, .division, .remainder]
def otherBinaryOps : List ExprType :=
  [.shift_left, .shift_right, .bitwise_and, .bitwise_or, .bitwise_xor, .logical_and, .logical_or]
def prefixOps : List ExprType := [.unary_plus, .unary_minus, .logical_not, .bitwise_not]

/-- **C24, binary operators.** One binary operator binds weaker than another exactly if the first
is a comparison and the second is arithmetic. -/
theorem C24_binary_operators (x y : ExprType)
    (hx : x ∈ comparisonOps ++ arithmeticOps ++ otherBinaryOps)
    (hy : y ∈ comparisonOps ++ arithmeticOps ++ otherBinaryOps) :
    BindsWeaker x y ↔ x ∈ comparisonOps ∧ y ∈ arithmeticOps := by
  have h : ∀ x ∈ comparisonOps ++ arithmeticOps ++ otherBinaryOps,
      ∀ y ∈ comparisonOps ++ arithmeticOps ++ otherBinaryOps,
      (BindsWeaker x y ↔ x ∈ comparisonOps ∧ y ∈ arithmeticOps) := by decide +kernel
  exact h x hx y hy

/-- **C24, other levels.** Conversions and if-expressions bind weaker than binary operators, those
weaker than prefix operators, those weaker than calls, those weaker than literals and names. -/
theorem C24_levels :
    (∀ x ∈ [ExprType.conversion, .if_expression],
      ∀ y ∈ comparisonOps ++ arithmeticOps ++ otherBinaryOps, BindsWeaker x y) ∧
    (∀ x ∈ comparisonOps ++ arithmeticOps ++ otherBinaryOps, ∀ y ∈ prefixOps, BindsWeaker x y) ∧
    (∀ x ∈ prefixOps, BindsWeaker x .function_call) ∧
    (∀ y ∈ [ExprType.literal, .id], BindsWeaker .function_call y) := by
  decide +kernel

/-! ## C44: operator tables -/

/-- **C44, partial.** Every binary operator token except `>=` is translated to the expression kind
whose operator is that token; exactly the tokens that are not binary operators, and `>=`, throw. -/
theorem C44_binary_operators_partial (ty : TokenType) :
    (ty.isBinaryOperator = true ∧ ty ≠ .greater_or_equal ↔
      ∃ e, binaryExprTypeOfToken ty = .ok e) ∧
    (∀ e, binaryExprTypeOfToken ty = .ok e → e.token = ty ∧ e.isBinary = true ∧ e ≠ .conversion) := by
  constructor
  · constructor
    · cases ty <;> intro h <;> first
        | exact ⟨_, rfl⟩
        | exact absurd h.1 (by decide)
        | exact absurd rfl h.2
    · rintro ⟨e, he⟩
      cases ty <;> first
        | exact ⟨rfl, by decide⟩
        | cases he
  · intro e he
    cases ty <;> cases he <;> decide

/-- **C44, violation.** `>=` is accepted by the parser but throws when the tree is built. -/
theorem C44_greater_or_equal :
    TokenType.isBinaryOperator .greater_or_equal = true ∧
    binaryExprTypeOfToken .greater_or_equal = .throws := by
  decide

/-- **C44, prefix operators.** -/
theorem C44_unary_operators (ty : TokenType) :
    (ty.isUnaryOperator = true ↔ ∃ e, unaryExprTypeOfToken ty = .ok e) ∧
    (∀ e, unaryExprTypeOfToken ty = .ok e → e.token = ty ∧ e.isPrefixUnary = true) := by
  constructor
  · constructor
    · cases ty <;> intro h <;> first
        | exact ⟨_, rfl⟩
        | exact absurd h (by decide)
    · rintro ⟨e, he⟩
      cases ty <;> first
        | rfl
        | cases he
  · intro e he
    cases ty <;> cases he <;> decide

/-- **C44, back again.** For every operator kind the token that is printed for it is translated
back to the same kind, except for `>=`. -/
theorem C44_round_trip (e : ExprType) :
    (e.isBinary = true → e ≠ .conversion → e ≠ .greater_or_equal →
      binaryExprTypeOfToken e.token = .ok e) ∧
    (e.isPrefixUnary = true → unaryExprTypeOfToken e.token = .ok e) := by
  cases e <;> decide

/-- **C44, spelling.** The in-code name of an operator is its spelling, except that `(`, `)` and `@`
have none. -/
theorem C44_code_names (ty : TokenType) (sp : String) (h : spelling ty = some sp) :
    ty.codeName = sp ↔ ty ≠ .left_parenthesis ∧ ty ≠ .right_parenthesis ∧ ty ≠ .at_sign := by
  cases ty <;> cases h <;> decide

end Bms
