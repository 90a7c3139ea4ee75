import Verif.Spec.Analysis
import Verif.Props.Instances

/-!
# Specification: rules that programs break

What a person who reads an error of analysis takes it to mean: at the node that the error names, the
program breaks the rule that the error names. The rules are stated for programs after name lookup, in
terms of their nodes. Types of expressions are what declarations and operators say; nothing is said
here about the values of widths other than literals, or about the results of calls in constant
expressions, which are computed.
-/

namespace Bms.Spec

/-! ## Declarations -/

/-- A variable or constant: its type and initializer, if given. -/
structure Bound where
  isLet : Bool
  k : Key
  type : Option AType
  init : Option AExpr

mutual

/-- The variables and constants that a statement declares. -/
def boundS : AStmt → List Bound
  | .const_ k _ _ ty init => [⟨false, k, ty, some init⟩]
  | .let_ k _ _ ty init => [⟨true, k, ty, init⟩]
  | .staticAssert .. => []
  | .ifThen _ _ _ t => boundS t
  | .ifElse _ _ _ t e => boundS t ++ boundS e
  | .while_ _ _ _ b => boundS b
  | .control .. => []
  | .assign .. => []
  | .block _ _ ss => boundSs ss
  | .call _ => []

/-- The same for several statements. -/
def boundSs : List AStmt → List Bound
  | [] => []
  | s :: ss => boundS s ++ boundSs ss

end

/-- The variables and constants of a global declaration. -/
def boundD : ADecl → List Bound
  | .const_ k _ _ ty init => [⟨false, k, ty, some init⟩]
  | .staticAssert .. => []
  | .function f => boundSs f.body

/-- The width that a parameter of a generic function declares. -/
def widthOf (p : AParam) : Option Key :=
  match p.type with
  | .uint _ _ _ (.id k _ _ _ true) => some k
  | _ => none

/-! ## Types -/

/-- The type that a type node stands for. A width that is not a literal may be any. -/
def Stands : AType → CType → Prop
  | .base _ _ b, t => t = b.type
  | .uint _ _ _ w, t => ∃ n : Nat, t = .uint n ∧ 1 < n ∧ n < 128 ∧
      ∀ k cv text, w = .literal k cv (some (.integer text)) → parseIntegerLiteral text = some (n : Int)

mutual

/-- The type of an expression, where variables, constants, parameters and widths have the types `V`.
Nothing is said about calls in constant expressions (`c`). The result of a function that is called
while it is analyzed itself has the type of the requires-clause, if there is one (this is an error of
the analysis, see `C85_violation`). -/
def TypeE (V : Key → CType → Prop) (ds : List ADecl) (c : Bool) : AExpr → CType → Prop
  | .literal _ _ l, t => (∃ text, l = some (.integer text) ∧ t = .int) ∨ ((l = some .true_ ∨ l = some .false_) ∧ t = .bool)
  | .id _ _ _ ref g, t => (g = true ∧ t = .int) ∨ ∃ j, (ref = some (.node j) ∨ ref = some (.param j)) ∧ V j t
  | .conversion _ _ _ ty, t => Stands ty t
  | .ite _ _ l b r, t => ∃ tl tb tr, TypeE V ds c l tl ∧ TypeE V ds c b tb ∧ TypeE V ds c r tr ∧ checkIf tl tb tr = .ok t
  | .binary _ _ op l r, t => ∃ tl tr, TypeE V ds c l tl ∧ TypeE V ds c r tr ∧ checkBinary tl op tr = .ok t
  | .prefix _ _ op e, t => ∃ u, TypeE V ds c e u ∧ checkUnary op u = .ok t
  | .call _ _ _ _ ref args, t => (∃ b ts, ref = some (.builtin b) ∧ TypeEs V ds c args ts ∧ checkBuiltin b ts = .ok t) ∨
      ∃ f, ref = some (.node f.k) ∧ .function f ∈ ds ∧
        (c = true ∨ Stands f.ret t ∨ (f.requires_ ≠ none ∧ t = .bool))

/-- The types of several expressions. -/
def TypeEs (V : Key → CType → Prop) (ds : List ADecl) (c : Bool) : List AExpr → List CType → Prop
  | [], ts => ts = []
  | e :: es, ts => ∃ u us, ts = u :: us ∧ TypeE V ds c e u ∧ TypeEs V ds c es us

end

/-- Types of variables and constants follow from their declarations: they have the type that is given, or
that of their initializer; parameters have the type that is given, and widths are integers. -/
structure Follows (ds : List ADecl) (V : Key → CType → Prop) : Prop where
  given : ∀ d ∈ ds, ∀ b ∈ boundD d, ∀ ty ∈ b.type, ∀ t, Stands ty t → V b.k t
  found : ∀ d ∈ ds, ∀ b ∈ boundD d, b.type = none → ∀ e ∈ b.init, ∀ t, TypeE V ds (!b.isLet) e t → V b.k t
  param : ∀ f, .function f ∈ ds → ∀ p ∈ f.params, ∀ t, Stands p.type t → V p.k t
  width : ∀ f, .function f ∈ ds → ∀ p ∈ f.params, ∀ k ∈ widthOf p, V k .int

/-- The types of variables, constants, parameters and widths: only those that follow from declarations. -/
def VarType (ds : List ADecl) (k : Key) (t : CType) : Prop := ∀ V, Follows ds V → V k t

/-- The type of an expression of the program. -/
abbrev Has (ds : List ADecl) (c : Bool) (e : AExpr) (t : CType) : Prop := TypeE (VarType ds) ds c e t

/-! ## Rules -/

/-- The key is that of a function. -/
def IsFn (ds : List ADecl) (j : Key) : Prop := ∃ f, .function f ∈ ds ∧ f.k = j

/-- The key is that of a variable. -/
def IsLet (ds : List ADecl) (j : Key) : Prop := ∃ d ∈ ds, ∃ b ∈ boundD d, b.isLet = true ∧ b.k = j

/-- The key is that of a constant. -/
def IsConst (ds : List ADecl) (j : Key) : Prop := ∃ d ∈ ds, ∃ b ∈ boundD d, b.isLet = false ∧ b.k = j

mutual

/-- In an expression, which is part of a constant expression if `c`, the rule with this code is broken
at the node with this key. -/
inductive BreaksE (ds : List ADecl) : Bool → AExpr → ACode → Key → Prop
  /-- An integer literal is none. -/
  | literal {c k cv text} : parseIntegerLiteral text = none →
      BreaksE ds c (.literal k cv (some (.integer text))) .invalid_integer_literal k
  /-- A parameter in a constant expression. -/
  | param {k cv name p g} : BreaksE ds true (.id k cv name (some (.param p)) g) .parameter_in_constant_expression k
  /-- A variable in a constant expression. -/
  | variable {k cv name j g} : IsLet ds j →
      BreaksE ds true (.id k cv name (some (.node j)) g) .let_variable_in_constant_expression k
  /-- A function that is not called. -/
  | function {c k cv name j g} : IsFn ds j → BreaksE ds c (.id k cv name (some (.node j)) g) .function_in_expression k
  /-- A variable before it is declared. -/
  | noVariable {c k cv name j g} : IsLet ds j →
      BreaksE ds c (.id k cv name (some (.node j)) g) .use_of_undefined_variable k
  /-- A constant before it is declared. -/
  | noConstant {c k cv name j g} : IsConst ds j →
      BreaksE ds c (.id k cv name (some (.node j)) g) .use_of_undefined_constant k
  /-- A conversion to a type that values of the operand cannot be converted to. -/
  | conversion {c k cv e ty a b} : Has ds c e a → Stands ty b → a.isConvertibleTo b = false →
      BreaksE ds c (.conversion k cv e ty) (.check .incompatible_types) k
  | conversionOperand {c k cv e ty code j} : BreaksE ds c e code j → BreaksE ds c (.conversion k cv e ty) code j
  | conversionType {c k cv e ty code j} : BreaksT ds ty code j → BreaksE ds c (.conversion k cv e ty) code j
  /-- A condition that is no `Bool`. -/
  | condition {c k cv l b r t} : Has ds c b t → t ≠ .bool →
      BreaksE ds c (.ite k cv l b r) (.check .condition_not_bool) k
  /-- Branches with types that do not go together. -/
  | branches {c k cv l b r tl tr x} : Has ds c l tl → Has ds c b .bool → Has ds c r tr → checkIf tl .bool tr = .err x →
      BreaksE ds c (.ite k cv l b r) (.check x) k
  | branchLeft {c k cv l b r code j} : BreaksE ds c l code j → BreaksE ds c (.ite k cv l b r) code j
  | branchCond {c k cv l b r code j} : BreaksE ds c b code j → BreaksE ds c (.ite k cv l b r) code j
  | branchRight {c k cv l b r code j} : BreaksE ds c r code j → BreaksE ds c (.ite k cv l b r) code j
  /-- In a constant expression, the left operand of a logical operator that is no `Bool`. -/
  | logical {k cv op l r t} : op = .logical_and ∨ op = .logical_or → Has ds true l t → t ≠ .bool →
      BreaksE ds true (.binary k cv op l r) .non_bool_logical k
  /-- Operands that the operator is not for. -/
  | binary {c k cv op l r tl tr x} : Has ds c l tl → Has ds c r tr → checkBinary tl op tr = .err x →
      BreaksE ds c (.binary k cv op l r) (.check x) k
  /-- In a constant expression, operands that the operator has no value for. -/
  | binaryValue {k cv op l r vl vr x} : Has ds true l vl.type → Has ds true r vr.type → evalBinaryV vl op vr = .err x →
      BreaksE ds true (.binary k cv op l r) (.evaluation x) k
  | binaryLeft {c k cv op l r code j} : BreaksE ds c l code j → BreaksE ds c (.binary k cv op l r) code j
  | binaryRight {c k cv op l r code j} : BreaksE ds c r code j → BreaksE ds c (.binary k cv op l r) code j
  /-- An operand that the operator is not for. -/
  | pre {c k cv op e t x} : Has ds c e t → checkUnary op t = .err x → BreaksE ds c (.prefix k cv op e) (.check x) k
  /-- In a constant expression, an operand that the operator has no value for. -/
  | preValue {k cv op e v x} : Has ds true e v.type → evalUnaryV op v = .err x →
      BreaksE ds true (.prefix k cv op e) (.evaluation x) k
  | preOperand {c k cv op e code j} : BreaksE ds c e code j → BreaksE ds c (.prefix k cv op e) code j
  /-- Arguments that a builtin function is not for. -/
  | builtin {c k cv st name b args ts x} : TypeEs (VarType ds) ds c args ts → checkBuiltin b ts = .err x →
      BreaksE ds c (.call k cv st name (some (.builtin b)) args) (.check x) k
  /-- Known arguments that a builtin function has no value for. -/
  | builtinValue {c k cv st name b args vs x} : TypeEs (VarType ds) ds c args (vs.map Value.type) →
      evalBuiltinV b vs = .err x → BreaksE ds c (.call k cv st name (some (.builtin b)) args) (.evaluation x) k
  | argument {c k cv st name ref args e code j} : e ∈ args → BreaksE ds c e code j →
      BreaksE ds c (.call k cv st name ref args) code j
  /-- A call of something that is no function. -/
  | noFunction {c k cv st name j args} : ¬ IsFn ds j →
      BreaksE ds c (.call k cv st name (some (.node j)) args) .call_non_function k
  /-- A call with another number of arguments. -/
  | number {c k cv st name f args} : .function f ∈ ds → f.params.length ≠ args.length →
      BreaksE ds c (.call k cv st name (some (.node f.k)) args) (.check .wrong_number_of_arguments) k
  /-- A call of a generic function, at the argument for a parameter that declares a width. -/
  | noWidth {c k cv st name f args a p t} : .function f ∈ ds → f.generic = true → (a, p) ∈ args.zip f.params →
      widthOf p ≠ none → Has ds c a t → t.isUint = false →
      BreaksE ds c (.call k cv st name (some (.node f.k)) args) .width_deduction_from_non_uint a.key
  /-- A call of a function that cannot be called in constant expressions (yet). -/
  | recursion {c k cv st name f args} : .function f ∈ ds →
      BreaksE ds c (.call k cv st name (some (.node f.k)) args) .codegen_call_to_unanalyzed k
  /-- A call with an argument of another type than the parameter. -/
  | passed {c k cv st name f args a p t u} : .function f ∈ ds → (a, p) ∈ args.zip f.params → Has ds c a t →
      Stands p.type u → t.isConvertibleTo u = false →
      BreaksE ds c (.call k cv st name (some (.node f.k)) args) (.check .incompatible_types) k
  /-- In a constant expression, a call with an argument that the parameter cannot have as value. -/
  | passedValue {k cv st name f args a p v u x} : .function f ∈ ds → (a, p) ∈ args.zip f.params → Has ds true a v.type →
      Stands p.type u → evalConversionV v u = .err x →
      BreaksE ds true (.call k cv st name (some (.node f.k)) args) (.evaluation x) k
  /-- In a constant expression, a call that has no result. -/
  | execution {k cv st name f args x} : .function f ∈ ds →
      BreaksE ds true (.call k cv st name (some (.node f.k)) args) (.execution x) k

/-- In a type, the rule with this code is broken at the node with this key. -/
inductive BreaksT (ds : List ADecl) : AType → ACode → Key → Prop
  | width {k cv n w code j} : BreaksE ds true w code j → BreaksT ds (.uint k cv n w) code j
  /-- A width that is no integer. -/
  | noInteger {k cv n w t} : Has ds true w t → t.isInteger = false → BreaksT ds (.uint k cv n w) .width_not_integer w.key
  /-- A width that is too small or too large. -/
  | invalid {k cv n w} : Has ds true w .int →
      (∀ k cv text, w = .literal k cv (some (.integer text)) → ∃ x, parseIntegerLiteral text = some x ∧ (x ≤ 0 ∨ 128 < x)) →
      BreaksT ds (.uint k cv n w) .width_invalid w.key

end

/-- In the declaration of a constant. -/
inductive BreaksC (ds : List ADecl) (k : Key) (ty : Option AType) (e : AExpr) : ACode → Key → Prop
  | type {t code j} : t ∈ ty → BreaksT ds t code j → BreaksC ds k ty e code j
  | init {code j} : BreaksE ds true e code j → BreaksC ds k ty e code j
  /-- An initializer of another type. -/
  | incompatible {t a b} : t ∈ ty → Has ds true e a → Stands t b → a.isConvertibleTo b = false →
      BreaksC ds k ty e (.check .incompatible_types) k
  /-- An initial value that the constant cannot have. -/
  | value {t v b x} : t ∈ ty → Has ds true e v.type → Stands t b → evalConversionV v b = .err x →
      BreaksC ds k ty e (.evaluation x) k

/-- In a static assertion. -/
inductive BreaksA (ds : List ADecl) (k : Key) (e : AExpr) : ACode → Key → Prop
  | inner {code j} : BreaksE ds true e code j → BreaksA ds k e code j
  | noBool {t} : Has ds true e t → t ≠ .bool → BreaksA ds k e .static_assert_expression_not_bool k
  | fails : Has ds true e .bool → (∀ k cv, e ≠ .literal k cv (some .true_)) → BreaksA ds k e .static_assertion_failed k

/-- In the condition of a statement. -/
inductive BreaksB (ds : List ADecl) (k : Key) (e : AExpr) : ACode → Key → Prop
  | inner {code j} : BreaksE ds false e code j → BreaksB ds k e code j
  | noBool {t} : Has ds false e t → t ≠ .bool → BreaksB ds k e (.check .condition_not_bool) k

/-- In a statement of a function with this type of result; `loop` if the statement is in a loop. -/
inductive BreaksS (ds : List ADecl) (ret : AType) : Bool → AStmt → ACode → Key → Prop
  | const_ {loop k cv name ty e code j} : BreaksC ds k ty e code j → BreaksS ds ret loop (.const_ k cv name ty e) code j
  | letType {loop k cv name ty e code j} : BreaksT ds ty code j → BreaksS ds ret loop (.let_ k cv name (some ty) e) code j
  | letInit {loop k cv name ty e code j} : BreaksE ds false e code j →
      BreaksS ds ret loop (.let_ k cv name ty (some e)) code j
  /-- An initializer of another type. -/
  | letValue {loop k cv name ty e a b} : Has ds false e a → Stands ty b → a.isConvertibleTo b = false →
      BreaksS ds ret loop (.let_ k cv name (some ty) (some e)) (.check .incompatible_types) k
  | staticAssert {loop k cv e code j} : BreaksA ds k e code j → BreaksS ds ret loop (.staticAssert k cv e) code j
  | ifThenCond {loop k cv b t code j} : BreaksB ds k b code j → BreaksS ds ret loop (.ifThen k cv b t) code j
  | ifThen {loop k cv b t code j} : BreaksS ds ret loop t code j → BreaksS ds ret loop (.ifThen k cv b t) code j
  | ifElseCond {loop k cv b t e code j} : BreaksB ds k b code j → BreaksS ds ret loop (.ifElse k cv b t e) code j
  | ifElseThen {loop k cv b t e code j} : BreaksS ds ret loop t code j → BreaksS ds ret loop (.ifElse k cv b t e) code j
  | ifElseElse {loop k cv b t e code j} : BreaksS ds ret loop e code j → BreaksS ds ret loop (.ifElse k cv b t e) code j
  | whileCond {loop k cv b s code j} : BreaksB ds k b code j → BreaksS ds ret loop (.while_ k cv b s) code j
  | while_ {loop k cv b s code j} : BreaksS ds ret true s code j → BreaksS ds ret loop (.while_ k cv b s) code j
  /-- `break` outside of a loop. -/
  | break_ {k cv e} : BreaksS ds ret false (.control k cv .break_ e) .break_outside_loop k
  /-- `continue` outside of a loop. -/
  | continue_ {k cv e} : BreaksS ds ret false (.control k cv .continue_ e) .continue_outside_loop k
  /-- No result although there should be one. -/
  | noResult {loop k cv t} : Stands ret t → t ≠ .void →
      BreaksS ds ret loop (.control k cv .return_ none) .empty_return_in_non_void_function k
  /-- A result of another type. -/
  | result {loop k cv e a b} : Has ds false e a → Stands ret b → a.isConvertibleTo b = false →
      BreaksS ds ret loop (.control k cv .return_ (some e)) (.check .incompatible_types) k
  | resultInner {loop k cv e code j} : BreaksE ds false e code j →
      BreaksS ds ret loop (.control k cv .return_ (some e)) code j
  /-- An assignment to a parameter. -/
  | assignParam {loop k cv name p e} : BreaksS ds ret loop (.assign k cv name (some (.param p)) e) .assigning_parameter k
  /-- An assignment to a function. -/
  | assignFn {loop k cv name j e} : IsFn ds j → BreaksS ds ret loop (.assign k cv name (some (.node j)) e) .assigning_function k
  /-- An assignment to a constant. -/
  | assignConst {loop k cv name j e} : IsConst ds j → BreaksS ds ret loop (.assign k cv name (some (.node j)) e) .assigning_const k
  /-- An assignment of a value of another type. -/
  | assign {loop k cv name j e a b} : IsLet ds j → Has ds false e a → VarType ds j b → a.isConvertibleTo b = false →
      BreaksS ds ret loop (.assign k cv name (some (.node j)) e) (.check .incompatible_types) k
  | assigned {loop k cv name ref e code j} : BreaksE ds false e code j → BreaksS ds ret loop (.assign k cv name ref e) code j
  | block {loop k cv ss s code j} : s ∈ ss → BreaksS ds ret loop s code j → BreaksS ds ret loop (.block k cv ss) code j
  | call {loop e code j} : BreaksE ds false e code j → BreaksS ds ret loop (.call e) code j

/-- In a function. -/
inductive BreaksF (ds : List ADecl) (f : AFn) : ACode → Key → Prop
  | param {p code j} : p ∈ f.params → BreaksT ds p.type code j → BreaksF ds f code j
  | ret {code j} : BreaksT ds f.ret code j → BreaksF ds f code j
  | requires_ {e code j} : e ∈ f.requires_ → BreaksE ds true e code j → BreaksF ds f code j
  /-- A requires-clause that is no `Bool`. -/
  | noBool {e t} : e ∈ f.requires_ → Has ds true e t → t ≠ .bool → BreaksF ds f .requires_clause_not_bool e.key
  /-- A requires-clause that is not satisfied. -/
  | fails {e} : e ∈ f.requires_ → Has ds true e .bool → (∀ k cv, e ≠ .literal k cv (some .true_)) → BreaksF ds f .requires_clause_not_satisfied e.key
  | body {s code j} : s ∈ f.body → BreaksS ds f.ret false s code j → BreaksF ds f code j
  /-- A function that cannot be used in constant expressions because of a function that it calls. -/
  | recursion {j} : IsFn ds j → .node j ∈ refsSs f.body → BreaksF ds f .codegen_call_to_unanalyzed f.k

/-- In a global declaration. -/
inductive BreaksD (ds : List ADecl) : ADecl → ACode → Key → Prop
  | const_ {k cv name ty e code j} : BreaksC ds k ty e code j → BreaksD ds (.const_ k cv name ty e) code j
  | staticAssert {k cv e code j} : BreaksA ds k e code j → BreaksD ds (.staticAssert k cv e) code j
  | function {f code j} : BreaksF ds f code j → BreaksD ds (.function f) code j

/-- The program breaks the rule with this code at the node with this key. -/
def Breaks (ds : List ADecl) (code : ACode) (k : Key) : Prop := ∃ d ∈ ds, BreaksD ds d code k

end Bms.Spec
