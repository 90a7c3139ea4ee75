import Verif.Spec.CLang
import Verif.Spec.GenBms
import Verif.Spec.ToString

/-!
# Specification: which C program stands for a BMS program
-/

namespace Bms.C

open Spec (Ident IdentPart Literal IfAny IsBlock IsIf WholeParts)

/-! ## Values, types and operators -/

/-- An integer: a number, or a number with a minus sign. -/
inductive NumberIs : Int → CExpr → Prop
  | nonneg (n : Nat) : NumberIs n (.num n)
  | neg (n : Nat) : NumberIs (-((n : Int) + 1)) (.unary .minus (.num (n + 1)))

/-- The value of the type. -/
inductive ConstIs : CType → Int → CExpr → Prop
  | void {x} : ConstIs .void x (.cast .void (.num 0))
  | true_ : ConstIs .bool 1 (.bool true)
  | false_ : ConstIs .bool 0 (.bool false)
  | int {x e} : NumberIs x e → ConstIs .int x e
  | uint {w} {n : Nat} : ConstIs (.uint w) n (.num n)

/-- The type in C. -/
inductive TypeIs : CType → Ty → Prop
  | void : TypeIs .void .void
  | bool : TypeIs .bool .bool
  | int : TypeIs .int .int
  | exact {w} : TypeIs (.uint w) (.exact w)
  | bits {w} : TypeIs (.uint w) (.bits w)

/-- The type that analysis has found for a type node. -/
inductive TypeOf : AType → CType → Prop
  | void {k cv} : TypeOf (.base k cv .void) .void
  | bool {k cv} : TypeOf (.base k cv .bool) .bool
  | int {k cv} : TypeOf (.base k cv .int) .int
  | uint {k cv w e} : 1 < w → w < 128 → TypeOf (.uint k cv (some w) e) (.uint w)

def unOps : List (ExprType × UnOp) :=
  [(.unary_plus, .plus), (.unary_minus, .minus), (.logical_not, .lnot), (.bitwise_not, .bnot)]

def binOps : List (ExprType × BinOp) :=
  [(.logical_or, .lor), (.logical_and, .land), (.bitwise_or, .bor), (.bitwise_xor, .bxor),
   (.bitwise_and, .band), (.equals, .eq), (.not_equals, .ne), (.less_than, .lt), (.greater_than, .gt),
   (.less_or_equal, .le), (.greater_or_equal, .ge), (.shift_left, .shl), (.shift_right, .shr),
   (.binary_plus, .add), (.binary_minus, .sub), (.multiplication, .mul), (.division, .div),
   (.remainder, .rem)]

/-! ## Expressions -/

/-- The constants of a program: the nodes, and their values. -/
abbrev Consts := Key → Option (Option Value)

/-- The name refers to a constant. -/
def RefersTo (cs : Consts) (ref : Option Lookup) (cv : Option Value) : Prop :=
  ∃ n, ref = some (.node n) ∧ cs n = some cv

mutual

/-- The C expression stands for the expression of the program: the same operations on the same operands,
where constants may be replaced by their values. -/
inductive MeansE : Consts → AExpr → CExpr → Prop
  | literal {cs k t x l c} : ConstIs t x c → MeansE cs (.literal k (some ⟨t, some x⟩) l) c
  | constant {cs k cv x ref g t v c} : RefersTo cs ref (some ⟨t, some v⟩) → ConstIs t v c →
      MeansE cs (.id k cv x ref g) c
  | var {cs k cv x ref g} : (∀ v, ¬ RefersTo cs ref v) → MeansE cs (.id k cv x ref g) (.var x)
  | conversion {cs k cv e t ct ty c} : TypeOf t ct → TypeIs ct ty → MeansE cs e c →
      MeansE cs (.conversion k cv e t) (.cast ty c)
  | ite {cs k cv l c r l' c' r'} : MeansE cs l l' → MeansE cs c c' → MeansE cs r r' →
      MeansE cs (.ite k cv l c r) (.cond c' l' r')
  | binary {cs k cv op l r op' l' r'} : (op, op') ∈ binOps → MeansE cs l l' → MeansE cs r r' →
      MeansE cs (.binary k cv op l r) (.bin op' l' r')
  | prefix {cs k cv op e op' e'} : (op, op') ∈ unOps → MeansE cs e e' →
      MeansE cs (.prefix k cv op e) (.unary op' e')
  | call {cs k cv st x ref as as'} : MeansEs cs as as' → MeansE cs (.call k cv st x ref as) (.call x as')

/-- Several expressions. -/
inductive MeansEs : Consts → List AExpr → List CExpr → Prop
  | nil {cs} : MeansEs cs [] []
  | cons {cs e c es ds} : MeansE cs e c → MeansEs cs es ds → MeansEs cs (e :: es) (c :: ds)

end

/-! ## Statements and programs -/

/-- An optional expression. -/
inductive MeansO (cs : Consts) : Option AExpr → Option CExpr → Prop
  | none : MeansO cs none none
  | some {e c} : MeansE cs e c → MeansO cs (some e) (some c)

mutual

/-- What stands for a statement: one statement or, for assertions and for constants that are replaced by
their values, none. -/
inductive MeansS : Consts → Bool → AStmt → List CStmt → Prop
  | constDropped {cs k cv x t e} : MeansS cs false (.const_ k cv x t e) []
  | const_ {cs k ct v x t e ty c} : TypeIs ct ty → ConstIs ct v c →
      MeansS cs true (.const_ k (some ⟨ct, some v⟩) x t e) [.decl true ty x (some c)]
  | let_ {cs c23 k ct v x t e ty c} : TypeIs ct ty → MeansO cs e c →
      MeansS cs c23 (.let_ k (some ⟨ct, v⟩) x t e) [.decl false ty x c]
  | staticAssert {cs c23 k cv e} : MeansS cs c23 (.staticAssert k cv e) []
  | ifThen {cs c23 k cv c b c' b'} : MeansE cs c c' → MeansS cs c23 b [b'] →
      MeansS cs c23 (.ifThen k cv c b) [.ifThen c' b']
  | ifElse {cs c23 k cv c b e c' b' e'} : MeansE cs c c' → MeansS cs c23 b [b'] → MeansS cs c23 e [e'] →
      MeansS cs c23 (.ifElse k cv c b e) [.ifElse c' b' e']
  | while_ {cs c23 k cv c b c' b'} : MeansE cs c c' → MeansS cs c23 b [b'] →
      MeansS cs c23 (.while_ k cv c b) [.while_ c' b']
  | return_ {cs c23 k cv e c} : MeansO cs e c → MeansS cs c23 (.control k cv .return_ e) [.return_ c]
  | break_ {cs c23 k cv} : MeansS cs c23 (.control k cv .break_ none) [.break_]
  | continue_ {cs c23 k cv} : MeansS cs c23 (.control k cv .continue_ none) [.continue_]
  | assign {cs c23 k cv x ref e c} : MeansE cs e c → MeansS cs c23 (.assign k cv x ref e) [.assign x c]
  | call {cs c23 e c} : MeansE cs e c → MeansS cs c23 (.call e) [.call c]
  | block {cs c23 k cv ss ts} : MeansSs cs c23 ss ts → MeansS cs c23 (.block k cv ss) [.block ts]

/-- Several statements. -/
inductive MeansSs : Consts → Bool → List AStmt → List CStmt → Prop
  | nil {cs c23} : MeansSs cs c23 [] []
  | cons {cs c23 s ss t ts} : MeansS cs c23 s t → MeansSs cs c23 ss ts → MeansSs cs c23 (s :: ss) (t ++ ts)

end

/-- Parameters. -/
inductive MeansP : AParam → Ty × List Char → Prop
  | mk {p ct ty} : TypeOf p.type ct → TypeIs ct ty → MeansP p (ty, p.name)

/-- Several parameters. -/
inductive MeansPs : List AParam → List (Ty × List Char) → Prop
  | nil : MeansPs [] []
  | cons {p c ps cs} : MeansP p c → MeansPs ps cs → MeansPs (p :: ps) (c :: cs)

/-- Declarations: generic functions are left out. -/
inductive MeansD (cs : Consts) : Bool → ADecl → List CDecl → Prop
  | constDropped {k cv x t e} : MeansD cs false (.const_ k cv x t e) []
  | const_ {k ct v x t e ty c} : TypeIs ct ty → ConstIs ct v c →
      MeansD cs true (.const_ k (some ⟨ct, some v⟩) x t e) [.const ty x c]
  | staticAssert {c23 k cv e} : MeansD cs c23 (.staticAssert k cv e) []
  | generic {c23 f} : f.generic = true → MeansD cs c23 (.function f) []
  | function {c23 f ct ty ps b} : f.generic = false → TypeOf f.ret ct → TypeIs ct ty →
      MeansPs f.params ps → MeansSs cs c23 f.body b →
      MeansD cs c23 (.function f) [.function ty f.name ps (.block b)]

/-- Several declarations. -/
inductive MeansDs (cs : Consts) (c23 : Bool) : List ADecl → List CDecl → Prop
  | nil : MeansDs cs c23 [] []
  | cons {s ss t ts} : MeansD cs c23 s t → MeansDs cs c23 ss ts → MeansDs cs c23 (s :: ss) (t ++ ts)

/-! ## Constants -/

mutual

/-- The statement contains the declaration of a constant. -/
inductive HasConstS : AStmt → Key → Option Value → Prop
  | const_ {k cv x t e} : HasConstS (.const_ k cv x t e) k cv
  | ifThen {k cv c b n v} : HasConstS b n v → HasConstS (.ifThen k cv c b) n v
  | ifElse {k cv c b e n v} : HasConstS b n v → HasConstS (.ifElse k cv c b e) n v
  | else_ {k cv c b e n v} : HasConstS e n v → HasConstS (.ifElse k cv c b e) n v
  | while_ {k cv c b n v} : HasConstS b n v → HasConstS (.while_ k cv c b) n v
  | block {k cv ss n v} : HasConstSs ss n v → HasConstS (.block k cv ss) n v

/-- One of the statements does. -/
inductive HasConstSs : List AStmt → Key → Option Value → Prop
  | head {s ss n v} : HasConstS s n v → HasConstSs (s :: ss) n v
  | tail {s ss n v} : HasConstSs ss n v → HasConstSs (s :: ss) n v

end

/-- The program contains the declaration of a constant. -/
inductive HasConst (ds : List ADecl) (n : Key) (v : Option Value) : Prop
  | global {x t e} : ADecl.const_ n v x t e ∈ ds → HasConst ds n v
  | inFunction {f} : ADecl.function f ∈ ds → HasConstSs f.body n v → HasConst ds n v

/-! ## Programs for which the generated code is right -/

/-- A value of the type that is written correctly. -/
def WritableV : CType → Int → Prop
  | .void, _ => True
  | .bool, x => x = 0 ∨ x = 1
  | .int, x => InI128 x ∧ WholeParts x.natAbs
  | .uint w, x => 0 ≤ x ∧ x < 2 ^ w ∧ w < 128 ∧ WholeParts x.natAbs

/-- An operation with two operands on the level. -/
def OnLevel (n : Nat) : AExpr → Prop
  | .binary _ _ op _ _ => ∃ op', (op, op') ∈ binOps ∧ op'.level = n
  | _ => False

/-- The text of the expression begins with the sign `op`: it is an operation with this sign, or a negative
constant. -/
def BeginsWith (cs : Consts) (op : ExprType) : AExpr → Prop
  | .prefix _ _ op' _ => op' = op
  | .literal _ cv _ => op = .unary_minus ∧ ∃ t x, cv = some ⟨t, some x⟩ ∧ x < 0
  | .id _ _ _ ref _ => op = .unary_minus ∧ ∃ t x, RefersTo cs ref (some ⟨t, some x⟩) ∧ x < 0
  | _ => False

mutual

/-- Expressions for which the generated code is right: no conditional expressions; names that are
identifiers in C; unless parentheses are written everywhere, no right operand that is itself an operation on
the same level of the C grammar, and no sign in front of the same sign; and with the option `c_23`, no use
of constants. -/
def WritableE (cs : Consts) (always c23 : Bool) : AExpr → Prop
  | .literal _ cv _ => ∃ t x, cv = some ⟨t, some x⟩ ∧ WritableV t x
  | .id _ _ x ref _ =>
    ((∀ v, ¬ RefersTo cs ref v) ∧ IsId x) ∨
    (c23 = false ∧ ∃ t v, RefersTo cs ref (some ⟨t, some v⟩) ∧ WritableV t v)
  | .conversion _ _ e t => WritableE cs always c23 e ∧ ∃ ct, TypeOf t ct
  | .ite .. => False
  | .binary _ _ op l r => (∃ op', (op, op') ∈ binOps ∧ (always = true ∨ ¬ OnLevel op'.level r)) ∧
      WritableE cs always c23 l ∧ WritableE cs always c23 r
  | .prefix _ _ op e => (∃ op', (op, op') ∈ unOps) ∧
      (always = true ∨ (op = .unary_plus ∨ op = .unary_minus → ¬ BeginsWith cs op e)) ∧
      WritableE cs always c23 e
  | .call _ _ _ x _ args => IsId x ∧ WritableEs cs always c23 args

/-- Several expressions. -/
def WritableEs (cs : Consts) (always c23 : Bool) : List AExpr → Prop
  | [] => True
  | e :: es => WritableE cs always c23 e ∧ WritableEs cs always c23 es

end

mutual

/-- Statements for which the generated code is right: `else` is only used in `else if`, and no function is
called by a statement. -/
def WritableS (cs : Consts) (always c23 : Bool) : AStmt → Prop
  | .const_ _ cv x _ _ => c23 = true → IsId x ∧ ∃ t v, cv = some ⟨t, some v⟩ ∧ WritableV t v
  | .let_ _ cv x _ e => IsId x ∧ cv ≠ none ∧ IfAny (WritableE cs always c23) e
  | .staticAssert .. => True
  | .ifThen _ _ c b => WritableE cs always c23 c ∧ IsBlock b ∧ WritableS cs always c23 b
  | .ifElse _ _ c b e => WritableE cs always c23 c ∧ IsBlock b ∧ WritableS cs always c23 b ∧ IsIf e ∧
      WritableS cs always c23 e
  | .while_ _ _ c b => WritableE cs always c23 c ∧ IsBlock b ∧ WritableS cs always c23 b
  | .control _ _ c e => IfAny (WritableE cs always c23) e ∧ (c ≠ .return_ → e = none)
  | .assign _ _ x _ e => IsId x ∧ WritableE cs always c23 e
  | .block _ _ ss => WritableSs cs always c23 ss
  | .call _ => False

/-- Several statements. -/
def WritableSs (cs : Consts) (always c23 : Bool) : List AStmt → Prop
  | [] => True
  | s :: ss => WritableS cs always c23 s ∧ WritableSs cs always c23 ss

end

/-- Declarations for which the generated code is right: functions have no parameters. -/
def WritableD (cs : Consts) (always c23 : Bool) : ADecl → Prop
  | .const_ _ cv x _ _ => c23 = true → IsId x ∧ ∃ t v, cv = some ⟨t, some v⟩ ∧ WritableV t v
  | .staticAssert .. => True
  | .function f => f.generic = false →
      IsId f.name ∧ f.params = [] ∧ (∃ ct, TypeOf f.ret ct) ∧ WritableSs cs always c23 f.body

/-! ## Programs for which code is generated -/

/-- Types that have a name. -/
def Named (l : GenC.Language) (c23 : Bool) : CType → Prop
  | .uint w => w ∈ exactNames.map Prod.fst ∨ (l = .c ∧ c23 = true)
  | _ => True

mutual

/-- All types in the expression have the property. -/
def TypesE (P : CType → Prop) : AExpr → Prop
  | .literal .. | .id .. => True
  | .conversion _ _ e t => TypesE P e ∧ ∀ ct, TypeOf t ct → P ct
  | .ite _ _ l c r => TypesE P l ∧ TypesE P c ∧ TypesE P r
  | .binary _ _ _ l r => TypesE P l ∧ TypesE P r
  | .prefix _ _ _ e => TypesE P e
  | .call _ _ _ _ _ args => TypesEs P args

/-- Several expressions. -/
def TypesEs (P : CType → Prop) : List AExpr → Prop
  | [] => True
  | e :: es => TypesE P e ∧ TypesEs P es

end

mutual

/-- All types in the statement have the property: types of variables and constants, and of conversions.
Constants that are replaced by their values do not matter. -/
def TypesS (P : CType → Prop) (c23 : Bool) : AStmt → Prop
  | .const_ _ cv _ _ _ => c23 = true → ∀ v, cv = some v → P v.type
  | .let_ _ cv _ _ e => (∀ v, cv = some v → P v.type) ∧ IfAny (TypesE P) e
  | .staticAssert .. => True
  | .ifThen _ _ c b => TypesE P c ∧ TypesS P c23 b
  | .ifElse _ _ c b e => TypesE P c ∧ TypesS P c23 b ∧ TypesS P c23 e
  | .while_ _ _ c b => TypesE P c ∧ TypesS P c23 b
  | .control _ _ _ e => IfAny (TypesE P) e
  | .assign _ _ _ _ e => TypesE P e
  | .block _ _ ss => TypesSs P c23 ss
  | .call e => TypesE P e

/-- Several statements. -/
def TypesSs (P : CType → Prop) (c23 : Bool) : List AStmt → Prop
  | [] => True
  | s :: ss => TypesS P c23 s ∧ TypesSs P c23 ss

end

/-- All types in the declaration have the property. Generic functions do not matter. -/
def TypesD (P : CType → Prop) (c23 : Bool) : ADecl → Prop
  | .const_ _ cv _ _ _ => c23 = true → ∀ v, cv = some v → P v.type
  | .staticAssert .. => True
  | .function f => f.generic = false → (∀ ct, TypeOf f.ret ct → P ct) ∧
      (∀ p ∈ f.params, ∀ ct, TypeOf p.type ct → P ct) ∧ TypesSs P c23 f.body

/-- A known value. -/
def Known (cv : Option Value) : Prop := ∃ t x, cv = some ⟨t, some x⟩

mutual

/-- Values and types that are read by the generator have been found by analysis. -/
def ReadyE (cs : Consts) (c23 : Bool) : AExpr → Prop
  | .literal _ cv _ => Known cv
  | .id _ _ _ ref _ => c23 = false → ∀ v, RefersTo cs ref v → Known v
  | .conversion _ _ e t => ReadyE cs c23 e ∧ ∃ ct, TypeOf t ct
  | .ite _ _ l c r => ReadyE cs c23 l ∧ ReadyE cs c23 c ∧ ReadyE cs c23 r
  | .binary _ _ _ l r => ReadyE cs c23 l ∧ ReadyE cs c23 r
  | .prefix _ _ _ e => ReadyE cs c23 e
  | .call _ _ _ _ _ args => ReadyEs cs c23 args

/-- Several expressions. -/
def ReadyEs (cs : Consts) (c23 : Bool) : List AExpr → Prop
  | [] => True
  | e :: es => ReadyE cs c23 e ∧ ReadyEs cs c23 es

end

mutual

/-- Statements; bodies are blocks, and `else` is followed by a block or by `if`. -/
def ReadyS (cs : Consts) (c23 : Bool) : AStmt → Prop
  | .const_ _ cv _ _ _ => c23 = true → Known cv
  | .let_ _ cv _ _ e => cv ≠ none ∧ IfAny (ReadyE cs c23) e
  | .staticAssert .. => True
  | .ifThen _ _ c b => ReadyE cs c23 c ∧ IsBlock b ∧ ReadyS cs c23 b
  | .ifElse _ _ c b e => ReadyE cs c23 c ∧ IsBlock b ∧ ReadyS cs c23 b ∧ (IsIf e ∨ IsBlock e) ∧ ReadyS cs c23 e
  | .while_ _ _ c b => ReadyE cs c23 c ∧ IsBlock b ∧ ReadyS cs c23 b
  | .control _ _ _ e => IfAny (ReadyE cs c23) e
  | .assign _ _ _ _ e => ReadyE cs c23 e
  | .block _ _ ss => ReadySs cs c23 ss
  | .call e => ReadyE cs c23 e

/-- Several statements. -/
def ReadySs (cs : Consts) (c23 : Bool) : List AStmt → Prop
  | [] => True
  | s :: ss => ReadyS cs c23 s ∧ ReadySs cs c23 ss

end

/-- Declarations. -/
def ReadyD (cs : Consts) (c23 : Bool) : ADecl → Prop
  | .const_ _ cv _ _ _ => c23 = true → Known cv
  | .staticAssert .. => True
  | .function f => f.generic = false → (∃ ct, TypeOf f.ret ct) ∧ (∀ p ∈ f.params, ∃ ct, TypeOf p.type ct) ∧
      ReadySs cs c23 f.body

end Bms.C
