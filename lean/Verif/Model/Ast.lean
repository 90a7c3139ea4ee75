import Verif.Model.MapStack
import Verif.Model.Operations
import Verif.Model.Text

/-!
# The abstract syntax tree of functions

Transcribes the parts of src/bms/ast.hpp and src/bms/lookup_result.hpp that type analysis and code
generation for a function read. A node in C++ is an object with child pointers and an optional
`const_value` (`detail::Node_Base`, src/bms/ast.hpp:87-152); here it is a tree whose nodes carry the
`const_value` as field `cv`. Addresses of nodes and parameters, which serve as names of variables in
the virtual machine, are keys. Source positions and debug information are left out.
-/

namespace Bms

/-- `Lookup_Result`, src/bms/lookup_result.hpp:12-18: `ast::Some_Node*`, `Parameter*` or
`Builtin_Function`. Which kind of node a `node` is depends on the program. -/
inductive Lookup where
  | node (k : Key)
  | param (k : Key)
  | builtin (f : Builtin)
deriving DecidableEq, Repr

/-- The token of a literal: `true`, `false`, or an integer literal of any kind with its text
(`m_type` and `m_literal` of `Literal`, src/bms/ast.hpp:1058-1059). -/
inductive Lit where
  | true_
  | false_
  | integer (text : List Char)
deriving DecidableEq, Repr

/-- Expression nodes. -/
inductive Expr where
  /-- `Literal`, src/bms/ast.hpp:1053-1084. -/
  | literal (lit : Lit) (cv : Option Value)
  /-- `Id_Expression`, src/bms/ast.hpp:1024-1051. -/
  | id (cv : Option Value) (ref : Option Lookup)
  /-- `Conversion_Expression`, src/bms/ast.hpp:785-824; `to` is `concrete_type()` of the target
  type. -/
  | conversion (cv : Option Value) (e : Expr) (to : Option CType)
  /-- `If_Expression`, src/bms/ast.hpp:826-870: `left if cond else right`. -/
  | ite (cv : Option Value) (left cond right : Expr)
  /-- `Binary_Expression`, src/bms/ast.hpp:872-918; the token `m_op` is left out, since the
  constructor (src/bms/ast.cpp:241-248) derives the expression type from it and the only use of the
  token is to recognize `&&` and `||` (C44: the token determines the type and vice versa). -/
  | binary (cv : Option Value) (op : ExprType) (left right : Expr)
  /-- `Prefix_Expression`, src/bms/ast.hpp:920-957. -/
  | prefix (cv : Option Value) (op : ExprType) (e : Expr)
  /-- `Function_Call_Expression`, src/bms/ast.hpp:959-1022; `stmt` is `is_statement()`. -/
  | call (cv : Option Value) (stmt : Bool) (ref : Option Lookup) (args : List Expr)
deriving Repr

/-- `get_const_value`, src/bms/ast.hpp:1273-1281. -/
def Expr.cv : Expr → Option Value
  | .literal _ cv => cv
  | .id cv _ => cv
  | .conversion cv _ _ => cv
  | .ite cv _ _ _ => cv
  | .binary cv _ _ _ => cv
  | .prefix cv _ _ => cv
  | .call cv _ _ _ => cv

/-- `Control_Statement::m_type`, src/bms/ast.hpp:679-727. -/
inductive Control where
  | break_ | continue_ | return_
deriving DecidableEq, Repr

/-- Statement nodes (and the declarations that can occur in a block). -/
inductive Stmt where
  /-- `Const`, src/bms/ast.hpp:442-486; `k` is the address of the node, `declared` the
  `concrete_type()` of the type node if there is one. -/
  | const_ (k : Key) (declared : Option CType) (cv : Option Value) (init : Expr)
  /-- `Let`, src/bms/ast.hpp:488-532. -/
  | let_ (k : Key) (declared : Option CType) (cv : Option Value) (init : Option Expr)
  /-- `Static_Assert`, src/bms/ast.hpp:534-554. -/
  | staticAssert (cv : Option Value) (e : Expr)
  /-- `If_Statement` without `else`, src/bms/ast.hpp:556-604. -/
  | ifThen (cond : Expr) (then_ : Stmt)
  /-- `If_Statement` with `else`. -/
  | ifElse (cond : Expr) (then_ else_ : Stmt)
  /-- `While_Statement`, src/bms/ast.hpp:606-652. -/
  | while_ (cond : Expr) (body : Stmt)
  /-- `Control_Statement`, src/bms/ast.hpp:679-727. -/
  | control (c : Control) (cv : Option Value) (e : Option Expr)
  /-- `Assignment`, src/bms/ast.hpp:729-763. -/
  | assign (cv : Option Value) (target : Option Lookup) (e : Expr)
  /-- `Block_Statement`, src/bms/ast.hpp:765-783. -/
  | block (ss : List Stmt)
  /-- A `Function_Call_Expression` used as a statement. -/
  | call (e : Expr)
deriving Repr

/-- The parts of `Function` (src/bms/ast.hpp:253-389) that code generation for it reads: addresses
of the parameters, whether the return type node was analyzed, its `concrete_type()`, and the
children of the body. `Type_Type::Void` of the return type is `ret = some .void`
(src/bms/ast.hpp:423-434). -/
structure FunctionNode where
  params : List Key
  retAnalyzed : Bool
  ret : Option CType
  body : List Stmt

/-! ## Induction over the trees -/

/-- Induction principle with a hypothesis for every argument of a call. -/
theorem Expr.ind {P : Expr → Prop} (literal : ∀ l cv, P (.literal l cv)) (id : ∀ cv ref, P (.id cv ref))
    (conversion : ∀ cv e to, P e → P (.conversion cv e to))
    (ite : ∀ cv l c r, P l → P c → P r → P (.ite cv l c r))
    (binary : ∀ cv op l r, P l → P r → P (.binary cv op l r))
    (pre : ∀ cv op e, P e → P (.prefix cv op e))
    (call : ∀ cv stmt ref args, (∀ a ∈ args, P a) → P (.call cv stmt ref args)) :
    ∀ e, P e := by
  refine Expr.rec (motive_1 := P) (motive_2 := fun args => ∀ a ∈ args, P a) literal id ?_ ?_ ?_ ?_
    ?_ ?_ ?_
  · intro cv e to h; exact conversion cv e to h
  · intro cv l c r hl hc hr; exact ite cv l c r hl hc hr
  · intro cv op l r hl hr; exact binary cv op l r hl hr
  · intro cv op e h; exact pre cv op e h
  · intro cv stmt ref args h; exact call cv stmt ref args h
  · intro a ha; cases ha
  · intro e es he hes a ha
    cases ha with
    | head => exact he
    | tail _ h => exact hes a h

/-- Induction principle with a hypothesis for every child of a block. -/
theorem Stmt.ind {P : Stmt → Prop} (const_ : ∀ k d cv e, P (.const_ k d cv e))
    (let_ : ∀ k d cv init, P (.let_ k d cv init)) (staticAssert : ∀ cv e, P (.staticAssert cv e))
    (ifThen : ∀ c t, P t → P (.ifThen c t)) (ifElse : ∀ c t e, P t → P e → P (.ifElse c t e))
    (while_ : ∀ c b, P b → P (.while_ c b)) (control : ∀ c cv e, P (.control c cv e))
    (assign : ∀ cv t e, P (.assign cv t e)) (block : ∀ ss, (∀ s ∈ ss, P s) → P (.block ss))
    (call : ∀ e, P (.call e)) : ∀ s, P s := by
  refine Stmt.rec (motive_1 := P) (motive_2 := fun ss => ∀ s ∈ ss, P s) const_ let_ staticAssert
    ifThen ifElse while_ control assign block call ?_ ?_
  · intro s hs; cases hs
  · intro s ss hs hss x hx
    cases hx with
    | head => exact hs
    | tail _ h => exact hss x h

end Bms
