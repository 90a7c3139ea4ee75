import Verif.Model.Codegen

/-!
# The tree of a program before and during analysis

Transcribes the node types of src/bms/ast.hpp with everything that name lookup, instantiation and
type analysis read or write. Where `Model/Ast.lean` has the parts of a finished function that code
generation reads, the trees here also have names, type nodes with their width expressions, and the
state of analysis of functions; `AExpr.erase`, `AStmt.erase` and `AFn.node` give the former.

Simplifications:
* Every node has a key, which stands for its address; parameters (which are no nodes) have keys as
  well.
* Annotations and source positions are left out.
* The parser gives a width to `Uint` and to no other type (src/bms/parsing/parse.cpp:1476-1512), and
  an initializer to every `const`; trees without are left out.
-/

namespace Bms

/-- Names: `std::string_view` into the source. -/
abbrev Name := List Char

/-- `Type_Type` other than `Uint`, src/bms/concrete_type.hpp:13-22. -/
inductive BaseType where
  | void | bool | int
deriving DecidableEq, Repr

/-- `Concrete_Type { m_type }`. -/
def BaseType.type : BaseType → CType
  | .void => .void
  | .bool => .bool
  | .int => .int

mutual

/-- Expression nodes. `k` is the address of the node, `cv` its `const_value()`. -/
inductive AExpr where
  /-- `Literal`, src/bms/ast.hpp:1053-1084; `none` for tokens that are no literal for analysis (the
  parser also accepts string literals). -/
  | literal (k : Key) (cv : Option Value) (lit : Option Lit)
  /-- `Id_Expression`, src/bms/ast.hpp:1024-1051; `generic` is `bit_generic`. -/
  | id (k : Key) (cv : Option Value) (name : Name) (ref : Option Lookup) (generic : Bool)
  /-- `Conversion_Expression`, src/bms/ast.hpp:785-824. -/
  | conversion (k : Key) (cv : Option Value) (e : AExpr) (to : AType)
  /-- `If_Expression`, src/bms/ast.hpp:826-870. -/
  | ite (k : Key) (cv : Option Value) (left cond right : AExpr)
  /-- `Binary_Expression`, src/bms/ast.hpp:872-918. -/
  | binary (k : Key) (cv : Option Value) (op : ExprType) (left right : AExpr)
  /-- `Prefix_Expression`, src/bms/ast.hpp:920-957. -/
  | prefix (k : Key) (cv : Option Value) (op : ExprType) (e : AExpr)
  /-- `Function_Call_Expression`, src/bms/ast.hpp:959-1022. -/
  | call (k : Key) (cv : Option Value) (stmt : Bool) (name : Name) (ref : Option Lookup)
      (args : List AExpr)

/-- Type nodes, `Type`, src/bms/ast.hpp:391-440. -/
inductive AType where
  /-- `Void`, `Bool` and `Int`. -/
  | base (k : Key) (cv : Option Value) (t : BaseType)
  /-- `Uint(width)`; `concrete` is `concrete_width`. -/
  | uint (k : Key) (cv : Option Value) (concrete : Option Nat) (width : AExpr)

end

/-- Statement nodes, and the declarations that can occur in a block. -/
inductive AStmt where
  /-- `Const`, src/bms/ast.hpp:442-486. -/
  | const_ (k : Key) (cv : Option Value) (name : Name) (type : Option AType) (init : AExpr)
  /-- `Let`, src/bms/ast.hpp:488-532. -/
  | let_ (k : Key) (cv : Option Value) (name : Name) (type : Option AType) (init : Option AExpr)
  /-- `Static_Assert`, src/bms/ast.hpp:534-554. -/
  | staticAssert (k : Key) (cv : Option Value) (e : AExpr)
  /-- `If_Statement` without `else`, src/bms/ast.hpp:556-604. -/
  | ifThen (k : Key) (cv : Option Value) (cond : AExpr) (then_ : AStmt)
  /-- `If_Statement` with `else`. -/
  | ifElse (k : Key) (cv : Option Value) (cond : AExpr) (then_ else_ : AStmt)
  /-- `While_Statement`, src/bms/ast.hpp:606-652. -/
  | while_ (k : Key) (cv : Option Value) (cond : AExpr) (body : AStmt)
  /-- `Control_Statement`, src/bms/ast.hpp:679-727. -/
  | control (k : Key) (cv : Option Value) (c : Control) (e : Option AExpr)
  /-- `Assignment`, src/bms/ast.hpp:729-763. -/
  | assign (k : Key) (cv : Option Value) (name : Name) (ref : Option Lookup) (e : AExpr)
  /-- `Block_Statement`, src/bms/ast.hpp:765-783. -/
  | block (k : Key) (cv : Option Value) (ss : List AStmt)
  /-- A `Function_Call_Expression` used as a statement. -/
  | call (e : AExpr)

/-- `Parameter`, src/bms/ast.hpp:24-64. -/
structure AParam where
  k : Key
  name : Name
  type : AType

/-- `Analysis_Level`, src/bms/analysis_level.hpp:14-32. -/
inductive Level where
  | unanalyzed | shallow | full | forConst
deriving DecidableEq, Repr

/-- The order of analysis levels, src/bms/analysis_level.hpp:34-37. -/
def Level.rank : Level → Nat
  | .unanalyzed => 0
  | .shallow => 1
  | .full => 2
  | .forConst => 3

/-- `Function::Instance`, src/bms/ast.hpp:264-279; `key` is the address `handle`. -/
structure AInstance where
  widths : List Nat
  key : Key
deriving DecidableEq, Repr

/-- `Function`, src/bms/ast.hpp:253-389; `body` are the children of the body, which is always a
block; `address` is `vm_address`, `none` for `invalid_vm_address`. -/
structure AFn where
  k : Key
  cv : Option Value
  name : Name
  params : List AParam
  ret : AType
  requires_ : Option AExpr
  bodyKey : Key
  body : List AStmt
  instances : List AInstance
  generic : Bool
  address : Option Nat
  level : Level

/-- Children of `Program` (src/bms/ast.hpp:241-251): global constants and assertions, which have the
same node types as in blocks, and functions. -/
inductive ADecl where
  | const_ (k : Key) (cv : Option Value) (name : Name) (type : Option AType) (init : AExpr)
  | staticAssert (k : Key) (cv : Option Value) (e : AExpr)
  | function (f : AFn)

/-! ## Access -/

/-- The address of an expression. -/
def AExpr.key : AExpr → Key
  | .literal k .. => k
  | .id k .. => k
  | .conversion k .. => k
  | .ite k .. => k
  | .binary k .. => k
  | .prefix k .. => k
  | .call k .. => k

/-- `get_const_value`, src/bms/ast.hpp:1273-1281. -/
def AExpr.cv : AExpr → Option Value
  | .literal _ cv .. => cv
  | .id _ cv .. => cv
  | .conversion _ cv .. => cv
  | .ite _ cv .. => cv
  | .binary _ cv .. => cv
  | .prefix _ cv .. => cv
  | .call _ cv .. => cv

/-- The address of a type node. -/
def AType.key : AType → Key
  | .base k .. => k
  | .uint k .. => k

/-- `const_value()` of a type node. -/
def AType.cv : AType → Option Value
  | .base _ cv .. => cv
  | .uint _ cv .. => cv

/-- `Type::concrete_type`, src/bms/ast.hpp:423-434. -/
def AType.concreteType {ε : Type} : AType → Outcome ε (Option CType)
  | .base _ _ t => .ok (some t.type)
  | .uint _ _ (some w) _ => (CType.mkUint (w : Int)).map some
  | .uint _ _ none _ => .ok none

/-! ## What code generation reads -/

/-- `concrete_type()` as a value; `none` also where it throws, which does not happen after the node
was analyzed. -/
def AType.eraseType (t : AType) : Option CType :=
  match t.concreteType (ε := Unit) with
  | .ok t => t
  | _ => none

/-- The literal as code generation sees it (which does not look at it). -/
def eraseLit : Option Lit → Lit
  | some l => l
  | none => .integer []

mutual

/-- The expression as code generation sees it. -/
def AExpr.erase : AExpr → Expr
  | .literal _ cv l => .literal (eraseLit l) cv
  | .id _ cv _ ref _ => .id cv ref
  | .conversion _ cv e to => .conversion cv e.erase to.eraseType
  | .ite _ cv l c r => .ite cv l.erase c.erase r.erase
  | .binary _ cv op l r => .binary cv op l.erase r.erase
  | .prefix _ cv op e => .prefix cv op e.erase
  | .call _ cv stmt _ ref args => .call cv stmt ref (eraseAll args)

/-- Several expressions. -/
def eraseAll : List AExpr → List Expr
  | [] => []
  | e :: es => e.erase :: eraseAll es

end

theorem eraseAll_eq (es : List AExpr) : eraseAll es = es.map AExpr.erase := by
  induction es with
  | nil => simp [eraseAll]
  | cons e es ih => simp [eraseAll, ih]

theorem AExpr.erase_cv (e : AExpr) : e.erase.cv = e.cv := by
  cases e <;> simp [AExpr.erase, AExpr.cv, Expr.cv]

mutual

/-- The statement as code generation sees it. -/
def AStmt.erase : AStmt → Stmt
  | .const_ k cv _ t init => .const_ k (t.bind AType.eraseType) cv init.erase
  | .let_ k cv _ t init => .let_ k (t.bind AType.eraseType) cv (init.map AExpr.erase)
  | .staticAssert _ cv e => .staticAssert cv e.erase
  | .ifThen _ _ c t => .ifThen c.erase t.erase
  | .ifElse _ _ c t e => .ifElse c.erase t.erase e.erase
  | .while_ _ _ c b => .while_ c.erase b.erase
  | .control _ cv c e => .control c cv (e.map AExpr.erase)
  | .assign _ cv _ ref e => .assign cv ref e.erase
  | .block _ _ ss => .block (eraseStmts ss)
  | .call e => .call e.erase

/-- Several statements. -/
def eraseStmts : List AStmt → List Stmt
  | [] => []
  | s :: ss => s.erase :: eraseStmts ss

end

/-- The function as code generation for it sees it. -/
def AFn.node (f : AFn) : FunctionNode where
  params := f.params.map AParam.k
  retAnalyzed := f.ret.cv.isSome
  ret := f.ret.eraseType
  body := eraseStmts f.body

/-- The function as code generation for its calls sees it. -/
def AFn.info (f : AFn) : FnInfo where
  params := f.params.map fun p => p.type.cv
  analyzed := f.cv.isSome
  address := f.address

end Bms
