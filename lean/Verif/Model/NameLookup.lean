import Verif.Model.Tree

/-!
# Symbol tables and name lookup

Transcribes src/bms/symbol_table.hpp and src/bms/analyze_name_lookup.cpp. The analyzer writes
`lookup_result` of identifiers, calls and assignments, `bit_generic` of identifiers and `is_generic`
of functions; here, it returns the tree with these fields filled.
-/

namespace Bms

/-- `Analysis_Error_Code`, src/bms/analysis_error.hpp:17-134, as far as analysis of names and types
reports it. The codes that operator checks report are in `CheckErr`; `evaluation_error` and
`execution_error` carry the error they wrap (src/bms/analysis_error.hpp:296-345). -/
inductive ACode where
  | failed_to_define_global_const | failed_to_define_function | failed_to_define_parameter
  | failed_to_define_variable | reference_to_undefined_variable | assignment_of_undefined_variable
  | call_to_undefined_function | width_not_integer | width_invalid | expected_constant_expression
  | let_variable_in_constant_expression | parameter_in_constant_expression | function_in_expression
  | invalid_integer_literal | assigning_parameter | assigning_function | assigning_const
  | call_non_function | codegen_call_to_unanalyzed | width_deduction_from_non_uint
  | static_assert_expression_not_bool | static_assertion_failed | requires_clause_not_bool
  | requires_clause_not_satisfied | use_of_undefined_variable | use_of_undefined_constant
  | empty_return_in_non_void_function | non_bool_logical | break_outside_loop
  | continue_outside_loop
  | check (e : CheckErr)
  | evaluation (e : EvalErr)
  | execution (e : ExecErr)
deriving DecidableEq, Repr

/-- `Analysis_Error`, src/bms/analysis_error.hpp:205-290: code and the node at which analysis failed.
The cause and extra values for messages are left out. -/
structure AErr where
  code : ACode
  fail : Key
deriving DecidableEq, Repr

/-! ## Symbol tables -/

/-- `Symbol_Table::m_symbols`. -/
abbrev Symbols := List (Name × Lookup)

/-- `Symbol_Table`, src/bms/symbol_table.hpp:20-94: the symbols of the table itself, of its parent, of
the parent of the parent and so on. -/
abbrev SymbolTable := List Symbols

/-- `find`, src/bms/symbol_table.hpp:81-93. The parent comes first. -/
def SymbolTable.find : SymbolTable → Name → Option Lookup
  | [], _ => none
  | m :: parent, name =>
    match find parent name with
    | some r => some r
    | none => m.lookup name

/-- `emplace`, src/bms/symbol_table.hpp:64-79: the table with the new symbol, or the existing node. -/
def SymbolTable.emplace (t : SymbolTable) (name : Name) (node : Lookup) (shadow : Bool) :
    Lookup ⊕ SymbolTable :=
  match t with
  | [] => .inr []
  | m :: parent =>
    match (if shadow then none else SymbolTable.find parent name) with
    | some old => .inl old
    | none =>
      match m.lookup name with
      | some old => .inl old
      | none => .inr (((name, node) :: m) :: parent)

/-- `builtin_symbols`, src/bms/analyze_name_lookup.cpp:17. -/
def builtinSymbols : Symbols := [("assert".toList, .builtin .assert)]

/-- `shadowing`, src/bms/analyze_name_lookup.cpp:19. -/
def shadowing : Bool := false

namespace Names

mutual

/-- `analyze_symbols_local` for expressions, src/bms/analyze_name_lookup.cpp:136-167 (children in
order), 272-282 (calls), 284-294 (identifiers). -/
def expr (t : SymbolTable) : AExpr → Outcome AErr AExpr
  | .literal k cv l => .ok (.literal k cv l)
  | .id k cv name _ generic =>
    match t.find name with
    | some r => .ok (.id k cv name (some r) generic)
    | none => .err ⟨.reference_to_undefined_variable, k⟩
  | .conversion k cv e to => do
    let e ← expr t e
    let to ← type t to
    .ok (.conversion k cv e to)
  | .ite k cv l c r => do
    let l ← expr t l
    let c ← expr t c
    let r ← expr t r
    .ok (.ite k cv l c r)
  | .binary k cv op l r => do
    let l ← expr t l
    let r ← expr t r
    .ok (.binary k cv op l r)
  | .prefix k cv op e => do
    let e ← expr t e
    .ok (.prefix k cv op e)
  | .call k cv stmt name _ args =>
    match t.find name with
    | some r => do
      let args ← exprs t args
      .ok (.call k cv stmt name (some r) args)
    | none => .err ⟨.call_to_undefined_function, k⟩

/-- `analyze_symbols_local` for type nodes: the width. -/
def type (t : SymbolTable) : AType → Outcome AErr AType
  | .base k cv b => .ok (.base k cv b)
  | .uint k cv c w => do
    let w ← expr t w
    .ok (.uint k cv c w)

/-- `analyze_all_symbols_local`, src/bms/analyze_name_lookup.cpp:150-159. -/
def exprs (t : SymbolTable) : List AExpr → Outcome AErr (List AExpr)
  | [] => .ok []
  | e :: es => do
    let e ← expr t e
    let es ← exprs t es
    .ok (e :: es)

end

/-- `analyze_symbols_local` for an optional child: `nullptr` is skipped,
src/bms/analyze_name_lookup.cpp:138-140. -/
def optional {α : Type} (f : α → Outcome AErr α) : Option α → Outcome AErr (Option α)
  | none => .ok none
  | some x => do
    let x ← f x
    .ok (some x)

mutual

/-- `analyze_symbols_local` for statements: the table afterwards and the statement.
src/bms/analyze_name_lookup.cpp:161-167 (children in order), 225-230 (blocks), 232-243 (`const`),
245-256 (`let`), 258-262 (`static_assert`), 264-275 (assignments). -/
def stmt (t : SymbolTable) : AStmt → Outcome AErr (SymbolTable × AStmt)
  | .const_ k cv name ty init =>
    match t.emplace name (.node k) shadowing with
    | .inl _ => .err ⟨.failed_to_define_variable, k⟩
    | .inr t => do
      let ty ← optional (type t) ty
      let init ← expr t init
      .ok (t, .const_ k cv name ty init)
  | .let_ k cv name ty init =>
    match t.emplace name (.node k) shadowing with
    | .inl _ => .err ⟨.failed_to_define_variable, k⟩
    | .inr t => do
      let ty ← optional (type t) ty
      let init ← optional (expr t) init
      .ok (t, .let_ k cv name ty init)
  | .staticAssert k cv e => do
    let e ← expr t e
    .ok (t, .staticAssert k cv e)
  | .ifThen k cv c th => do
    let c ← expr t c
    let (t, th) ← stmt t th
    .ok (t, .ifThen k cv c th)
  | .ifElse k cv c th el => do
    let c ← expr t c
    let (t, th) ← stmt t th
    let (t, el) ← stmt t el
    .ok (t, .ifElse k cv c th el)
  | .while_ k cv c b => do
    let c ← expr t c
    let (t, b) ← stmt t b
    .ok (t, .while_ k cv c b)
  | .control k cv c e => do
    let e ← optional (expr t) e
    .ok (t, .control k cv c e)
  | .assign k cv name _ e =>
    match t.find name with
    | some r => do
      let e ← expr t e
      .ok (t, .assign k cv name (some r) e)
    | none => .err ⟨.assignment_of_undefined_variable, k⟩
  | .block k cv ss => do
    let (_, ss) ← stmts ([] :: t) ss
    .ok (t, .block k cv ss)
  | .call e => do
    let e ← expr t e
    .ok (t, .call e)

/-- `analyze_all_symbols_local` for statements. -/
def stmts (t : SymbolTable) : List AStmt → Outcome AErr (SymbolTable × List AStmt)
  | [] => .ok (t, [])
  | s :: ss => do
    let (t, s) ← stmt t s
    let (t, ss) ← stmts t ss
    .ok (t, s :: ss)

end

/-- `analyze_parameter`, src/bms/analyze_name_lookup.cpp:193-223: the table afterwards, the parameter,
and whether the function becomes generic. An identifier in place of the width that is not visible
becomes a width parameter. -/
def param (t : SymbolTable) (p : AParam) : Outcome AErr (SymbolTable × AParam × Bool) :=
  match t.emplace p.name (.param p.k) shadowing with
  | .inl _ => .err ⟨.failed_to_define_parameter, p.k⟩
  | .inr t =>
    match p.type with
    | .base .. => .ok (t, p, false)
    | .uint k cv c w =>
      match expr t w with
      | .ok w => .ok (t, { p with type := .uint k cv c w }, false)
      | .err e =>
        if e.code ≠ .reference_to_undefined_variable then .throws
        else match w with
          | .id kw cvw name ref _ =>
            match t.emplace name (.node kw) shadowing with
            | .inl _ => .ok (t, { p with type := .uint k cv c (.id kw cvw name ref true) }, true)
            | .inr t => .ok (t, { p with type := .uint k cv c (.id kw cvw name ref true) }, true)
          | _ => .err e
      | .throws => .throws
      | .ub => .ub

/-- The loop over the parameters, src/bms/analyze_name_lookup.cpp:172-176. -/
def params (t : SymbolTable) : List AParam → Outcome AErr (SymbolTable × List AParam × Bool)
  | [] => .ok (t, [], false)
  | p :: ps => do
    let (t, p, g) ← param t p
    let (t, ps, gs) ← params t ps
    .ok (t, p :: ps, g || gs)

/-- `analyze_symbols_local` for functions, src/bms/analyze_name_lookup.cpp:169-191. -/
def function (t : SymbolTable) (f : AFn) : Outcome AErr AFn := do
  let (t, ps, g) ← params ([] :: t) f.params
  let ret ← type t f.ret
  let req ← optional (expr t) f.requires_
  let (_, body) ← stmts ([] :: t) f.body
  .ok { f with params := ps, ret := ret, requires_ := req, body := body, generic := f.generic || g }

/-- `Register_Global_Declarations`, src/bms/analyze_name_lookup.cpp:66-103. -/
def register (t : SymbolTable) : List ADecl → Outcome AErr SymbolTable
  | [] => .ok t
  | .const_ k _ name _ _ :: ds =>
    match t.emplace name (.node k) shadowing with
    | .inl _ => .err ⟨.failed_to_define_global_const, k⟩
    | .inr t => register t ds
  | .function f :: ds =>
    match t.emplace f.name (.node f.k) shadowing with
    | .inl _ => .err ⟨.failed_to_define_function, f.k⟩
    | .inr t => register t ds
  | .staticAssert .. :: ds => register t ds

/-- `Analyze_Symbols_Global`, src/bms/analyze_name_lookup.cpp:105-134. -/
def decl (t : SymbolTable) : ADecl → Outcome AErr ADecl
  | .const_ k cv name ty init => do
    Outcome.assert (t.find name = some (.node k))
    let ty ← optional (type t) ty
    let init ← expr t init
    .ok (.const_ k cv name ty init)
  | .function f => do
    Outcome.assert (t.find f.name = some (.node f.k))
    let f ← function t f
    .ok (.function f)
  | .staticAssert k cv e => do
    let e ← expr t e
    .ok (.staticAssert k cv e)

/-- The second pass over the declarations. -/
def decls (t : SymbolTable) : List ADecl → Outcome AErr (List ADecl)
  | [] => .ok []
  | d :: ds => do
    let d ← decl t d
    let ds ← decls t ds
    .ok (d :: ds)

/-- `analyze_name_lookup`, src/bms/analyze_name_lookup.cpp:43-64, 300-305. -/
def program (ds : List ADecl) : Outcome AErr (List ADecl) := do
  let t ← register [[], builtinSymbols] ds
  decls t ds

end Names

end Bms
