import Verif.Lemmas.OrderTyped

/-!
# Other addresses of nodes

The tree of a program with other addresses of nodes: name lookup and the rules for programs do not depend on
the addresses, as long as they are different.
-/

namespace Bms

open Spec

namespace Renumber

variable (τ : Key → Key)

/-- What a name is bound to. -/
def lookup : Lookup → Lookup
  | .node k => .node (τ k)
  | .param k => .param (τ k)
  | .builtin f => .builtin f

mutual

/-- Expressions. -/
def expr : AExpr → AExpr
  | .literal k cv l => .literal (τ k) cv l
  | .id k cv x r g => .id (τ k) cv x (r.map (lookup τ)) g
  | .conversion k cv e t => .conversion (τ k) cv (expr e) (type t)
  | .ite k cv l c r => .ite (τ k) cv (expr l) (expr c) (expr r)
  | .binary k cv op l r => .binary (τ k) cv op (expr l) (expr r)
  | .prefix k cv op e => .prefix (τ k) cv op (expr e)
  | .call k cv st x r args => .call (τ k) cv st x (r.map (lookup τ)) (exprs args)

/-- Types. -/
def type : AType → AType
  | .base k cv b => .base (τ k) cv b
  | .uint k cv c w => .uint (τ k) cv c (expr w)

/-- Several expressions. -/
def exprs : List AExpr → List AExpr
  | [] => []
  | e :: es => expr e :: exprs es

end

mutual

/-- Statements. -/
def stmt : AStmt → AStmt
  | .const_ k cv x t e => .const_ (τ k) cv x (t.map (type τ)) (expr τ e)
  | .let_ k cv x t e => .let_ (τ k) cv x (t.map (type τ)) (e.map (expr τ))
  | .staticAssert k cv e => .staticAssert (τ k) cv (expr τ e)
  | .ifThen k cv c b => .ifThen (τ k) cv (expr τ c) (stmt b)
  | .ifElse k cv c b e => .ifElse (τ k) cv (expr τ c) (stmt b) (stmt e)
  | .while_ k cv c b => .while_ (τ k) cv (expr τ c) (stmt b)
  | .control k cv c e => .control (τ k) cv c (e.map (expr τ))
  | .assign k cv x r e => .assign (τ k) cv x (r.map (lookup τ)) (expr τ e)
  | .block k cv ss => .block (τ k) cv (stmts ss)
  | .call e => .call (expr τ e)

/-- Several statements. -/
def stmts : List AStmt → List AStmt
  | [] => []
  | s :: ss => stmt s :: stmts ss

end

/-- Parameters. -/
def param (p : AParam) : AParam := ⟨τ p.k, p.name, type τ p.type⟩

/-- Instances. -/
def inst (i : AInstance) : AInstance := ⟨i.widths, τ i.key⟩

/-- Functions. -/
def fn (f : AFn) : AFn :=
  { f with k := τ f.k, params := f.params.map (param τ), ret := type τ f.ret,
           requires_ := f.requires_.map (expr τ), bodyKey := τ f.bodyKey, body := stmts τ f.body,
           instances := f.instances.map (inst τ) }

/-- Global declarations. -/
def decl : ADecl → ADecl
  | .const_ k cv x t e => .const_ (τ k) cv x (t.map (type τ)) (expr τ e)
  | .staticAssert k cv e => .staticAssert (τ k) cv (expr τ e)
  | .function f => .function (fn τ f)

/-- Errors. -/
def error (e : AErr) : AErr := ⟨e.code, τ e.fail⟩

/-- Tables of symbols. -/
def table (t : SymbolTable) : SymbolTable := t.map fun m => m.map fun p => (p.1, lookup τ p.2)

/-- Results. -/
def outcome {α β : Type} (g : α → β) (o : Outcome AErr α) : Outcome AErr β := (o.map g).mapErr (error τ)

/-! ## Name lookup -/

theorem lookup_ren (m : Symbols) (name : Name) :
    List.lookup name (m.map fun p => (p.1, lookup τ p.2)) = (m.lookup name).map (lookup τ) := by
  induction m with
  | nil => rfl
  | cons p m ih =>
    obtain ⟨x, r⟩ := p
    simp only [List.map_cons, List.lookup_cons, ih]
    cases name == x <;> rfl

theorem find_ren (t : SymbolTable) (name : Name) : (table τ t).find name = (t.find name).map (lookup τ) := by
  induction t with
  | nil => rfl
  | cons m t ih =>
    have : table τ (m :: t) = (m.map fun p => (p.1, lookup τ p.2)) :: table τ t := rfl
    rw [this]
    simp only [SymbolTable.find, ih, lookup_ren]
    cases SymbolTable.find t name <;> rfl

theorem emplace_ren (t : SymbolTable) (name : Name) (r : Lookup) :
    (∃ old, t.emplace name r shadowing = .inl old ∧
      (table τ t).emplace name (lookup τ r) shadowing = .inl (lookup τ old)) ∨
    ∃ t', t.emplace name r shadowing = .inr t' ∧
      (table τ t).emplace name (lookup τ r) shadowing = .inr (table τ t') := by
  cases t with
  | nil => exact .inr ⟨[], rfl, rfl⟩
  | cons m p =>
    have : table τ (m :: p) = (m.map fun p => (p.1, lookup τ p.2)) :: table τ p := rfl
    rw [this]
    simp only [SymbolTable.emplace, shadowing, Bool.false_eq_true, if_false, find_ren, lookup_ren]
    cases SymbolTable.find p name with
    | some old => exact .inl ⟨old, rfl, rfl⟩
    | none =>
      cases m.lookup name with
      | some old => exact .inl ⟨old, rfl, rfl⟩
      | none => exact .inr ⟨_, rfl, rfl⟩

mutual

theorem expr_ren (t : SymbolTable) : (e : AExpr) →
    Names.expr (table τ t) (expr τ e) = outcome τ (expr τ) (Names.expr t e)
  | .literal .. => by simp [Names.expr, expr, outcome]
  | .id _ _ x _ _ => by
    simp only [Names.expr, expr, find_ren]
    cases t.find x <;> simp [outcome, expr, error]
  | .conversion _ _ e ty => by
    simp only [Names.expr, expr, expr_ren t e, type_ren t ty]
    cases Names.expr t e <;> cases Names.type t ty <;> simp [outcome, expr, error]
  | .ite _ _ l c r => by
    simp only [Names.expr, expr, expr_ren t l, expr_ren t c, expr_ren t r]
    cases Names.expr t l <;> cases Names.expr t c <;> cases Names.expr t r <;> simp [outcome, expr, error]
  | .binary _ _ _ l r => by
    simp only [Names.expr, expr, expr_ren t l, expr_ren t r]
    cases Names.expr t l <;> cases Names.expr t r <;> simp [outcome, expr, error]
  | .prefix _ _ _ e => by
    simp only [Names.expr, expr, expr_ren t e]
    cases Names.expr t e <;> simp [outcome, expr, error]
  | .call _ _ _ x _ args => by
    simp only [Names.expr, expr, find_ren, exprs_ren t args]
    cases t.find x <;> cases Names.exprs t args <;> simp [outcome, expr, error]

theorem type_ren (t : SymbolTable) : (ty : AType) →
    Names.type (table τ t) (type τ ty) = outcome τ (type τ) (Names.type t ty)
  | .base .. => by simp [Names.type, type, outcome]
  | .uint _ _ _ w => by
    simp only [Names.type, type, expr_ren t w]
    cases Names.expr t w <;> simp [outcome, type, error]

theorem exprs_ren (t : SymbolTable) : (es : List AExpr) →
    Names.exprs (table τ t) (exprs τ es) = outcome τ (exprs τ) (Names.exprs t es)
  | [] => by simp [Names.exprs, exprs, outcome]
  | e :: es => by
    simp only [Names.exprs, exprs, expr_ren t e, exprs_ren t es]
    cases Names.expr t e <;> cases Names.exprs t es <;> simp [outcome, exprs, error]

end

theorem optional_expr_ren (t : SymbolTable) (e : Option AExpr) :
    Names.optional (Names.expr (table τ t)) (e.map (expr τ)) =
      outcome τ (Option.map (expr τ)) (Names.optional (Names.expr t) e) := by
  cases e with
  | none => rfl
  | some e =>
    simp only [Option.map_some, Names.optional, expr_ren]
    cases Names.expr t e <;> simp [outcome, error]

theorem optional_type_ren (t : SymbolTable) (e : Option AType) :
    Names.optional (Names.type (table τ t)) (e.map (type τ)) =
      outcome τ (Option.map (type τ)) (Names.optional (Names.type t) e) := by
  cases e with
  | none => rfl
  | some e =>
    simp only [Option.map_some, Names.optional, type_ren]
    cases Names.type t e <;> simp [outcome, error]

theorem table_cons (t : SymbolTable) : table τ ([] :: t) = [] :: table τ t := rfl

mutual

theorem stmt_ren : (s : AStmt) → (t : SymbolTable) →
    Names.stmt (table τ t) (stmt τ s) = outcome τ (fun p => (table τ p.1, stmt τ p.2)) (Names.stmt t s)
  | .const_ k cv x ty e, t => by
    simp only [Names.stmt, stmt]
    rcases emplace_ren τ t x (.node k) with ⟨old, h1, h2⟩ | ⟨t', h1, h2⟩
    · rw [h1]
      simp only [lookup] at h2
      rw [h2]
      simp [outcome, error]
    · rw [h1]
      simp only [lookup] at h2
      rw [h2]
      simp only [optional_type_ren, expr_ren]
      cases Names.optional (Names.type t') ty <;> cases Names.expr t' e <;> simp [outcome, stmt, error]
  | .let_ k cv x ty e, t => by
    simp only [Names.stmt, stmt]
    rcases emplace_ren τ t x (.node k) with ⟨old, h1, h2⟩ | ⟨t', h1, h2⟩
    · rw [h1]
      simp only [lookup] at h2
      rw [h2]
      simp [outcome, error]
    · rw [h1]
      simp only [lookup] at h2
      rw [h2]
      simp only [optional_type_ren, optional_expr_ren]
      cases Names.optional (Names.type t') ty <;> cases Names.optional (Names.expr t') e <;>
        simp [outcome, stmt, error]
  | .staticAssert _ _ e, t => by
    simp only [Names.stmt, stmt, expr_ren]
    cases Names.expr t e <;> simp [outcome, stmt, error]
  | .ifThen _ _ c b, t => by
    simp only [Names.stmt, stmt, expr_ren, stmt_ren b]
    cases Names.expr t c <;> cases Names.stmt t b <;> simp [outcome, stmt, error]
  | .ifElse _ _ c b e, t => by
    simp only [Names.stmt, stmt, expr_ren, stmt_ren b]
    cases Names.expr t c <;> cases Names.stmt t b <;> simp [outcome, error]
    rename_i p
    rw [stmt_ren e]
    cases Names.stmt p.1 e <;> simp [outcome, stmt, error]
  | .while_ _ _ c b, t => by
    simp only [Names.stmt, stmt, expr_ren, stmt_ren b]
    cases Names.expr t c <;> cases Names.stmt t b <;> simp [outcome, stmt, error]
  | .control _ _ c e, t => by
    simp only [Names.stmt, stmt, optional_expr_ren]
    cases Names.optional (Names.expr t) e <;> simp [outcome, stmt, error]
  | .assign _ _ x _ e, t => by
    simp only [Names.stmt, stmt, find_ren, expr_ren]
    cases t.find x <;> cases Names.expr t e <;> simp [outcome, stmt, error]
  | .block _ _ ss, t => by
    simp only [Names.stmt, stmt, ← table_cons, stmts_ren ss]
    cases Names.stmts ([] :: t) ss <;> simp [outcome, stmt, error]
  | .call e, t => by
    simp only [Names.stmt, stmt, expr_ren]
    cases Names.expr t e <;> simp [outcome, stmt, error]

theorem stmts_ren : (ss : List AStmt) → (t : SymbolTable) →
    Names.stmts (table τ t) (stmts τ ss) = outcome τ (fun p => (table τ p.1, stmts τ p.2)) (Names.stmts t ss)
  | [], t => by simp [Names.stmts, stmts, outcome]
  | s :: ss, t => by
    simp only [Names.stmts, stmts, stmt_ren s]
    cases Names.stmt t s <;> simp [outcome, error]
    rename_i p
    rw [stmts_ren ss]
    cases Names.stmts p.1 ss <;> simp [outcome, stmts, error]

end

theorem param_ren (t : SymbolTable) (p : AParam) :
    Names.param (table τ t) (param τ p) =
      outcome τ (fun q => (table τ q.1, param τ q.2.1, q.2.2)) (Names.param t p) := by
  obtain ⟨k, x, ty⟩ := p
  unfold Names.param
  simp only [param]
  rcases emplace_ren τ t x (.param k) with ⟨old, h1, h2⟩ | ⟨t', h1, h2⟩
  · rw [h1]
    simp only [lookup] at h2
    rw [h2]
    simp [outcome, error]
  · rw [h1]
    simp only [lookup] at h2
    rw [h2]
    cases ty with
    | base kt cv b => simp [type, outcome, param]
    | uint kt cv c w =>
      simp only [type, expr_ren]
      cases hw : Names.expr t' w with
      | ok w' => simp [outcome, param, type]
      | throws => simp [outcome]
      | ub => simp [outcome]
      | err e =>
        simp only [outcome, Outcome.map_err, Outcome.mapErr_err]
        by_cases hc : e.code ≠ .reference_to_undefined_variable
        · simp [error, hc]
        · simp only [error, hc, if_false]
          cases w with
          | id kw cvw name ref g =>
            simp only [expr]
            rcases emplace_ren τ t' name (.node kw) with ⟨old, h3, h4⟩ | ⟨t2, h3, h4⟩
            · rw [h3]
              simp only [lookup] at h4
              rw [h4]
              simp [param, type, expr]
            · rw [h3]
              simp only [lookup] at h4
              rw [h4]
              simp [param, type, expr]
          | _ => simp [expr, error]

theorem params_ren (ps : List AParam) (t : SymbolTable) :
    Names.params (table τ t) (ps.map (param τ)) =
      outcome τ (fun q => (table τ q.1, q.2.1.map (param τ), q.2.2)) (Names.params t ps) := by
  induction ps generalizing t with
  | nil => rfl
  | cons p ps ih =>
    simp only [Names.params, List.map_cons, param_ren]
    cases Names.param t p <;> simp [outcome]
    rename_i q
    rw [ih]
    cases Names.params q.1 ps <;> simp [outcome]

theorem function_ren (t : SymbolTable) (f : AFn) :
    Names.function (table τ t) (fn τ f) = outcome τ (fn τ) (Names.function t f) := by
  simp only [Names.function, fn, ← table_cons, params_ren]
  cases Names.params ([] :: t) f.params <;> simp [outcome]
  rename_i q
  rw [type_ren]
  cases Names.type q.1 f.ret <;> simp [outcome]
  rw [optional_expr_ren]
  cases Names.optional (Names.expr q.1) f.requires_ <;> simp [outcome]
  rw [← table_cons, stmts_ren]
  cases Names.stmts ([] :: q.1) f.body <;> simp [outcome, fn]

theorem lookup_inj {τ : Key → Key} (hi : ∀ a b, τ a = τ b → a = b) {r r' : Lookup} (h : lookup τ r = lookup τ r') :
    r = r' := by
  cases r <;> cases r' <;> simp only [lookup, Lookup.node.injEq, Lookup.param.injEq, Lookup.builtin.injEq,
    reduceCtorEq] at h ⊢
  · exact hi _ _ h
  · exact hi _ _ h

theorem find_node {τ : Key → Key} (hi : ∀ a b, τ a = τ b → a = b) (t : SymbolTable) (x : Name) (k : Key) :
    ((table τ t).find x = some (.node (τ k))) = (t.find x = some (.node k)) := by
  rw [find_ren]
  apply propext
  constructor
  · intro h
    cases hf : t.find x with
    | none => rw [hf] at h; cases h
    | some r =>
      rw [hf] at h
      simp only [Option.map_some, Option.some.injEq] at h
      rw [lookup_inj hi (r' := .node k) h]
  · intro h
    rw [h]
    rfl

theorem decl_ren {τ : Key → Key} (hi : ∀ a b, τ a = τ b → a = b) (t : SymbolTable) (d : ADecl) :
    Names.decl (table τ t) (decl τ d) = outcome τ (decl τ) (Names.decl t d) := by
  cases d with
  | const_ k cv x ty e =>
    simp only [Names.decl, decl, find_node hi, optional_type_ren, expr_ren]
    by_cases h : t.find x = some (.node k)
    · simp only [h, decide_true, Outcome.assert_true, Outcome.ok_bind]
      cases Names.optional (Names.type t) ty <;> cases Names.expr t e <;> simp [outcome, decl]
    · simp [h, outcome]
  | staticAssert k cv e =>
    simp only [Names.decl, decl, expr_ren]
    cases Names.expr t e <;> simp [outcome, decl]
  | function f =>
    simp only [Names.decl, decl]
    have hk : ((table τ t).find (fn τ f).name = some (.node (fn τ f).k)) = (t.find f.name = some (.node f.k)) :=
      find_node hi t f.name f.k
    simp only [hk, function_ren]
    by_cases h : t.find f.name = some (.node f.k)
    · simp only [h, decide_true, Outcome.assert_true, Outcome.ok_bind]
      cases Names.function t f <;> simp [outcome, decl]
    · simp [h, outcome]

theorem decls_ren {τ : Key → Key} (hi : ∀ a b, τ a = τ b → a = b) (t : SymbolTable) (ds : List ADecl) :
    Names.decls (table τ t) (ds.map (decl τ)) = outcome τ (List.map (decl τ)) (Names.decls t ds) := by
  induction ds with
  | nil => rfl
  | cons d ds ih =>
    simp only [Names.decls, List.map_cons, decl_ren hi, ih]
    cases Names.decl t d <;> cases Names.decls t ds <;> simp [outcome]

theorem register_ren (ds : List ADecl) (t : SymbolTable) :
    Names.register (table τ t) (ds.map (decl τ)) = outcome τ (table τ) (Names.register t ds) := by
  induction ds generalizing t with
  | nil => rfl
  | cons d ds ih =>
    cases d with
    | const_ k cv x ty e =>
      simp only [List.map_cons, decl, Names.register]
      rcases emplace_ren τ t x (.node k) with ⟨old, h1, h2⟩ | ⟨t', h1, h2⟩
      · rw [h1]
        simp only [lookup] at h2
        rw [h2]
        simp [outcome, error]
      · rw [h1]
        simp only [lookup] at h2
        rw [h2]
        exact ih t'
    | staticAssert k cv e =>
      simp only [List.map_cons, decl, Names.register]
      exact ih t
    | function f =>
      simp only [List.map_cons, decl, Names.register]
      rcases emplace_ren τ t f.name (.node f.k) with ⟨old, h1, h2⟩ | ⟨t', h1, h2⟩
      · rw [h1]
        simp only [lookup] at h2
        rw [show (fn τ f).name = f.name from rfl, show (fn τ f).k = τ f.k from rfl, h2]
        simp [outcome, error]
      · rw [h1]
        simp only [lookup] at h2
        rw [show (fn τ f).name = f.name from rfl, show (fn τ f).k = τ f.k from rfl, h2]
        exact ih t'

/-- Name lookup does not depend on the addresses of nodes. -/
theorem names_ren {τ : Key → Key} (hi : ∀ a b, τ a = τ b → a = b) (ds : List ADecl) :
    Names.program (ds.map (decl τ)) = outcome τ (List.map (decl τ)) (Names.program ds) := by
  unfold Names.program
  have := register_ren τ ds [[], builtinSymbols]
  rw [show table τ [[], builtinSymbols] = [[], builtinSymbols] from rfl] at this
  rw [this]
  cases Names.register [[], builtinSymbols] ds with
  | ok t => exact decls_ren hi t ds
  | err e => simp [outcome]
  | throws => simp [outcome]
  | ub => simp [outcome]

end Renumber

end Bms
