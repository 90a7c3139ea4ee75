import Verif.Lemmas.Build

/-!
# Programs with `>=`, from which no tree is made
-/

namespace Bms
namespace Build

open Parse (Kind Node Handle TypeType)
open Spec

variable {ns : List Node}

/-- Making an expression from nodes that form this tree throws. -/
def ExprT (t : Tree) : Prop := ∀ ns h, Reads ns h t → ∀ n, h < n → expr ns n h = .throws

/-- The function throws for the expressions with smaller handles than `b` for which `expr` throws. -/
def GoodT (ns : List Node) (b : Nat) (f : Nat → Outcome Unit AExpr) : Prop :=
  ∀ i, i < b → (∀ n, i < n → expr ns n i = .throws) → f i = .throws

def TypeT (t : Tree) : Prop := ∀ ns h, Reads ns h t → ∀ f, GoodT ns h f → typeWith ns f h = .throws
def StmtT (t : Tree) : Prop := ∀ ns h, Reads ns h t → ∀ n, h < n → stmt ns n h = .throws
def ParamT (t : Tree) : Prop := ∀ ns h, Reads ns h t → param ns h = .throws
def DeclT (t : Tree) : Prop := ∀ ns h, Reads ns h t → decl ns h = .throws

/-- One of the trees throws, those before it do not. -/
def FirstT (P T : Tree → Prop) (ts : List (Option Tree)) : Prop :=
  ∃ l t r, ts = l ++ some t :: r ∧ AllP P l ∧ T t

theorem goodT_expr {b n : Nat} (h : b ≤ n) : GoodT ns b (expr ns n) :=
  fun _ hi he => he _ (by omega)

theorem goodT_exprAt {b : Nat} : GoodT ns b (exprAt ns) := fun i _ he => he _ (by omega)

theorem ExprT.at {t : Tree} (ht : ExprT t) {h : Nat} (hr : Reads ns h t) : exprAt ns h = .throws :=
  ht ns h hr _ (by omega)

theorem TypeT.at {t : Tree} (ht : TypeT t) {h : Nat} (hr : Reads ns h t) : typeAt ns h = .throws :=
  ht ns h hr _ goodT_exprAt

theorem ExprP.at {t : Tree} (ht : ExprP t) {h : Nat} (hr : Reads ns h t) : ∃ e, exprAt ns h = .ok e := by
  obtain ⟨e, h1, -⟩ := exprAt_ok ht hr
  exact ⟨e, h1⟩

theorem TypeP.at {t : Tree} (ht : TypeP t) {h : Nat} (hr : Reads ns h t) : ∃ e, typeAt ns h = .ok e := by
  obtain ⟨e, h1, -⟩ := typeAt_ok ht hr
  exact ⟨e, h1⟩

theorem ExprP.ok {t : Tree} (ht : ExprP t) {h : Nat} (hr : Reads ns h t) :
    ∃ e, ∀ n, h < n → expr ns n h = .ok e := by
  obtain ⟨e, h1, -⟩ := ht ns h hr
  exact ⟨e, h1⟩

theorem StmtP.ok {t : Tree} (ht : StmtP t) {h : Nat} (hr : Reads ns h t) :
    ∃ e, ∀ n, h < n → stmt ns n h = .ok e := by
  obtain ⟨e, h1, -⟩ := ht ns h hr
  exact ⟨e, h1⟩

theorem all_throws {α : Type} {f : Nat → Outcome Unit α} {b : Nat} {t : Tree} {r : List (Option Tree)}
    (ht : ∀ h, h < b → Reads ns h t → f h = .throws) :
    ∀ {l : List (Option Tree)} {hs : List Handle}, ReadsAll ns b hs (l ++ some t :: r) →
      AllP (fun t => ∀ h, h < b → Reads ns h t → ∃ x, f h = .ok x) l → all f hs = .throws
  | [], hs, hr, _ => by
    obtain ⟨c, hs', rfl, hc, h1, h2⟩ := readsAll_some hr
    simp [all, ht c hc h1]
  | o :: l, hs, hr, h => by
    obtain ⟨t', rfl, ht'⟩ := h o (by simp)
    obtain ⟨c, hs', rfl, hc, h1, h2⟩ := readsAll_some hr
    obtain ⟨x, e⟩ := ht' c hc h1
    simp [all, e, all_throws ht h2 fun o ho => h o (by simp [ho])]

theorem FirstT.all {α : Type} {P T : Tree → Prop} {f : Nat → Outcome Unit α} {b : Nat}
    {ts : List (Option Tree)} {hs : List Handle} (h : FirstT P T ts) (hr : ReadsAll ns b hs ts)
    (hP : ∀ t, P t → ∀ h, h < b → Reads ns h t → ∃ x, f h = .ok x)
    (hT : ∀ t, T t → ∀ h, h < b → Reads ns h t → f h = .throws) : Build.all f hs = .throws := by
  obtain ⟨l, t, r, rfl, h1, h2⟩ := h
  refine all_throws (hT t h2) hr fun o ho => ?_
  obtain ⟨t, e, h⟩ := h1 o ho
  exact ⟨t, e, hP t h⟩

theorem optional_throws {α : Type} {f : Nat → Outcome Unit α} {h : Nat} (he : f h = .throws) :
    optional f (some h) = .throws := by
  simp [optional, he]

theorem optional_some {P : Tree → Prop} {α : Type} {f : Nat → Outcome Unit α} {b : Nat} {c : Handle}
    {o : Option Tree} (hr : ReadsO ns b c o) (h : ∀ t ∈ o, P t)
    (hP : ∀ t, P t → ∀ h, Reads ns h t → ∃ x, f h = .ok x) : ∃ x, optional f c = .ok x := by
  cases c with
  | none => exact ⟨none, rfl⟩
  | some c =>
    cases o with
    | none => exact hr.elim
    | some t =>
      obtain ⟨x, h1⟩ := hP t (h t rfl) c hr.2
      exact ⟨some x, by simp [optional, h1]⟩

/-! ## Expressions and types -/

theorem exprT_conversion {te tt : Tree} (h : ExprT te ∨ ExprP te ∧ TypeT tt) :
    ExprT (.node .conversion_expression [some te, some tt]) := by
  intro ns i hr n hi
  obtain ⟨p, hs, hn, hc⟩ := reads_inv hr
  obtain ⟨a, _, rfl, ha, hra, hc⟩ := readsAll_some hc
  obtain ⟨b, _, rfl, hb, hrb, hc⟩ := readsAll_some hc
  obtain rfl := readsAll_nil hc
  obtain ⟨n, rfl⟩ : ∃ m, n = m + 1 := ⟨n - 1, by omega⟩
  rcases h with h | ⟨h1, h2⟩
  · simp [expr, hn, h ns a hra n (by omega)]
  · obtain ⟨e, h1⟩ := h1.ok hra
    simp [expr, hn, h1 n (by omega), h2 ns b hrb _ (goodT_expr (show b ≤ n by omega))]

theorem exprT_ite {tl tc tr : Tree} (hx : ExprT tl ∨ ExprP tl ∧ (ExprT tc ∨ ExprP tc ∧ ExprT tr)) :
    ExprT (.node .if_expression [some tl, some tc, some tr]) := by
  intro ns i h n hi
  obtain ⟨p, hs, hn, h⟩ := reads_inv h
  obtain ⟨a, _, rfl, ha, hra, h⟩ := readsAll_some h
  obtain ⟨b, _, rfl, hb, hrb, h⟩ := readsAll_some h
  obtain ⟨c, _, rfl, hc', hrc, h⟩ := readsAll_some h
  obtain rfl := readsAll_nil h
  obtain ⟨n, rfl⟩ : ∃ m, n = m + 1 := ⟨n - 1, by omega⟩
  rcases hx with h | ⟨h1, h | ⟨h2, h3⟩⟩
  · simp [expr, hn, h ns a hra n (by omega)]
  · obtain ⟨e, h1⟩ := h1.ok hra
    simp [expr, hn, h1 n (by omega), h ns b hrb n (by omega)]
  · obtain ⟨e, h1⟩ := h1.ok hra
    obtain ⟨e', h2⟩ := h2.ok hrb
    simp [expr, hn, h1 n (by omega), h2 n (by omega), h3 ns c hrc n (by omega)]

theorem binaryType_cases (op : TokenType) : (∃ o, binaryType op = .ok o) ∨ binaryType op = .throws := by
  cases op <;> simp [binaryType]

theorem exprT_binary {op : TokenType} {tl tr : Tree}
    (hx : ExprT tl ∨ ExprP tl ∧ (op = .greater_or_equal ∧ (ExprP tr ∨ ExprT tr) ∨ ExprT tr)) :
    ExprT (.node (.binary_expression op) [some tl, some tr]) := by
  intro ns i h n hi
  obtain ⟨p, hs', hn, h⟩ := reads_inv h
  obtain ⟨a, _, rfl, ha, hra, h⟩ := readsAll_some h
  obtain ⟨b, _, rfl, hb, hrb, h⟩ := readsAll_some h
  obtain rfl := readsAll_nil h
  obtain ⟨n, rfl⟩ : ∃ m, n = m + 1 := ⟨n - 1, by omega⟩
  rcases hx with h | ⟨h1, ⟨rfl, h2 | h2⟩ | h2⟩
  · rcases binaryType_cases op with ⟨o, ho⟩ | ho <;> simp [expr, hn, h ns a hra n (by omega), ho]
  · obtain ⟨e, h1⟩ := h1.ok hra
    obtain ⟨e', h2⟩ := h2.ok hrb
    simp [expr, hn, h1 n (by omega), h2 n (by omega), binaryType]
  · obtain ⟨e, h1⟩ := h1.ok hra
    simp [expr, hn, h1 n (by omega), h2 ns b hrb n (by omega), binaryType]
  · obtain ⟨e, h1⟩ := h1.ok hra
    rcases binaryType_cases op with ⟨o, ho⟩ | ho <;>
      simp [expr, hn, h1 n (by omega), h2 ns b hrb n (by omega), ho]

theorem exprT_prefix {op : TokenType} {te : Tree} (ho : op ∈ unaryOperators) (he : ExprT te) :
    ExprT (.node (.prefix_expression op) [some te]) := by
  intro ns i h n hi
  obtain ⟨p, hs', hn, h⟩ := reads_inv h
  obtain ⟨a, _, rfl, ha, hra, h⟩ := readsAll_some h
  obtain rfl := readsAll_nil h
  obtain ⟨n, rfl⟩ : ∃ m, n = m + 1 := ⟨n - 1, by omega⟩
  obtain ⟨o, h1, -⟩ := unaryType_ok ho
  simp [expr, hn, he ns a hra n (by omega), h1]

theorem exprT_call {x : List Char} {st : Bool} {args : List (Option Tree)} {a : Option Tree}
    (h : FirstT ExprP ExprT args) : ExprT (.node (.function_call_expression x st) (args ++ [a])) := by
  intro ns i hr n hi
  obtain ⟨p, hs, hn, hc⟩ := reads_inv hr
  obtain ⟨l, l', rfl, h1, h2⟩ := readsAll_split hc
  obtain ⟨c, _, rfl, -, h2⟩ := readsAll_cons h2
  obtain rfl := readsAll_nil h2
  obtain ⟨n, rfl⟩ : ∃ m, n = m + 1 := ⟨n - 1, by omega⟩
  have := h.all (f := expr ns n) h1 (fun t ht h hb hr => by
    obtain ⟨e, he⟩ := ht.ok hr
    exact ⟨e, he n (by omega)⟩) (fun t ht h hb hr => ht ns h hr n (by omega))
  simp [expr, hn, this]

theorem typeT_uint {te : Tree} (he : ExprT te) : TypeT (.node (.type .Uint) [some te]) := by
  intro ns i h f hf
  obtain ⟨p, hs', hn, h⟩ := reads_inv h
  obtain ⟨a, _, rfl, ha, hra, h⟩ := readsAll_some h
  obtain rfl := readsAll_nil h
  simp [typeWith, hn, hf a ha (he ns a hra)]

/-! ## Statements -/

/-- A part that may be absent throws. -/
def OptT (T : Tree → Prop) (o : Option Tree) : Prop := ∃ t, o = some t ∧ T t

theorem OptT.optional {T : Tree → Prop} {α : Type} {f : Nat → Outcome Unit α} {b : Nat} {c : Handle}
    {o : Option Tree} (h : OptT T o) (hr : ReadsO ns b c o)
    (hT : ∀ t, T t → ∀ h, Reads ns h t → f h = .throws) : optional f c = .throws := by
  obtain ⟨t, rfl, h⟩ := h
  cases c with
  | none => exact hr.elim
  | some c => exact optional_throws (hT t h c hr.2)

theorem const_throws {x : List Char} {a tt : Option Tree} {te : Tree}
    (hx : OptT TypeT tt ∨ (∀ t ∈ tt, TypeP t) ∧ ExprT te) {i : Nat}
    (hr : Reads ns i (.node (.const x) [a, tt, some te])) :
    (∀ n, i < n → stmt ns n i = .throws) ∧ decl ns i = .throws := by
  obtain ⟨p, hs', hn, h⟩ := reads_inv hr
  obtain ⟨ha, _, rfl, -, h⟩ := readsAll_cons h
  obtain ⟨hty, _, rfl, hrt, h⟩ := readsAll_cons h
  obtain ⟨hi, _, rfl, _, hri, h⟩ := readsAll_some h
  obtain rfl := readsAll_nil h
  refine ⟨fun n hi => ?_, ?_⟩
  · obtain ⟨n, rfl⟩ : ∃ m, n = m + 1 := ⟨n - 1, by omega⟩
    rcases hx with h | ⟨h1, h2⟩
    · simp [stmt, hn, h.optional (f := typeAt ns) hrt fun t ht h hr => ht.at hr]
    · obtain ⟨ty, h1⟩ := optional_some hrt h1 (f := typeAt ns) fun t ht h hr => ht.at hr
      simp [stmt, hn, h1, h2.at hri]
  · rcases hx with h | ⟨h1, h2⟩
    · simp [decl, hn, h.optional (f := typeAt ns) hrt fun t ht h hr => ht.at hr]
    · obtain ⟨ty, h1⟩ := optional_some hrt h1 (f := typeAt ns) fun t ht h hr => ht.at hr
      simp [decl, hn, h1, h2.at hri]

theorem staticAssert_throws {te : Tree} (he : ExprT te) {i : Nat}
    (hr : Reads ns i (.node .static_assert [some te])) :
    (∀ n, i < n → stmt ns n i = .throws) ∧ decl ns i = .throws := by
  obtain ⟨p, hs', hn, h⟩ := reads_inv hr
  obtain ⟨hi, _, rfl, _, hri, h⟩ := readsAll_some h
  obtain rfl := readsAll_nil h
  refine ⟨fun n hi => ?_, by simp [decl, hn, he.at hri]⟩
  obtain ⟨n, rfl⟩ : ∃ m, n = m + 1 := ⟨n - 1, by omega⟩
  simp [stmt, hn, he.at hri]

theorem stmtT_let {x : List Char} {a tt te : Option Tree}
    (hx : OptT TypeT tt ∨ (∀ t ∈ tt, TypeP t) ∧ OptT ExprT te) :
    StmtT (.node (.let x) [a, tt, te]) := by
  intro ns i hr n hi
  obtain ⟨p, hs', hn, h⟩ := reads_inv hr
  obtain ⟨ha, _, rfl, -, h⟩ := readsAll_cons h
  obtain ⟨hty, _, rfl, hrt, h⟩ := readsAll_cons h
  obtain ⟨hi, _, rfl, hri, h⟩ := readsAll_cons h
  obtain rfl := readsAll_nil h
  obtain ⟨n, rfl⟩ : ∃ m, n = m + 1 := ⟨n - 1, by omega⟩
  rcases hx with h | ⟨h1, h2⟩
  · simp [stmt, hn, h.optional (f := typeAt ns) hrt fun t ht h hr => ht.at hr]
  · obtain ⟨ty, h1⟩ := optional_some hrt h1 (f := typeAt ns) fun t ht h hr => ht.at hr
    simp [stmt, hn, h1, h2.optional (f := exprAt ns) hri fun t ht h hr => ht.at hr]

theorem stmtT_ifThen {a : Option Tree} {tc tt : Tree} (hx : ExprT tc ∨ ExprP tc ∧ StmtT tt) :
    StmtT (.node .if_statement [a, some tc, some tt, none]) := by
  intro ns i hr n hi
  obtain ⟨p, hs', hn, h⟩ := reads_inv hr
  obtain ⟨ha, _, rfl, -, h⟩ := readsAll_cons h
  obtain ⟨c, _, rfl, hc', hrc, h⟩ := readsAll_some h
  obtain ⟨t, _, rfl, ht', hrt, h⟩ := readsAll_some h
  obtain ⟨_, rfl, h'⟩ := readsAll_none h
  obtain rfl := readsAll_nil h'
  obtain ⟨n, rfl⟩ : ∃ m, n = m + 1 := ⟨n - 1, by omega⟩
  rcases hx with h | ⟨h1, h2⟩
  · simp [stmt, hn, h.at hrc]
  · obtain ⟨e, h1⟩ := h1.at hrc
    simp [stmt, hn, h1, h2 ns t hrt n (by omega)]

theorem stmtT_ifElse {a : Option Tree} {tc tt te : Tree}
    (hx : ExprT tc ∨ ExprP tc ∧ (StmtT tt ∨ StmtP tt ∧ StmtT te)) :
    StmtT (.node .if_statement [a, some tc, some tt, some te]) := by
  intro ns i hr n hi
  obtain ⟨p, hs', hn, h⟩ := reads_inv hr
  obtain ⟨ha, _, rfl, -, h⟩ := readsAll_cons h
  obtain ⟨c, _, rfl, hc', hrc, h⟩ := readsAll_some h
  obtain ⟨t, _, rfl, ht', hrt, h⟩ := readsAll_some h
  obtain ⟨e, _, rfl, he', hre, h⟩ := readsAll_some h
  obtain rfl := readsAll_nil h
  obtain ⟨n, rfl⟩ : ∃ m, n = m + 1 := ⟨n - 1, by omega⟩
  rcases hx with h | ⟨h1, h | ⟨h2, h3⟩⟩
  · simp [stmt, hn, h.at hrc]
  · obtain ⟨_, h1⟩ := h1.at hrc
    simp [stmt, hn, h1, h ns t hrt n (by omega)]
  · obtain ⟨_, h1⟩ := h1.at hrc
    obtain ⟨_, h2⟩ := h2.ok hrt
    simp [stmt, hn, h1, h2 n (by omega), h3 ns e hre n (by omega)]

theorem stmtT_while {a : Option Tree} {tc tt : Tree} (hx : ExprT tc ∨ ExprP tc ∧ StmtT tt) :
    StmtT (.node .while_statement [a, some tc, some tt]) := by
  intro ns i hr n hi
  obtain ⟨p, hs', hn, h⟩ := reads_inv hr
  obtain ⟨ha, _, rfl, -, h⟩ := readsAll_cons h
  obtain ⟨c, _, rfl, hc', hrc, h⟩ := readsAll_some h
  obtain ⟨t, _, rfl, ht', hrt, h⟩ := readsAll_some h
  obtain rfl := readsAll_nil h
  obtain ⟨n, rfl⟩ : ∃ m, n = m + 1 := ⟨n - 1, by omega⟩
  rcases hx with h | ⟨h1, h2⟩
  · simp [stmt, hn, h.at hrc]
  · obtain ⟨e, h1⟩ := h1.at hrc
    simp [stmt, hn, h1, h2 ns t hrt n (by omega)]

theorem stmtT_return {te : Tree} (he : ExprT te) : StmtT (.node .return_statement [some te]) := by
  intro ns i hr n hi
  obtain ⟨p, hs', hn, h⟩ := reads_inv hr
  obtain ⟨c, _, rfl, hc', hrc, h⟩ := readsAll_some h
  obtain rfl := readsAll_nil h
  obtain ⟨n, rfl⟩ : ∃ m, n = m + 1 := ⟨n - 1, by omega⟩
  simp [stmt, hn, optional, he.at hrc]

theorem stmtT_assign {x : List Char} {a : Option Tree} {te : Tree} (he : ExprT te) :
    StmtT (.node (.assignment x) [a, some te]) := by
  intro ns i hr n hi
  obtain ⟨p, hs', hn, h⟩ := reads_inv hr
  obtain ⟨ha, _, rfl, -, h⟩ := readsAll_cons h
  obtain ⟨c, _, rfl, hc', hrc, h⟩ := readsAll_some h
  obtain rfl := readsAll_nil h
  obtain ⟨n, rfl⟩ : ∃ m, n = m + 1 := ⟨n - 1, by omega⟩
  simp [stmt, hn, he.at hrc]

theorem stmtT_call {x : List Char} {args : List (Option Tree)} {a : Option Tree}
    (h : FirstT ExprP ExprT args) : StmtT (.node (.function_call_expression x true) (args ++ [a])) := by
  intro ns i hr n hi
  obtain ⟨p, hs, hn, -⟩ := reads_inv hr
  obtain ⟨n, rfl⟩ : ∃ m, n = m + 1 := ⟨n - 1, by omega⟩
  simp [stmt, hn, (exprT_call h).at hr]

/-- A block in which a statement throws. -/
def BlockT (t : Tree) : Prop := ∃ ts, t = .node .block_statement ts ∧ FirstT StmtP StmtT ts

theorem stmts_throws {ts : List (Option Tree)} (h : FirstT StmtP StmtT ts) {b n : Nat} {hs : List Handle}
    (hr : ReadsAll ns b hs ts) (hb : b ≤ n) : all (stmt ns n) hs = .throws :=
  h.all hr (fun t ht h hb hr => by
    obtain ⟨e, he⟩ := ht.ok hr
    exact ⟨e, he n (by omega)⟩) (fun t ht h hb hr => ht ns h hr n (by omega))

theorem BlockT.stmtT {t : Tree} (h : BlockT t) : StmtT t := by
  obtain ⟨ts, rfl, h⟩ := h
  intro ns i hr n hi
  obtain ⟨p, hs', hn, hr⟩ := reads_inv hr
  obtain ⟨n, rfl⟩ : ∃ m, n = m + 1 := ⟨n - 1, by omega⟩
  simp [stmt, hn, stmts_throws h hr (show i ≤ n by omega)]

/-! ## Functions and programs -/

theorem paramT {x : List Char} {tt : Tree} (h : TypeT tt) : ParamT (.node (.parameter x) [some tt]) := by
  intro ns i hr
  obtain ⟨p, hs', hn, hr⟩ := reads_inv hr
  obtain ⟨c, _, rfl, hc', hrc, hr⟩ := readsAll_some hr
  obtain rfl := readsAll_nil hr
  simp [param, hn, h.at hrc]

/-- Parameters one of which throws. -/
def ParamListT (t : Tree) : Prop := ∃ ts, t = .node .parameter_list ts ∧ FirstT ParamP ParamT ts

theorem params_throws {b : Nat} {c : Handle} {o : Option Tree} (h : OptT ParamListT o)
    (hr : ReadsO ns b c o) : params ns c = .throws := by
  obtain ⟨_, rfl, ts, rfl, h⟩ := h
  cases c with
  | none => exact hr.elim
  | some c =>
    obtain ⟨p, hs, hn, hr'⟩ := reads_inv hr.2
    have := h.all (f := param ns) hr' (fun t ht h hb hr => by
      obtain ⟨x, tt, -, ht⟩ := ht
      obtain ⟨k, ty, h1, -⟩ := ht ns h hr
      exact ⟨_, h1⟩) (fun t ht h hb hr => ht ns h hr)
    simp [params, hn, this]

theorem declT_function {x : List Char} {a tps tq : Option Tree} {tr tb : Tree}
    (hx : OptT ParamListT tps ∨ ParamListP tps ∧ (TypeT tr ∨ TypeP tr ∧
      (OptT ExprT tq ∨ (∀ t ∈ tq, ExprP t) ∧ BlockT tb))) :
    DeclT (.node (.function x) [a, tps, some tr, tq, some tb]) := by
  intro ns i h
  obtain ⟨p, hs', hn, h⟩ := reads_inv h
  obtain ⟨ha, _, rfl, -, h⟩ := readsAll_cons h
  obtain ⟨hp, _, rfl, hrp, h⟩ := readsAll_cons h
  obtain ⟨r, _, rfl, _, hrr, h⟩ := readsAll_some h
  obtain ⟨q, _, rfl, hrq, h⟩ := readsAll_cons h
  obtain ⟨b, _, rfl, hb', hrb, h⟩ := readsAll_some h
  obtain rfl := readsAll_nil h
  rcases hx with h | ⟨h1, h | ⟨h2, h | ⟨h3, h⟩⟩⟩
  · simp [decl, function, hn, params_throws h hrp]
  · obtain ⟨ps, h1, -⟩ := paramList_ok h1 hrp
    simp [decl, function, hn, h1, h.at hrr]
  · obtain ⟨ps, h1, -⟩ := paramList_ok h1 hrp
    obtain ⟨ty, h2⟩ := h2.at hrr
    simp [decl, function, hn, h1, h2, h.optional (f := exprAt ns) hrq fun t ht h hr => ht.at hr]
  · obtain ⟨ps, h1, -⟩ := paramList_ok h1 hrp
    obtain ⟨ty, h2⟩ := h2.at hrr
    obtain ⟨e, h3⟩ := optional_some hrq h3 (f := exprAt ns) fun t ht h hr => ht.at hr
    obtain ⟨ts, rfl, h'⟩ := h
    obtain ⟨pb, hsb, hnb, hrb⟩ := reads_inv hrb
    simp [decl, function, hn, h1, h2, h3, hnb, stmts_throws h' hrb (Nat.le_refl _)]

theorem program_throws {ts : List (Option Tree)} (h : FirstT DeclP DeclT ts) {i : Nat}
    (hr : Reads ns i (.node .program ts)) : program ns i = .throws := by
  obtain ⟨p, hs, hn, hr⟩ := reads_inv hr
  have := h.all (f := decl ns) hr (fun t ht h hb hr => by
    obtain ⟨d, h1, -⟩ := ht ns h hr
    exact ⟨d, h1⟩) (fun t ht h hb hr => ht ns h hr)
  simp [program, hn, this]

/-! ## Trees of the grammar -/

/-- The operator is in the sentence. -/
def Ge (w : List Terminal) : Prop := ∃ x ∈ w, x.1 = .greater_or_equal

theorem ge_nil : ¬ Ge [] := by simp [Ge]
theorem ge_cons {x : Terminal} {w : List Terminal} :
    Ge (x :: w) ↔ x.1 = .greater_or_equal ∨ Ge w := by simp [Ge]
theorem ge_append {w w' : List Terminal} : Ge (w ++ w') ↔ Ge w ∨ Ge w' := by
  simp [Ge, or_and_right, exists_or]

/-- What is known about the trees that a nonterminal stands for, if the operator occurs. -/
def Thrown : Sym → List (Option Tree) → Prop
  | .primary | .parenthesized | .postfix | .prefix | .arithmetic | .comparison | .binary
  | .ifExpression | .conversion | .expression | .initializer => OneP ExprT
  | .optArguments | .arguments => FirstT ExprP ExprT
  | .call => fun ts => ∃ x args a,
      ts = [some (.node (.function_call_expression x false) (args ++ [a]))] ∧ FirstT ExprP ExprT args
  | .type | .optType => OneP TypeT
  | .optAnnotations | .annotations | .annotation | .annotationArguments | .annotationArgument => fun _ => False
  | .const_ | .static_assert => OneP fun t => StmtT t ∧ DeclT t
  | .let_ | .statement | .if_ | .optElse => OneP StmtT
  | .function | .declaration => OneP DeclT
  | .declarations => FirstT DeclP DeclT
  | .program => OneP fun t => ∃ ts, t = .node .program ts ∧ FirstT DeclP DeclT ts
  | .optParameters => OneP ParamListT
  | .parameters | .parameter => FirstT ParamP ParamT
  | .optRequires => OneP ExprT
  | .block => OneP BlockT
  | .statements => FirstT StmtP StmtT

theorem made' {lenient : Bool} {sym : Sym} {w : List Terminal} {ts : List (Option Tree)}
    (h : Derives lenient sym w ts) (hg : ¬ Ge w) : Made sym ts :=
  made h fun x hx e => hg ⟨x, hx, e⟩

theorem FirstT.one {P T : Tree → Prop} {ts : List (Option Tree)} (h : OneP T ts) : FirstT P T ts := by
  obtain ⟨t, rfl, h⟩ := h
  exact ⟨[], t, [], rfl, AllP.nil, h⟩

theorem FirstT.left {P T : Tree → Prop} {ts ts' : List (Option Tree)} (h : FirstT P T ts) :
    FirstT P T (ts ++ ts') := by
  obtain ⟨l, t, r, rfl, h1, h2⟩ := h
  exact ⟨l, t, r ++ ts', by simp, h1, h2⟩

theorem FirstT.right {P T : Tree → Prop} {ts ts' : List (Option Tree)} (h : AllP P ts) (h' : FirstT P T ts') :
    FirstT P T (ts ++ ts') := by
  obtain ⟨l, t, r, rfl, h1, h2⟩ := h'
  exact ⟨ts ++ l, t, r, by simp, h.append h1, h2⟩

theorem FirstT.seq {P T : Tree → Prop} {ts ts' : List (Option Tree)} {w w' : List Terminal}
    (hg : Ge w ∨ Ge w') (h1 : Ge w → FirstT P T ts) (h2 : ¬ Ge w → AllP P ts) (h3 : Ge w' → FirstT P T ts') :
    FirstT P T (ts ++ ts') := by
  by_cases h : Ge w
  · exact (h1 h).left
  · exact .right (h2 h) (h3 (hg.resolve_left h))

theorem one_binaryT {op : TokenType} {l r : List (Option Tree)} {w w' : List Terminal}
    (hg : Ge w ∨ op = .greater_or_equal ∨ Ge w') (h1 : Ge w → OneP ExprT l) (h1' : ¬ Ge w → OneP ExprP l)
    (h2 : Ge w' → OneP ExprT r) (h2' : ¬ Ge w' → OneP ExprP r) :
    OneP ExprT [some (.node (.binary_expression op) (l ++ r))] := by
  by_cases hw : Ge w
  · obtain ⟨tl, rfl, hl⟩ := h1 hw
    have : ∃ tr, r = [some tr] := by
      by_cases hw' : Ge w'
      · obtain ⟨tr, rfl, -⟩ := h2 hw'; exact ⟨tr, rfl⟩
      · obtain ⟨tr, rfl, -⟩ := h2' hw'; exact ⟨tr, rfl⟩
    obtain ⟨tr, rfl⟩ := this
    exact ⟨_, rfl, exprT_binary (.inl hl)⟩
  · obtain ⟨tl, rfl, hl⟩ := h1' hw
    by_cases hw' : Ge w'
    · obtain ⟨tr, rfl, hr⟩ := h2 hw'
      exact ⟨_, rfl, exprT_binary (.inr ⟨hl, .inr hr⟩)⟩
    · obtain ⟨tr, rfl, hr⟩ := h2' hw'
      exact ⟨_, rfl, exprT_binary (.inr ⟨hl, .inl ⟨(hg.resolve_left hw).resolve_right hw', .inl hr⟩⟩)⟩

/-- One tree, with or without the operator. -/
theorem one_of {P T : Tree → Prop} {ts : List (Option Tree)} {w : List Terminal} (h : Ge w → OneP T ts)
    (h' : ¬ Ge w → OneP P ts) : ∃ t, ts = [some t] ∧ (Ge w → T t) ∧ (¬ Ge w → P t) := by
  by_cases hw : Ge w
  · obtain ⟨t, rfl, h1⟩ := h hw
    exact ⟨t, rfl, fun _ => h1, fun h => absurd hw h⟩
  · obtain ⟨t, rfl, h1⟩ := h' hw
    exact ⟨t, rfl, fun h => absurd h hw, fun _ => h1⟩

/-- At most one tree, with or without the operator. -/
theorem opt_of {P T : Tree → Prop} {ts : List (Option Tree)} {w : List Terminal} (h : Ge w → OneP T ts)
    (h' : ¬ Ge w → OptP P ts) : ∃ o, ts = [o] ∧ (Ge w → OptT T o) ∧ (¬ Ge w → ∀ t ∈ o, P t) := by
  by_cases hw : Ge w
  · obtain ⟨t, rfl, h1⟩ := h hw
    exact ⟨_, rfl, fun _ => ⟨t, rfl, h1⟩, fun h => absurd hw h⟩
  · obtain ⟨o, rfl, h1⟩ := h' hw
    exact ⟨o, rfl, fun h => absurd h hw, fun _ => h1⟩

/-- What throws first. -/
theorem first {A B T P X : Prop} (hg : A ∨ B) (h1 : (A → T) ∧ (¬ A → P)) (h2 : B → X) : T ∨ P ∧ X := by
  by_cases h : A
  · exact .inl (h1.1 h)
  · exact .inr ⟨h1.2 h, h2 (hg.resolve_left h)⟩

/-- The parameters, with or without the operator. -/
theorem params_of {ts : List (Option Tree)} {w : List Terminal} (h : Ge w → OneP ParamListT ts)
    (h' : ¬ Ge w → ∃ o, ts = [o] ∧ ParamListP o) :
    ∃ o, ts = [o] ∧ (Ge w → OptT ParamListT o) ∧ (¬ Ge w → ParamListP o) := by
  by_cases hw : Ge w
  · obtain ⟨t, rfl, h1⟩ := h hw
    exact ⟨_, rfl, fun _ => ⟨t, rfl, h1⟩, fun h => absurd hw h⟩
  · obtain ⟨o, rfl, h1⟩ := h' hw
    exact ⟨o, rfl, fun h => absurd h hw, fun _ => h1⟩

theorem annotations_of {ts : List (Option Tree)} {w : List Terminal} (h : Ge w → False)
    (h' : ¬ Ge w → ∃ a, ts = [a]) : ¬ Ge w ∧ ∃ a, ts = [a] := ⟨h, h' h⟩

theorem integer_ne {t : TokenType} (h : t ∈ integerLiterals) : t ≠ .greater_or_equal := by
  rintro rfl
  revert h
  decide

theorem boolean_ne {t : TokenType} (h : t ∈ booleanLiterals) : t ≠ .greater_or_equal := by
  rintro rfl
  revert h
  decide

theorem unary_ne {t : TokenType} (h : t ∈ unaryOperators) : t ≠ .greater_or_equal := by
  rintro rfl
  revert h
  decide

/-- No tree is made from a program with `>=`. -/
theorem thrown {lenient : Bool} {sym : Sym} {w : List Terminal} {ts : List (Option Tree)}
    (h : Derives lenient sym w ts) (hg : Ge w) : Thrown sym ts := by
  induction h with
  | integer h => simp [ge_cons, ge_nil, integer_ne h] at hg
  | boolean h => simp [ge_cons, ge_nil, boolean_ne h] at hg
  | string h => simp [ge_cons, ge_nil] at hg
  | id => simp [ge_cons, ge_nil] at hg
  | paren _ ih => exact ih hg
  | parenthesized _ ih => exact ih (by simpa [ge_cons, ge_append, ge_nil] using hg)
  | noArguments => simp [ge_nil] at hg
  | someArguments _ ih => exact ih hg
  | argument _ ih => exact FirstT.one (ih hg)
  | argumentsComma h1 _ ih ih' =>
    simp [ge_cons, ge_append] at hg
    exact FirstT.seq hg (fun h => .one (ih h)) (fun h => OneP.all (made' h1 h)) ih'
  | argumentsNoComma _ h1 _ ih ih' =>
    simp [ge_cons, ge_append] at hg
    exact FirstT.seq hg (fun h => .one (ih h)) (fun h => OneP.all (made' h1 h)) ih'
  | call h1 h2 ih ih' =>
    obtain ⟨hna, a, rfl⟩ := annotations_of ih' (made' h2)
    simp [ge_cons, ge_append, ge_nil, hna] at hg
    exact ⟨_, _, a, rfl, ih hg⟩
  | callPostfix _ ih =>
    obtain ⟨x, args, a, rfl, h⟩ := ih hg
    exact ⟨_, rfl, exprT_call h⟩
  | primary _ ih => exact ih hg
  | unary ho _ ih =>
    simp [ge_cons, unary_ne ho] at hg
    obtain ⟨t, rfl, h⟩ := ih hg
    exact ⟨_, rfl, exprT_prefix ho h⟩
  | prefixPostfix _ ih => exact ih hg
  | arithmetic ho h1 h2 ih ih' =>
    simp only [ge_cons, ge_append] at hg
    exact one_binaryT hg ih (made' h1) ih' (made' h2)
  | arithmeticPrefix _ ih => exact ih hg
  | comparison ho h1 h2 ih ih' =>
    simp only [ge_cons, ge_append] at hg
    exact one_binaryT hg ih (made' h1) ih' (made' h2)
  | binaryComparison _ ih => exact ih hg
  | binary ho h1 h2 ih ih' =>
    simp only [ge_cons, ge_append] at hg
    exact one_binaryT hg ih (made' h1) ih' (made' h2)
  | binaryPrefix _ ih => exact ih hg
  | ifExpression h1 h2 h3 ih1 ih2 ih3 =>
    obtain ⟨tl, rfl, hl⟩ := one_of ih1 (made' h1)
    obtain ⟨tc, rfl, hc⟩ := one_of ih2 (made' h2)
    obtain ⟨tr, rfl, hr⟩ := one_of ih3 (made' h3)
    simp [ge_cons, ge_append] at hg
    exact ⟨_, rfl, exprT_ite (first hg hl fun hg => first hg hc hr.1)⟩
  | ifBinary _ ih => exact ih hg
  | conversion h1 h2 ih ih' =>
    obtain ⟨tl, rfl, hl⟩ := one_of ih (made' h1)
    obtain ⟨tc, rfl, hc⟩ := one_of ih' (made' h2)
    simp [ge_cons, ge_append] at hg
    exact ⟨_, rfl, exprT_conversion (first hg hl hc.1)⟩
  | expressionConversion _ ih => exact ih hg
  | expressionIf _ ih => exact ih hg
  | typeVoid => simp [ge_cons, ge_nil] at hg
  | typeBool => simp [ge_cons, ge_nil] at hg
  | typeInt => simp [ge_cons, ge_nil] at hg
  | typeUint _ ih =>
    simp [ge_cons, ge_append, ge_nil] at hg
    obtain ⟨t, rfl, h⟩ := ih hg
    exact ⟨_, rfl, typeT_uint h⟩
  | noType => simp [ge_nil] at hg
  | someType _ ih => exact ih (by simpa [ge_cons] using hg)
  | noAnnotations => simp [ge_nil] at hg
  | someAnnotations _ ih => exact (ih hg).elim
  | lastAnnotation _ ih => exact ih hg
  | annotations _ _ ih ih' =>
    simp only [ge_append] at hg
    exact hg.elim ih ih'
  | annotation => simp [ge_cons, ge_nil] at hg
  | annotationEmpty => simp [ge_cons, ge_nil] at hg
  | annotationArgs _ ih => exact ih (by simpa [ge_cons, ge_append, ge_nil] using hg)
  | annotationArgument _ ih => exact ih hg
  | annotationArguments _ _ ih ih' =>
    simp [ge_cons, ge_append] at hg
    exact hg.elim ih ih'
  | argumentValue h =>
    rcases List.mem_append.mp h with h | h
    · simp [ge_cons, ge_nil, integer_ne h] at hg
    · simp [ge_cons, ge_nil, boolean_ne h] at hg
  | argumentString => simp [ge_cons, ge_nil] at hg
  | keyValue h =>
    rcases List.mem_append.mp h with h | h
    · simp [ge_cons, ge_nil, integer_ne h] at hg
    · simp [ge_cons, ge_nil, boolean_ne h] at hg
  | keyString => simp [ge_cons, ge_nil] at hg
  | initializer _ ih => exact ih (by simpa [ge_cons] using hg)
  | const h1 h2 h3 ih1 ih2 ih3 =>
    obtain ⟨hna, a, rfl⟩ := annotations_of ih1 (made' h1)
    obtain ⟨tt, rfl, ht⟩ := opt_of ih2 (made' h2)
    obtain ⟨te, rfl, he⟩ := one_of ih3 (made' h3)
    simp [ge_cons, ge_append, ge_nil, hna] at hg
    have := first hg ht he.1
    exact ⟨_, rfl, fun ns h hr => (const_throws this hr).1, fun ns h hr => (const_throws this hr).2⟩
  | letType h1 h2 ih1 ih2 =>
    obtain ⟨hna, a, rfl⟩ := annotations_of ih1 (made' h1)
    simp [ge_cons, ge_append, ge_nil, hna] at hg
    obtain ⟨tt, rfl, ht⟩ := ih2 hg
    exact ⟨_, rfl, stmtT_let (.inl ⟨tt, rfl, ht⟩)⟩
  | letInit h1 h2 h3 ih1 ih2 ih3 =>
    obtain ⟨hna, a, rfl⟩ := annotations_of ih1 (made' h1)
    obtain ⟨tt, rfl, ht⟩ := opt_of ih2 (made' h2)
    obtain ⟨te, rfl, he⟩ := one_of ih3 (made' h3)
    simp [ge_cons, ge_append, ge_nil, hna] at hg
    exact ⟨_, rfl, stmtT_let (first hg ht fun h => ⟨te, rfl, he.1 h⟩)⟩
  | staticAssert _ ih =>
    obtain ⟨te, rfl, he⟩ := ih (by simpa [ge_cons, ge_append, ge_nil] using hg)
    exact ⟨_, rfl, fun ns h hr => (staticAssert_throws he hr).1, fun ns h hr => (staticAssert_throws he hr).2⟩
  | parameter _ ih =>
    obtain ⟨tt, rfl, ht⟩ := ih (by simpa [ge_cons] using hg)
    exact FirstT.one ⟨_, rfl, paramT ht⟩
  | lastParameter _ ih => exact ih hg
  | parameters h1 _ ih ih' =>
    simp [ge_cons, ge_append] at hg
    exact FirstT.seq hg ih (made' h1) ih'
  | noParameters => simp [ge_nil] at hg
  | someParameters _ ih => exact ⟨_, rfl, _, rfl, ih hg⟩
  | noRequires => simp [ge_nil] at hg
  | someRequires _ ih => exact ih (by simpa [ge_cons] using hg)
  | function h1 h2 h3 h4 h5 ih1 ih2 ih3 ih4 ih5 =>
    obtain ⟨hna, a, rfl⟩ := annotations_of ih1 (made' h1)
    obtain ⟨tp, rfl, hp⟩ := params_of ih2 (made' h2)
    obtain ⟨tr, rfl, hr⟩ := one_of ih3 (made' h3)
    obtain ⟨tq, rfl, hq⟩ := opt_of ih4 (made' h4)
    obtain ⟨tb, rfl, hb⟩ := one_of ih5 (made' h5)
    simp [ge_cons, ge_append, ge_nil, hna] at hg
    exact ⟨_, rfl, declT_function (first hg hp fun hg => first hg hr fun hg => first hg hq hb.1)⟩
  | declConst _ ih => exact (ih hg).imp fun _ h => h.2
  | declFunction _ ih => exact ih hg
  | declStaticAssert _ ih => exact (ih hg).imp fun _ h => h.2
  | noDeclarations => simp [ge_nil] at hg
  | declarations h1 _ ih ih' =>
    simp only [ge_append] at hg
    exact FirstT.seq hg (fun h => .one (ih h)) (fun h => OneP.all (made' h1 h)) ih'
  | program h1 _ ih ih' =>
    simp only [ge_append] at hg
    exact ⟨_, rfl, _, rfl, FirstT.seq hg (fun h => .one (ih h)) (fun h => OneP.all (made' h1 h)) ih'⟩
  | stmtLet _ ih => exact ih hg
  | stmtConst _ ih => exact (ih hg).imp fun _ h => h.1
  | stmtStaticAssert _ ih => exact (ih hg).imp fun _ h => h.1
  | assignment h1 _ ih ih' =>
    obtain ⟨hna, a, rfl⟩ := annotations_of ih (made' h1)
    simp [ge_cons, ge_append, ge_nil, hna] at hg
    obtain ⟨te, rfl, he⟩ := ih' hg
    exact ⟨_, rfl, stmtT_assign he⟩
  | callStatement _ ih =>
    obtain ⟨x, args, a, e, h⟩ := ih (by simpa [ge_cons, ge_append, ge_nil] using hg)
    simp only [List.cons.injEq, Option.some.injEq, Tree.node.injEq, Kind.function_call_expression.injEq,
      and_true] at e
    obtain ⟨rfl, rfl⟩ := e
    exact ⟨_, rfl, stmtT_call h⟩
  | break_ => simp [ge_cons, ge_nil] at hg
  | continue_ => simp [ge_cons, ge_nil] at hg
  | returnVoid => simp [ge_cons, ge_nil] at hg
  | return_ _ ih =>
    obtain ⟨te, rfl, he⟩ := ih (by simpa [ge_cons, ge_append, ge_nil] using hg)
    exact ⟨_, rfl, stmtT_return he⟩
  | if_ h1 h2 h3 h4 ih1 ih2 ih3 ih4 =>
    obtain ⟨hna, a, rfl⟩ := annotations_of ih1 (made' h1)
    obtain ⟨tc, rfl, hc⟩ := one_of ih2 (made' h2)
    obtain ⟨tb, rfl, hb⟩ := one_of ih3 (made' h3)
    obtain ⟨te, rfl, he⟩ := opt_of ih4 (made' h4)
    simp [ge_cons, ge_append, ge_nil, hna] at hg
    have hs : (Ge _ → StmtT tb) ∧ (¬ Ge _ → StmtP tb) := ⟨fun h => (hb.1 h).stmtT, fun h => (hb.2 h).stmtP⟩
    cases te with
    | none =>
      refine ⟨_, rfl, stmtT_ifThen (first hg hc fun hg => hg.elim hs.1 fun h => ?_)⟩
      obtain ⟨t, e, -⟩ := he.1 h
      cases e
    | some te =>
      refine ⟨_, rfl, stmtT_ifElse (first hg hc fun hg => first hg hs fun h => ?_)⟩
      obtain ⟨t, e, h⟩ := he.1 h
      cases e
      exact h
  | noElse => simp [ge_nil] at hg
  | elseIf _ ih => exact ih (by simpa [ge_cons, ge_append, ge_nil] using hg)
  | elseBlock _ ih =>
    exact (ih (by simpa [ge_cons, ge_append, ge_nil] using hg)).imp fun _ h => h.stmtT
  | stmtIf _ ih => exact ih hg
  | while_ h1 h2 h3 ih1 ih2 ih3 =>
    obtain ⟨hna, a, rfl⟩ := annotations_of ih1 (made' h1)
    obtain ⟨tc, rfl, hc⟩ := one_of ih2 (made' h2)
    obtain ⟨tb, rfl, hb⟩ := one_of ih3 (made' h3)
    simp [ge_cons, ge_append, ge_nil, hna] at hg
    exact ⟨_, rfl, stmtT_while (first hg hc fun h => (hb.1 h).stmtT)⟩
  | stmtBlock _ ih => exact (ih hg).imp fun _ h => h.stmtT
  | block _ ih => exact ⟨_, rfl, _, rfl, ih (by simpa [ge_cons, ge_append, ge_nil] using hg)⟩
  | noStatements => simp [ge_nil] at hg
  | statements h1 _ ih ih' =>
    simp only [ge_append] at hg
    exact FirstT.seq hg (fun h => .one (ih h)) (fun h => OneP.all (made' h1 h)) ih'

end Build
end Bms
