import Verif.Lemmas.AnalyzeCalmStmt
import Verif.Lemmas.AnalyzeProgram
import Verif.Props.AnalysisEnds

/-!
# C59: analysis of calm programs neither throws nor has undefined behavior
-/

namespace Bms

open Spec

/-! ## Name lookup -/

/-- The result is a value or an error. -/
def Regular {ε α : Type} : Outcome ε α → Prop
  | .ok _ => True
  | .err _ => True
  | _ => False

theorem Regular.bind {ε α β : Type} {x : Outcome ε α} {f : α → Outcome ε β} (hx : Regular x)
    (hf : ∀ a, x = .ok a → Regular (f a)) : Regular (x >>= f) := by
  cases x with
  | ok a => exact hf a rfl
  | err e => exact trivial
  | throws => exact hx.elim
  | ub => exact hx.elim

mutual

theorem expr_regular (t : SymbolTable) : (e : AExpr) → Regular (Names.expr t e)
  | .literal .. => by simp [Names.expr, Regular]
  | .id k cv name ref g => by
    rw [Names.expr]
    cases t.find name <;> trivial
  | .conversion _ _ e ty => by
    rw [Names.expr]
    exact (expr_regular t e).bind fun _ _ => (type_regular t ty).bind fun _ _ => trivial
  | .ite _ _ l c r => by
    rw [Names.expr]
    exact (expr_regular t l).bind fun _ _ => (expr_regular t c).bind fun _ _ => (expr_regular t r).bind fun _ _ => trivial
  | .binary _ _ _ l r => by
    rw [Names.expr]
    exact (expr_regular t l).bind fun _ _ => (expr_regular t r).bind fun _ _ => trivial
  | .prefix _ _ _ e => by
    rw [Names.expr]
    exact (expr_regular t e).bind fun _ _ => trivial
  | .call k cv st name ref args => by
    rw [Names.expr]
    cases t.find name with
    | none => trivial
    | some r => exact (exprs_regular t args).bind fun _ _ => trivial

theorem type_regular (t : SymbolTable) : (ty : AType) → Regular (Names.type t ty)
  | .base .. => by simp [Names.type, Regular]
  | .uint _ _ _ w => by
    rw [Names.type]
    exact (expr_regular t w).bind fun _ _ => trivial

theorem exprs_regular (t : SymbolTable) : (es : List AExpr) → Regular (Names.exprs t es)
  | [] => by simp [Names.exprs, Regular]
  | e :: es => by
    rw [Names.exprs]
    exact (expr_regular t e).bind fun _ _ => (exprs_regular t es).bind fun _ _ => trivial

end

theorem optional_regular {α : Type} {f : α → Outcome AErr α} (hf : ∀ a, Regular (f a)) : (o : Option α) →
    Regular (Names.optional f o)
  | none => trivial
  | some a => (hf a).bind fun _ _ => trivial

mutual

theorem stmt_regular : (s : AStmt) → (t : SymbolTable) → Regular (Names.stmt t s)
  | .const_ k cv name ty init, t => by
    rw [Names.stmt]
    cases t.emplace name (.node k) shadowing with
    | inl _ => trivial
    | inr t => exact (optional_regular (type_regular t) ty).bind fun _ _ => (expr_regular t init).bind fun _ _ => trivial
  | .let_ k cv name ty init, t => by
    rw [Names.stmt]
    cases t.emplace name (.node k) shadowing with
    | inl _ => trivial
    | inr t =>
      exact (optional_regular (type_regular t) ty).bind fun _ _ => (optional_regular (expr_regular t) init).bind fun _ _ => trivial
  | .staticAssert _ _ e, t => by
    rw [Names.stmt]
    exact (expr_regular t e).bind fun _ _ => trivial
  | .ifThen _ _ c th, t => by
    rw [Names.stmt]
    exact (expr_regular t c).bind fun _ _ => (stmt_regular th t).bind fun _ _ => trivial
  | .ifElse _ _ c th el, t => by
    rw [Names.stmt]
    exact (expr_regular t c).bind fun _ _ => (stmt_regular th t).bind fun a _ => (stmt_regular el a.1).bind fun _ _ => trivial
  | .while_ _ _ c b, t => by
    rw [Names.stmt]
    exact (expr_regular t c).bind fun _ _ => (stmt_regular b t).bind fun _ _ => trivial
  | .control _ _ _ e, t => by
    rw [Names.stmt]
    exact (optional_regular (expr_regular t) e).bind fun _ _ => trivial
  | .assign k cv name _ e, t => by
    rw [Names.stmt]
    cases t.find name with
    | none => trivial
    | some r => exact (expr_regular t e).bind fun _ _ => trivial
  | .block _ _ ss, t => by
    rw [Names.stmt]
    exact (stmts_regular ss _).bind fun _ _ => trivial
  | .call e, t => by
    rw [Names.stmt]
    exact (expr_regular t e).bind fun _ _ => trivial

theorem stmts_regular : (ss : List AStmt) → (t : SymbolTable) → Regular (Names.stmts t ss)
  | [], t => by simp [Names.stmts, Regular]
  | s :: ss, t => by
    rw [Names.stmts]
    exact (stmt_regular s t).bind fun a _ => (stmts_regular ss a.1).bind fun _ _ => trivial

end

mutual

/-- Without calls, the only error is an undefined variable. -/
theorem expr_undefined (t : SymbolTable) {e : AErr} : (x : AExpr) → CallFree x → Names.expr t x = .err e →
    e.code = .reference_to_undefined_variable
  | .literal .., _, h => by simp [Names.expr] at h
  | .id k cv name ref g, _, h => by
    rw [Names.expr] at h
    cases hf : t.find name with
    | some r => simp [hf] at h
    | none =>
      simp only [hf, Outcome.err.injEq] at h
      rw [← h]
  | .conversion _ _ x ty, hc, h => by
    rw [Names.expr] at h
    rcases Outcome.bind_eq_err' h with h | ⟨_, -, h⟩
    · exact expr_undefined t x hc.1 h
    · rcases Outcome.bind_eq_err' h with h | ⟨_, -, h⟩
      · exact type_undefined t ty hc.2 h
      · cases h
  | .ite _ _ l c r, hc, h => by
    rw [Names.expr] at h
    rcases Outcome.bind_eq_err' h with h | ⟨_, -, h⟩
    · exact expr_undefined t l hc.1 h
    · rcases Outcome.bind_eq_err' h with h | ⟨_, -, h⟩
      · exact expr_undefined t c hc.2.1 h
      · rcases Outcome.bind_eq_err' h with h | ⟨_, -, h⟩
        · exact expr_undefined t r hc.2.2 h
        · cases h
  | .binary _ _ _ l r, hc, h => by
    rw [Names.expr] at h
    rcases Outcome.bind_eq_err' h with h | ⟨_, -, h⟩
    · exact expr_undefined t l hc.1 h
    · rcases Outcome.bind_eq_err' h with h | ⟨_, -, h⟩
      · exact expr_undefined t r hc.2 h
      · cases h
  | .prefix _ _ _ x, hc, h => by
    rw [Names.expr] at h
    rcases Outcome.bind_eq_err' h with h | ⟨_, -, h⟩
    · exact expr_undefined t x hc h
    · cases h

theorem type_undefined (t : SymbolTable) {e : AErr} : (ty : AType) → CallFreeT ty → Names.type t ty = .err e →
    e.code = .reference_to_undefined_variable
  | .base .., _, h => by simp [Names.type] at h
  | .uint _ _ _ w, hc, h => by
    rw [Names.type] at h
    rcases Outcome.bind_eq_err' h with h | ⟨_, -, h⟩
    · exact expr_undefined t w hc h
    · cases h

end

theorem param_regular (t : SymbolTable) {p : AParam} (h : CallFreeT p.type) : Regular (Names.param t p) := by
  unfold Names.param
  cases t.emplace p.name (.param p.k) shadowing with
  | inl _ => trivial
  | inr t =>
    cases hp : p.type with
    | base k cv b => trivial
    | uint k cv c w =>
      rw [hp] at h
      simp only
      have hr := expr_regular t w
      cases hw : Names.expr t w with
      | ok w' => trivial
      | err e =>
        simp only [expr_undefined t w h hw, ne_eq, not_true_eq_false, if_false]
        cases w with
        | id kw cvw name ref g => simp only; cases t.emplace name (.node kw) shadowing <;> trivial
        | _ => trivial
      | throws => rw [hw] at hr; exact hr
      | ub => rw [hw] at hr; exact hr

theorem params_regular : (ps : List AParam) → (t : SymbolTable) → (∀ p ∈ ps, CallFreeT p.type) → Regular (Names.params t ps)
  | [], _, _ => trivial
  | p :: ps, t, h => by
    rw [Names.params]
    exact (param_regular t (h p (by simp))).bind fun a _ =>
      (params_regular ps a.1 fun q hq => h q (by simp [hq])).bind fun _ _ => trivial

theorem function_regular (t : SymbolTable) {f : AFn} (h : RawFn f) : Regular (Names.function t f) := by
  unfold Names.function
  exact (params_regular f.params _ fun p hp => (h.params p hp).2).bind fun a _ => (type_regular _ f.ret).bind fun _ _ =>
    (optional_regular (expr_regular _) f.requires_).bind fun _ _ => (stmts_regular f.body _).bind fun _ _ => trivial

theorem register_regular : (ds : List ADecl) → (t : SymbolTable) → Regular (Names.register t ds)
  | [], _ => trivial
  | .const_ k cv name ty init :: ds, t => by
    rw [Names.register]
    cases t.emplace name (.node k) shadowing with
    | inl _ => trivial
    | inr t => exact register_regular ds t
  | .function f :: ds, t => by
    rw [Names.register]
    cases t.emplace f.name (.node f.k) shadowing with
    | inl _ => trivial
    | inr t => exact register_regular ds t
  | .staticAssert .. :: ds, t => by
    rw [Names.register]
    exact register_regular ds t

/-- The name and key that a global declaration introduces. -/
def globalName : ADecl → Option (Name × Key)
  | .const_ k _ name _ _ => some (name, k)
  | .function f => some (f.name, f.k)
  | .staticAssert .. => none

theorem emplace_find {m : Symbols} {parent t : SymbolTable} {name : Name} {r : Lookup}
    (h : SymbolTable.emplace (m :: parent) name r shadowing = .inr t) :
    t = ((name, r) :: m) :: parent ∧ SymbolTable.find parent name = none ∧ m.lookup name = none := by
  unfold SymbolTable.emplace at h
  simp only [shadowing, Bool.false_eq_true, if_false] at h
  cases hp : SymbolTable.find parent name with
  | some o => simp [hp] at h
  | none =>
    simp only [hp] at h
    cases hm : m.lookup name with
    | some o => simp [hm] at h
    | none =>
      simp only [hm, Sum.inr.injEq] at h
      exact ⟨h.symm, rfl, rfl⟩

theorem lookup_cons_of {m : Symbols} {name n : Name} {r x : Lookup} (hm : m.lookup name = none) (h : m.lookup n = some x) :
    List.lookup n ((name, r) :: m) = some x := by
  have : n ≠ name := fun e => by rw [e, hm] at h; cases h
  rw [List.lookup_cons, beq_eq_false_iff_ne.2 this]
  exact h

theorem register_find {parent : SymbolTable} : (ds : List ADecl) → {m : Symbols} → {t : SymbolTable} →
    Names.register (m :: parent) ds = .ok t → ∃ m', t = m' :: parent ∧ (∀ n r, m.lookup n = some r → m'.lookup n = some r) ∧
      ∀ d ∈ ds, ∀ n k, globalName d = some (n, k) → SymbolTable.find parent n = none ∧ m'.lookup n = some (.node k)
  | [], m, t, h => by
    simp only [Names.register, Outcome.ok.injEq] at h
    exact ⟨m, h.symm, fun _ _ h => h, by simp⟩
  | .staticAssert k cv e :: ds, m, t, h => by
    rw [Names.register] at h
    obtain ⟨m', h1, h2, h3⟩ := register_find ds h
    refine ⟨m', h1, h2, fun d hd n k hn => ?_⟩
    rcases List.mem_cons.1 hd with rfl | hd
    · cases hn
    · exact h3 d hd n k hn
  | .const_ k cv name ty init :: ds, m, t, h => by
    rw [Names.register] at h
    cases he : SymbolTable.emplace (m :: parent) name (.node k) shadowing with
    | inl _ => simp [he] at h
    | inr t1 =>
      simp only [he] at h
      obtain ⟨rfl, hp, hm⟩ := emplace_find he
      obtain ⟨m', h1, h2, h3⟩ := register_find ds h
      refine ⟨m', h1, fun n r hn => h2 n r (lookup_cons_of hm hn), fun d hd n k hn => ?_⟩
      rcases List.mem_cons.1 hd with rfl | hd
      · simp only [globalName, Option.some.injEq, Prod.mk.injEq] at hn
        obtain ⟨rfl, rfl⟩ := hn
        exact ⟨hp, h2 _ _ (by simp)⟩
      · exact h3 d hd n k hn
  | .function f :: ds, m, t, h => by
    rw [Names.register] at h
    cases he : SymbolTable.emplace (m :: parent) f.name (.node f.k) shadowing with
    | inl _ => simp [he] at h
    | inr t1 =>
      simp only [he] at h
      obtain ⟨rfl, hp, hm⟩ := emplace_find he
      obtain ⟨m', h1, h2, h3⟩ := register_find ds h
      refine ⟨m', h1, fun n r hn => h2 n r (lookup_cons_of hm hn), fun d hd n k hn => ?_⟩
      rcases List.mem_cons.1 hd with rfl | hd
      · simp only [globalName, Option.some.injEq, Prod.mk.injEq] at hn
        obtain ⟨rfl, rfl⟩ := hn
        exact ⟨hp, h2 _ _ (by simp)⟩
      · exact h3 d hd n k hn

theorem decls_regular (t : SymbolTable) : (ds : List ADecl) → (∀ d ∈ ds, RawD d) →
    (∀ d ∈ ds, ∀ n k, globalName d = some (n, k) → t.find n = some (.node k)) → Regular (Names.decls t ds)
  | [], _, _ => trivial
  | d :: ds, hr, h => by
    rw [Names.decls]
    refine Regular.bind ?_ fun _ _ => (decls_regular t ds (fun d hd => hr d (by simp [hd]))
      fun d hd => h d (by simp [hd])).bind fun _ _ => trivial
    have hd := h d (by simp)
    have hrd := hr d (by simp)
    cases d with
    | const_ k cv name ty init =>
      rw [Names.decl, hd name k rfl]
      simp only [decide_true, Outcome.assert, if_true]
      exact Regular.bind trivial fun _ _ => (optional_regular (type_regular t) ty).bind fun _ _ =>
        (expr_regular t init).bind fun _ _ => trivial
    | function f =>
      rw [Names.decl, hd f.name f.k rfl]
      simp only [decide_true, Outcome.assert, if_true]
      exact Regular.bind trivial fun _ _ => (function_regular t hrd).bind fun _ _ => trivial
    | staticAssert k cv e =>
      rw [Names.decl]
      exact (expr_regular t e).bind fun _ _ => trivial

/-- Name lookup neither throws nor has undefined behavior. -/
theorem lookup_regular {ds : List ADecl} (h : ∀ d ∈ ds, RawD d) : Regular (Names.program ds) := by
  unfold Names.program
  refine (register_regular ds _).bind fun t ht => ?_
  obtain ⟨m, rfl, -, h3⟩ := register_find ds ht
  refine decls_regular _ ds h fun d hd n k hn => ?_
  obtain ⟨h4, h5⟩ := h3 d hd n k hn
  rw [SymbolTable.find, h4]
  exact h5

/-! ## The initial state -/

mutual

theorem declsS_kind {d : Key × DeclKind} : (s : AStmt) → d ∈ declsS s → d.2 = .const_ ∨ d.2 = .let_
  | .const_ .., h => by simp only [declsS, List.mem_singleton] at h; exact .inl (by rw [h])
  | .let_ .., h => by simp only [declsS, List.mem_singleton] at h; exact .inr (by rw [h])
  | .staticAssert .., h => by simp [declsS] at h
  | .ifThen _ _ _ t, h => declsS_kind t h
  | .ifElse _ _ _ t e, h => (List.mem_append.1 h).elim (declsS_kind t) (declsS_kind e)
  | .while_ _ _ _ b, h => declsS_kind b h
  | .control .., h => by simp [declsS] at h
  | .assign .., h => by simp [declsS] at h
  | .block _ _ ss, h => declsSs_kind ss h
  | .call _, h => by simp [declsS] at h

theorem declsSs_kind {d : Key × DeclKind} : (ss : List AStmt) → d ∈ declsSs ss → d.2 = .const_ ∨ d.2 = .let_
  | [], h => by simp [declsSs] at h
  | s :: ss, h => (List.mem_append.1 h).elim (declsS_kind s) (declsSs_kind ss)

end

theorem initial_calm {ds : List ADecl} {next : Nat} (h : RawProgram ds next) {value : Key → Option CVal}
    (hc : ∀ d ∈ ds, calmD (factsOf ds value) d = true) : CalmSt (factsOf ds value) [] [] [] [] (Ana.initial ds next) := by
  obtain ⟨a1, -, -, -, a5, a6⟩ := initFold ds
    { decl := fun _ => none, fns := fun _ => none, code := [], stack := [], next := next } h.raw h.nodup
  rw [← initial_eq] at a1 a5 a6
  have hfn : ∀ j f, (Ana.initial ds next).fns j = some f → .function f ∈ ds ∧ f.k = j := by
    intro j f hj
    rcases a6 j f hj with h1 | h1
    · exact h1
    · cases h1
  have hmem : ∀ d ∈ ds, ∀ x ∈ declsG d, (Ana.initial ds next).decl x.1 = some x.2 := by
    intro d hd x hx
    rw [a1]
    exact insertAll_mem _ _ (declsG_nodup h.nodup) x (List.mem_flatMap.2 ⟨d, hd, hx⟩)
  have hkind : ∀ j a, (j, a) ∈ (factsOf ds value).kinds → (a = .const_ ∨ a = .let_) ∧ ∃ d ∈ ds, (j, ⟨a, none⟩) ∈ declsG d ∧
      ∀ f, d = .function f → (j, a) ∈ declsSs f.body := by
    intro j a hm
    obtain ⟨d, hd, hm⟩ := List.mem_flatMap.1 hm
    cases d with
    | const_ k cv name ty init =>
      simp only [List.mem_singleton, Prod.mk.injEq] at hm
      obtain ⟨rfl, rfl⟩ := hm
      exact ⟨.inl rfl, _, hd, by simp [declsG], fun f e => by cases e⟩
    | staticAssert k cv e => cases hm
    | function f =>
      exact ⟨declsSs_kind _ hm, _, hd, declsF_body hm, fun g e => by cases e; exact hm⟩
  have hnot : ∀ j a, (j, a) ∈ (factsOf ds value).kinds → (Ana.initial ds next).fns j = none := by
    intro j a hm
    obtain ⟨-, d, hd, hj, hs⟩ := hkind j a hm
    cases hf : (Ana.initial ds next).fns j with
    | none => rfl
    | some f =>
      exfalso
      obtain ⟨hfm, rfl⟩ := hfn j f hf
      have e := nodeKeys_unique h.nodup hd hfm (declsG_mem (List.mem_map.2 ⟨_, hj, rfl⟩))
        (show f.k ∈ nodeKeys (.function f) by simp [nodeKeys, Inst.keys])
      have hb := (declsSs_sub f.body).subset (List.mem_map.2 ⟨_, hs f e, rfl⟩)
      have hn := nodeKeys_nodup h.nodup hfm
      simp only [nodeKeys, Inst.keys, List.cons_append, List.nodup_cons, List.mem_append, List.mem_cons, not_or] at hn
      exact hn.1.1.2.2 hb
  refine ⟨⟨fun j hm => ?_, fun j hm => ?_, fun j hm => ?_⟩, fun j f hj => ?_, fun _ h => (by cases h), fun _ h => (by cases h),
    fun _ h => (by cases h), fun _ h => (by cases h)⟩
  · obtain ⟨d, hd, hm⟩ := List.mem_flatMap.1 hm
    cases d with
    | const_ k cv name ty init => cases hm
    | staticAssert k cv e => cases hm
    | function f =>
      simp only [List.mem_singleton] at hm
      rw [hm, a5 f hd]
      rfl
  · obtain ⟨-, d, hd, hj, -⟩ := hkind j _ hm
    exact ⟨hnot j _ hm, none, hmem d hd _ hj, fun v e => by cases e⟩
  · obtain ⟨-, d, hd, hj, -⟩ := hkind j _ hm
    exact ⟨hnot j _ hm, none, hmem d hd _ hj, fun v e => by cases e⟩
  · obtain ⟨hm, rfl⟩ := hfn j f hj
    have hr : RawFn f := h.raw _ hm
    have hq : calmF (factsOf ds value) f = true := hc _ hm
    simp only [calmF, Bool.and_eq_true, Bool.not_eq_true', List.all_eq_true] at hq
    obtain ⟨⟨⟨⟨hg, hp⟩, ht⟩, he⟩, hb⟩ := hq
    refine ⟨rfl, hg, hr.instances, fun p hp a hk => ?_, fun p hp' => .inl ⟨(hr.params p hp').1, hp p hp'⟩, .inl ⟨hr.ret.1, ht⟩,
      fun e hm => .inl ⟨hr.reqs e hm, ?_⟩, fun _ => ⟨hr.body, hb, fun d hd => ?_⟩, fun hl => ?_⟩
    · obtain ⟨ha, d, hd, hj, -⟩ := hkind _ _ hk
      have e1 := hmem d hd _ hj
      have e2 := hmem _ hm _ (declsF_param hp)
      simp only at e1 e2
      rw [e1] at e2
      simp only [Option.some.injEq, Decl.mk.injEq] at e2
      rcases ha with rfl | rfl
      · cases e2.1
      · cases e2.1
    · rw [Option.mem_def.1 hm] at he
      exact he
    · exact List.mem_flatMap.2 ⟨_, hm, hd⟩
    · rw [hr.level] at hl
      exact absurd hl (by decide)

/-- **C59, for calm programs.** Analysis accepts the program or reports an error; it neither throws nor has
undefined behavior, and it ends. -/
theorem C59_calm_partial {ds : List ADecl} {next : Nat} (h : RawProgram ds next)
    (hc : ∀ ds', Names.program ds = .ok ds' → CalmProgram ds') {n : Nat} (hn : 2 ≤ n) :
    (∃ s, Ana.program n ds next = .ok () s) ∨ ∃ e, Ana.program n ds next = .err e := by
  unfold Ana.program
  have hr := lookup_regular h.raw
  cases hp : Names.program ds with
  | ok ds' =>
    have h' := rawProgram_strip h (lookup_strip hp)
    obtain ⟨value, hv⟩ := hc ds' hp
    obtain ⟨m, rfl⟩ : ∃ m, n = m + 2 := ⟨n - 2, (Nat.sub_add_cancel hn).symm⟩
    have := decls_calm m ds' (initial_calm h' hv) h'.raw hv
      (fun k cv name ty init hm => List.mem_flatMap.2 ⟨_, hm, by simp⟩) fun f hm => List.mem_flatMap.2 ⟨_, hm, by simp⟩
    simp only
    cases hd : Ana.decls (m + 2) ds' (Ana.initial ds' next) with
    | ok u s => exact .inl ⟨s, rfl⟩
    | err e => exact .inr ⟨e, rfl⟩
    | throws => simp [Calm, hd] at this
    | ub => simp [Calm, hd] at this
    | timeout => simp [Calm, hd] at this
  | err e => exact .inr ⟨e, rfl⟩
  | throws => rw [hp] at hr; exact hr.elim
  | ub => rw [hp] at hr; exact hr.elim

/-! ## Samples -/

theorem calm_of_check {ds : List ADecl} {value : Key → Option CVal}
    (h : (match Names.program ds with
      | .ok ds' => ds'.all (calmD (factsOf ds' value))
      | _ => true) = true) : ∀ ds', Names.program ds = .ok ds' → CalmProgram ds' := by
  intro ds' hp
  simp only [hp, List.all_eq_true] at h
  exact ⟨value, h⟩

open Programs

/-- `const c = 3 + 4;`
`function f(x: Uint(c)) -> Uint(c) { let y = x; while y > x { y = g(y) + x; } return y; }`
`function g(x: Uint(c)) -> Uint(c) { static_assert(c == 7); return f(x) * x; }` -/
def calm_ : List ADecl :=
  [const_ 1 "c" none (binary 2 .binary_plus (lit 3 "3") (lit 4 "4")),
    .function (fn 5 "f" [param 6 "x" (uint 7 (name 8 "c"))] (uint 9 (name 10 "c")) 11
      [let_ 12 "y" none (name 13 "x"),
        .while_ 14 none (binary 15 .greater_than (name 16 "y") (name 17 "x")) (.block 18 none
          [.assign 19 none ['y'] none (binary 20 .binary_plus (call 21 "g" [name 22 "y"]) (name 23 "x"))]),
        return_ 24 (name 25 "y")]),
    .function (fn 26 "g" [param 27 "x" (uint 28 (name 29 "c"))] (uint 30 (name 31 "c")) 32
      [.staticAssert 33 none (binary 34 .equals (name 35 "c") (lit 36 "7")),
        return_ 37 (binary 38 .multiplication (call 39 "f" [name 40 "x"]) (name 41 "x"))])]

/-- `function f(x: Uint(w)) -> Int { return 0; }` -/
def wide (w : String) : List ADecl :=
  [.function (fn 1 "f" [param 2 "x" (uint 3 (lit 4 w))] (int 5) 6 [return_ 7 (lit 8 "0")])]

/-- The hypotheses are met by a program with a constant, a variable, a loop and two functions that call each
other; it is accepted. -/
theorem C59_sample : RawProgram calm_ 50 ∧ (∀ ds', Names.program calm_ = .ok ds' → CalmProgram ds') ∧
    ∀ n, 3 ≤ n → verdict (Ana.program n calm_ 50) = .accepted := by
  have h1 : RawProgram calm_ 50 := by
    refine ⟨?_, by decide, by decide⟩
    simp only [calm_, List.forall_mem_cons, List.not_mem_nil, false_imp_iff, implies_true, and_true, RawD]
    refine ⟨by simp [const_, binary, RawE, lit], ?_, ?_⟩ <;> constructor <;>
    simp [fn, param, uint, lit, name, call, return_, let_, binary, RawT, RawE, RawEs, RawS, RawSs, CallFree, CallFreeT]
  have h2 : ∀ d ∈ calm_, QuietD d := by
    simp only [calm_, List.forall_mem_cons, List.not_mem_nil, false_imp_iff, implies_true, and_true, QuietD]
    refine ⟨by simp [const_, binary, QuietD, CallFree, lit], ?_, ?_⟩ <;> constructor <;>
    simp [fn, param, uint, lit, name, call, return_, let_, binary, QuietE, QuietEs, QuietS, QuietSs, CallFree, CallFreeT]
  refine ⟨h1, calm_of_check (value := fun k => if k = 1 then some (CVal.ofInt 7) else none) (by decide +kernel), fun n hn => ?_⟩
  obtain ⟨r, -, hr⟩ := C58_ends_partial h1 h2
  rw [hr n hn, ← hr 100 (by decide)]
  decide +kernel

theorem wide_raw (w : String) : RawProgram (wide w) 50 := by
  refine ⟨?_, (by decide : [1, 3, 4, 5, 6, 7, 8, 2].Nodup),
    (by decide : ∀ x ∈ [1, 3, 4, 5, 6, 7, 8, 2], x < 50 ∧ x ≠ sentinelKey)⟩
  simp only [wide, List.forall_mem_cons, List.not_mem_nil, false_imp_iff, implies_true, and_true, RawD]
  constructor <;>
  simp [fn, param, uint, int, lit, return_, RawT, RawE, RawS, RawSs, CallFree, CallFreeT]

/-- The hypotheses are met by programs with errors; these are reported. -/
theorem C59_errors :
    (∀ ds', Names.program (wide "129") = .ok ds' → CalmProgram ds') ∧
    (∀ ds', Names.program (wide "0") = .ok ds' → CalmProgram ds') ∧
    (∀ ds', Names.program (wide "127") = .ok ds' → CalmProgram ds') ∧
    verdict (Ana.program 3 (wide "129") 50) = .rejected .width_invalid 4 ∧
    verdict (Ana.program 3 (wide "0") 50) = .rejected .width_invalid 4 ∧
    verdict (Ana.program 3 (wide "127") 50) = .accepted :=
  ⟨calm_of_check (value := fun _ => none) (by decide +kernel), calm_of_check (value := fun _ => none) (by decide +kernel),
    calm_of_check (value := fun _ => none) (by decide +kernel), by decide +kernel, by decide +kernel, by decide +kernel⟩

end Bms
