import Verif.Lemmas.AnalyzeTypedStmt
import Verif.Props.AnalysisCalm
import Verif.Props.Build

/-!
# Well-typed programs are not rejected
-/

namespace Bms

open Spec

theorem okDs_const {T : Typing} : (ds : List ADecl) → {seen : List Key} → okDs T seen ds = true → ∀ f, ADecl.function f ∈ ds →
    ∃ seen, okF T seen f = true
  | [], _, _, f, hf => by cases hf
  | .const_ .. :: ds, seen, h, f, hf => by
    simp only [okDs, Bool.and_eq_true] at h
    exact okDs_const ds h.2 f (by simpa using hf)
  | .staticAssert .. :: ds, seen, h, f, hf => by
    simp only [okDs, Bool.and_eq_true] at h
    exact okDs_const ds h.2 f (by simpa using hf)
  | .function g :: ds, seen, h, f, hf => by
    simp only [okDs, Bool.and_eq_true] at h
    rcases List.mem_cons.1 hf with e | hf
    · cases e
      exact ⟨seen, h.1⟩
    · exact okDs_const ds h.2 f hf

theorem okParams_var {T : Typing} {seen : List Key} : {ps : List AParam} → {ts : List CType} → okParams T ps ts = true →
    List.Forall₂ (fun (q : AParam) u => valueT T seen q.type = some u) ps ts → ∀ p ∈ ps, ∀ t, constT T.names p.type = .ok t →
    T.var p.k = some t
  | [], [], _, _, p, hp, _, _ => by cases hp
  | [], _ :: _, h, _, _, _, _, _ => by cases h
  | _ :: _, [], h, _, _, _, _, _ => by cases h
  | q :: ps, u :: ts, h, hv, p, hp, t, ht => by
    simp only [okParams, Bool.and_eq_true, decide_eq_true_eq] at h
    rw [List.forall₂_cons] at hv
    rcases List.mem_cons.1 hp with rfl | hp
    · rw [(valueT_iff.1 hv.1).1] at ht
      cases ht
      exact h.1
    · exact okParams_var h.2 hv.2 p hp t ht

theorem functionsIn_mem {ds : List ADecl} {f : AFn} : f ∈ functionsIn ds ↔ ADecl.function f ∈ ds := by
  unfold functionsIn
  rw [List.mem_flatMap]
  constructor
  · rintro ⟨d, hd, hf⟩
    cases d with
    | function g =>
      simp only [List.mem_singleton] at hf
      subst hf
      exact hd
    | const_ => cases hf
    | staticAssert => cases hf
  · exact fun h => ⟨_, h, by simp⟩

theorem initial_typed {ds : List ADecl} {next : Nat} (h : RawProgram ds next) {value : Key → Option CVal} {var : Key → Option CType}
    (hc : okDs ⟨factsOf ds value, var, functionsIn ds⟩ [] ds = true) :
    StaticOk ⟨factsOf ds value, var, functionsIn ds⟩ ∧
      TypedSt ⟨factsOf ds value, var, functionsIn ds⟩ [] [] [] [] (Ana.initial ds next) := by
  obtain ⟨a1, -, -, -, a5, a6⟩ := initFold ds
    { decl := fun _ => none, fns := fun _ => none, code := [], stack := [], next := next } h.raw h.nodup
  rw [← initial_eq] at a1 a5 a6
  have hfn : ∀ j f, (Ana.initial ds next).fns j = some f → .function f ∈ ds ∧ f.k = j := by
    intro j f hj
    rcases a6 j f hj with h1 | h1
    · exact h1
    · cases h1
  have hmem : ∀ d ∈ ds, ∀ x ∈ declsG d, (Ana.initial ds next).decl x.1 = some x.2 := by
    intro d hd x hx
    rw [a1]
    exact insertAll_mem _ _ (declsG_nodup h.nodup) x (List.mem_flatMap.2 ⟨d, hd, hx⟩)
  have hkind : ∀ j a, (j, a) ∈ (factsOf ds value).kinds → (a = .const_ ∨ a = .let_) ∧ ∃ d ∈ ds, (j, ⟨a, none⟩) ∈ declsG d ∧
      ∀ f, d = .function f → (j, a) ∈ declsSs f.body := by
    intro j a hm
    obtain ⟨d, hd, hm⟩ := List.mem_flatMap.1 hm
    cases d with
    | const_ k cv name ty init =>
      simp only [List.mem_singleton, Prod.mk.injEq] at hm
      obtain ⟨rfl, rfl⟩ := hm
      exact ⟨.inl rfl, _, hd, by simp [declsG], fun f e => by cases e⟩
    | staticAssert k cv e => cases hm
    | function f =>
      exact ⟨declsSs_kind _ hm, _, hd, declsF_body hm, fun g e => by cases e; exact hm⟩
  have hnot : ∀ j a, (j, a) ∈ (factsOf ds value).kinds → (Ana.initial ds next).fns j = none := by
    intro j a hm
    obtain ⟨-, d, hd, hj, hs⟩ := hkind j a hm
    cases hf : (Ana.initial ds next).fns j with
    | none => rfl
    | some f =>
      exfalso
      obtain ⟨hfm, rfl⟩ := hfn j f hf
      have e := nodeKeys_unique h.nodup hd hfm (declsG_mem (List.mem_map.2 ⟨_, hj, rfl⟩))
        (show f.k ∈ nodeKeys (.function f) by simp [nodeKeys, Inst.keys])
      have hb := (declsSs_sub f.body).subset (List.mem_map.2 ⟨_, hs f e, rfl⟩)
      have hn := nodeKeys_nodup h.nodup hfm
      simp only [nodeKeys, Inst.keys, List.cons_append, List.nodup_cons, List.mem_append, List.mem_cons, not_or] at hn
      exact hn.1.1.2.2 hb
  have huniq : ∀ f ∈ functionsIn ds, ∀ g ∈ functionsIn ds, f.k = g.k → f = g := by
    intro f hf g hg e
    have h1 := a5 f (functionsIn_mem.1 hf)
    have h2 := a5 g (functionsIn_mem.1 hg)
    rw [e, h2] at h1
    exact (Option.some.inj h1).symm
  constructor
  · refine ⟨fun f hf => h.raw _ (functionsIn_mem.1 hf), fun f hf p hp a hk => ?_, fun f hf p hp t ht => ?_, huniq, fun j h1 h2 => ?_⟩
    · obtain ⟨ha, d, hd, hj, -⟩ := hkind _ _ hk
      have e1 := hmem d hd _ hj
      have e2 := hmem _ (functionsIn_mem.1 hf) _ (declsF_param hp)
      simp only at e1 e2
      rw [e1] at e2
      simp only [Option.some.injEq, Decl.mk.injEq] at e2
      rcases ha with rfl | rfl
      · cases e2.1
      · cases e2.1
    · obtain ⟨seen, hok⟩ := okDs_const ds hc f (functionsIn_mem.1 hf)
      unfold okF at hok
      cases hsig : signatureOf ⟨factsOf ds value, var, functionsIn ds⟩ seen f.k with
      | none => simp [hsig] at hok
      | some q =>
        obtain ⟨us, u⟩ := q
        simp only [hsig, Bool.and_eq_true] at hok
        obtain ⟨src, hsrc, hk, hsg⟩ := signatureOf_iff hsig
        cases huniq src hsrc f hf hk
        exact okParams_var hok.1 hsg.params p hp t ht
    · obtain ⟨-, d, hd, hj, -⟩ := hkind _ _ h1
      obtain ⟨-, d', hd', hj', -⟩ := hkind _ _ h2
      have e1 := hmem d hd _ hj
      have e2 := hmem d' hd' _ hj'
      simp only at e1 e2
      rw [e1] at e2
      simp at e2
  · refine ⟨hnot, fun _ h => (by cases h), fun _ h => (by cases h), fun _ h => (by cases h), fun _ h => (by cases h),
      fun j f hj => ?_, fun f hf => ?_, fun _ h => (by cases h)⟩
    · obtain ⟨hm, rfl⟩ := hfn j f hj
      have hr : RawFn f := h.raw _ hm
      refine ⟨f, functionsIn_mem.2 hm, rfl, rfl, rfl, ?_, .inl rfl, fun e he => .inl he, fun _ => rfl, fun hl => ?_, fun hl => ?_⟩
      · exact List.forall₂_same.2 fun p _ => ⟨rfl, .inl rfl⟩
      · rw [hr.level] at hl
        exact absurd hl (by decide)
      · rw [hr.level] at hl
        exact absurd hl (by decide)
    · rw [a5 f (functionsIn_mem.1 hf)]
      rfl

/-- **C80.** A program that follows the rules is not rejected. -/
theorem C80_not_rejected_partial {ds ds' : List ADecl} {next : Nat} (h : RawProgram ds next) (hp : Names.program ds = .ok ds')
    (hc : WellTyped ds') {n : Nat} (hn : 2 ≤ n) (e : AErr) : Ana.program n ds next ≠ .err e := by
  unfold Ana.program
  rw [hp]
  have h' := rawProgram_strip h (lookup_strip hp)
  obtain ⟨value, var, hv⟩ := hc
  obtain ⟨m, rfl⟩ : ∃ m, n = m + 2 := ⟨n - 2, (Nat.sub_add_cancel hn).symm⟩
  obtain ⟨hT, hs⟩ := initial_typed h' hv
  have := decls_safe hT m ds' hs h'.raw (fun f hf => functionsIn_mem.2 hf) hv
  intro he
  simp only at he
  simp [Safe, he] at this

/-- **C80, for calm programs.** A program that follows the rules is accepted. -/
theorem C80_accepted_partial {ds ds' : List ADecl} {next : Nat} (h : RawProgram ds next) (hp : Names.program ds = .ok ds')
    (hc : CalmProgram ds') (ht : WellTyped ds') {n : Nat} (hn : 2 ≤ n) : ∃ s, Ana.program n ds next = .ok () s := by
  rcases C59_calm_partial h (fun ds'' hp' => by rw [hp] at hp'; cases hp'; exact hc) hn with h1 | ⟨e, h1⟩
  · exact h1
  · exact absurd h1 (C80_not_rejected_partial h hp ht hn e)

/-- **C80, for texts.** A calm program that follows the rules is compiled. -/
theorem C80_text_partial {n : Nat} (hn : 2 ≤ n) {src : List Char} {ds ds' : List ADecl} {r : ARes Unit}
    (hx : compile n src = .analyzed ds r) (hs : PlainSignatures ds) (hp : Names.program ds = .ok ds')
    (hc : CalmProgram ds') (ht : WellTyped ds') : ∃ s, r = .ok () s := by
  obtain ⟨ts, t, next, -, -, -, -, h4, rfl⟩ := C60_analyzed hx
  exact C80_accepted_partial (h4 hs) hp hc ht hn

/-! ## Samples -/

theorem wellTyped_of_check {ds ds' : List ADecl} {value : Key → Option CVal} {var : Key → Option CType} (hp : Names.program ds = .ok ds')
    (h : (match Names.program ds with
      | .ok ds' => okDs ⟨factsOf ds' value, var, functionsIn ds'⟩ [] ds'
      | _ => false) = true) : WellTyped ds' := by
  simp only [hp] at h
  exact ⟨value, var, h⟩

open Programs

/-- The hypotheses are met by a program with a constant, a variable, a loop and two functions that call each
other. -/
theorem C80_sample : RawProgram calm_ 50 ∧ ∃ ds', Names.program calm_ = .ok ds' ∧ CalmProgram ds' ∧ WellTyped ds' := by
  refine ⟨C59_sample.1, ?_⟩
  have h : (match Names.program calm_ with
      | .ok ds' => okDs ⟨factsOf ds' fun k => if k = 1 then some (CVal.ofInt 7) else none,
          fun k => if k = 6 ∨ k = 12 ∨ k = 27 then some (.uint 7) else none, functionsIn ds'⟩ [] ds'
      | _ => false) = true := by decide +kernel
  cases hp : Names.program calm_ with
  | ok ds' => exact ⟨ds', rfl, C59_sample.2.1 ds' hp, wellTyped_of_check hp h⟩
  | err e => simp [hp] at h
  | throws => simp [hp] at h
  | ub => simp [hp] at h

/-- `function f() -> Int { return g(0); }` -/
def callers : List ADecl :=
  [.function (fn 20 "f" [] (int 21) 22 [return_ 23 (call 24 "g" [lit 25 "0"])])]

/-- `function g(x: Uint(c)) -> Int { return 1; }` -/
def callees : List ADecl :=
  [.function (fn 5 "g" [param 6 "x" (uint 7 (name 8 "c"))] (int 9) 10 [return_ 11 (lit 12 "1")])]

/-- `const c = 7;` -/
def widths : List ADecl := [const_ 1 "c" none (lit 2 "7")]

/-- Functions can be called before they are declared, but not before the constants in their signature are: the
rules for calls depend on the place of the call, and the same three declarations are accepted or rejected
depending on their order. -/
theorem C80_order :
    verdict (Ana.program 5 (widths ++ callers ++ callees) 50) = .accepted ∧
    verdict (Ana.program 5 (widths ++ callees ++ callers) 50) = .accepted ∧
    verdict (Ana.program 5 (callers ++ widths ++ callees) 50) = .rejected .use_of_undefined_constant 8 := by
  refine ⟨by decide +kernel, by decide +kernel, by decide +kernel⟩

end Bms
