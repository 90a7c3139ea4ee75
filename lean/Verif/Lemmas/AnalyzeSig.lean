import Verif.Lemmas.AnalyzeStmtVals

/-!
# Analysis of parameters and results
-/

namespace Bms

open Spec

section

variable {N n : Nat} {af : Key → Level → AM Unit}

theorem preT_done {ty : AType} {v : Value} (h : PreT ty) (hv : ty.cv = some v) : ∃ t, SigT ty t := by
  cases h with
  | raw h1 _ => rw [rawT_cv h1] at hv; cases hv
  | width => simp [AType.cv] at hv
  | done h1 => exact ⟨_, h1⟩

/-- Types of parameters and results. -/
theorem type_pre {ty ty' : AType} {s s' : ASt} (haf : AfOk N af) (h : PreT ty) (hd : DeclsOk s)
    (hv : ty.cv.isSome → Finally s fun P => WidthsT P ty) (hx : Ana.type n af ty s = .ok ty' s') :
    s' = s ∧ (∃ t, SigT ty' t) ∧ (∀ t, SigT ty t → ty' = ty) ∧ Finally s fun P => WidthsT P ty' := by
  cases h with
  | raw h1 h2 =>
    have hs := type_state _ h2 hx
    refine ⟨hs, type_sig (rawT_cv h1) hx, fun t ht => ?_, ?_⟩
    · have := ht.1
      rw [rawT_cv h1] at this
      cases this
    · have := type_vals haf ty (.inr ⟨h2, hd⟩) h1 hx
      rwa [hs] at this
  | @width k x ki name ref =>
    refine ⟨type_state _ (by simp [CallFreeT, CallFree]) hx, type_sig rfl hx, fun t ht => ?_, ?_⟩
    · have := ht.1
      simp [AType.cv] at this
    · simp only [Ana.type, Ana.expr, AM.bind_ok, AM.value_ok, AM.ite_fail_ok, AM.get_ok, AM.pure_ok] at hx
      obtain ⟨w1, s1, ⟨rfl, rfl⟩, v, _, ⟨hv, rfl⟩, hint, y, _, ⟨hy, rfl⟩, hrange, t, _, ⟨ht, rfl⟩, rfl, rfl⟩ := hx
      simp only [AExpr.cv, Option.some.injEq] at hv
      subst hv
      refine fun F _ _ => ⟨trivial, CVal.ofInt x, rfl, ?_, ?_, .inr ⟨_, _, _, rfl⟩⟩
      · simp only [Value.asInt, Value.known, CVal.ofInt] at hy
        simp at hy
        simp [CVal.ofInt, ← hy]
      · simp [CVal.ofInt]
  | done h1 =>
    have h2 : ty.cv.isSome := by rw [h1.1]; rfl
    obtain ⟨rfl, rfl⟩ := type_done h2 hx
    exact ⟨rfl, ⟨_, h1⟩, fun _ _ => rfl, hv h2⟩

/-- What becomes of a parameter. -/
def ParamDone (p p' : AParam) : Prop :=
  p'.k = p.k ∧ (∃ t, SigT p'.type t) ∧ ∀ t, SigT p.type t → p' = p

theorem params_ok (haf : AfOk N af) {k : Key} : ∀ {ps before : List AParam} {s s' : ASt} {f : AFn},
    (∀ p ∈ ps, PreT p.type) → s.fns k = some f → f.params = before ++ ps →
    (ps.map AParam.k).Nodup → DeclsOk s → (∀ p ∈ ps, s.decl p.k = some ⟨.param, p.type.cv⟩) →
    (f.level ≠ .unanalyzed → ∀ p ∈ ps, ∃ t, SigT p.type t) →
    (∀ p ∈ ps, p.type.cv.isSome → Finally s fun P => WidthsT P p.type) →
    Ana.params n af k before ps s = .ok () s' →
    ∃ ps', List.Forall₂ ParamDone ps ps' ∧
      s'.fns = (s.setFn k { f with params := before ++ ps' }).fns ∧
      (∀ p ∈ ps', s'.decl p.k = some ⟨.param, p.type.cv⟩) ∧
      (∀ x, x ∉ ps.map AParam.k → s'.decl x = s.decl x) ∧
      s'.code = s.code ∧ s'.stack = s.stack ∧ s'.next = s.next ∧
      DeclsOk s' ∧ Grows s s' ∧ ∀ p ∈ ps', Finally s' fun P => WidthsT P p.type := by
  intro ps
  induction ps with
  | nil =>
    intro before s s' f _ hf hb _ hd _ _ _ hx
    simp only [Ana.params, AM.pure_ok, true_and] at hx
    subst hx
    refine ⟨[], .nil, ?_, by simp, fun _ _ => rfl, rfl, rfl, rfl, hd, .refl _, by simp⟩
    have : { f with params := before ++ [] } = f := by rw [← hb]
    rw [this]
    funext j
    simp only [ASt.setFn]
    split
    · rename_i e; rw [e, hf]
    · rfl
  | cons p ps ih =>
    intro before s s' f hpre hf hb hnd hd hdp hsg hvals hx
    simp only [Ana.params, AM.bind_ok, updateFn_ok, AM.modify_ok] at hx
    obtain ⟨ty, s1, h1, _, s2, ⟨f1, hf1, rfl⟩, _, s3, rfl, hx⟩ := hx
    obtain ⟨rfl, hsig, hsame, hwid⟩ := type_pre haf (hpre p (by simp)) hd (hvals p (by simp)) h1
    rw [hf] at hf1
    cases hf1
    simp only [List.map_cons, List.nodup_cons] at hnd
    set f' : AFn := { f with params := before ++ { p with type := ty } :: ps } with hf'
    have hle : FnLe f f' := by
      refine ⟨rfl, rfl, ?_, Nat.le_refl _, fun hl => ?_, fun _ => rfl, fun _ => rfl, ?_⟩
      · simp [owned, hf', hb]
      · obtain ⟨t, ht⟩ := hsg hl p (by simp)
        simp [hf', hb, hsame t ht]
      · simp [hf', hb]
    have hg : Grows s1 ((s1.setFn k f').setDecl p.k ⟨.param, ty.cv⟩) := by
      refine ⟨fun x kd v hx => ?_, fun j g hj => ?_, [], by simp [ASt.setFn, ASt.setDecl]⟩
      · by_cases e : x = p.k
        · subst e
          rw [hdp p (by simp)] at hx
          simp only [Option.some.injEq, Decl.mk.injEq] at hx
          obtain ⟨t, ht⟩ := preT_done (hpre p (by simp)) hx.2
          simp only [ASt.setDecl, if_true, hsame t ht, hx.1, hx.2]
        · simpa [ASt.setFn, ASt.setDecl, e] using hx
      · by_cases e : j = k
        · subst e
          rw [hf] at hj
          cases hj
          exact ⟨f', by simp [ASt.setFn, ASt.setDecl], hle⟩
        · exact ⟨g, by simpa [ASt.setFn, ASt.setDecl, e] using hj, .refl _⟩
    have hd' : DeclsOk ((s1.setFn k f').setDecl p.k ⟨.param, ty.cv⟩) := by
      intro x d hx
      by_cases e : x = p.k
      · subst e
        simp only [ASt.setDecl, if_true, Option.some.injEq] at hx
        subst hx
        obtain ⟨t, ht⟩ := hsig
        rw [ht.1]
        exact ⟨rfl, ht.2.2⟩
      · exact hd x d (by simpa [ASt.setFn, ASt.setDecl, e] using hx)
    obtain ⟨ps', a1, a2, a3, a4, a5, a6, a7, a8, a9, a10⟩ := ih (f := f')
      (fun q hq => hpre q (by simp [hq])) (by simp [ASt.setDecl, ASt.setFn]) (by simp [hf']) hnd.2 hd'
      (fun q hq => by
        have : q.k ≠ p.k := fun e => hnd.1 (e ▸ List.mem_map_of_mem hq)
        simpa [ASt.setDecl, ASt.setFn, this] using hdp q (by simp [hq]))
      (fun hl q hq => hsg hl q (by simp [hq]))
      (fun q hq hs => (hvals q (by simp [hq]) hs).grow hg) hx
    refine ⟨{ p with type := ty } :: ps', .cons ⟨rfl, hsig, fun t ht => ?_⟩ a1, ?_, ?_, ?_, a5, a6, a7, a8,
      hg.trans a9, ?_⟩
    · simp only [hsame t ht]
    · rw [a2]
      funext j
      simp only [ASt.setFn, ASt.setDecl, hf', List.append_assoc, List.cons_append, List.nil_append]
      split <;> rfl
    · intro q hq
      rcases List.mem_cons.1 hq with rfl | hq
      · rw [a4]
        · simp [ASt.setDecl]
        · exact hnd.1
      · exact a3 q hq
    · intro x hx
      simp only [List.map_cons, List.mem_cons, not_or] at hx
      rw [a4 x hx.2]
      simp [ASt.setDecl, ASt.setFn, hx.1]
    · intro q hq
      rcases List.mem_cons.1 hq with rfl | hq
      · exact hwid.grow (hg.trans a9)
      · exact a10 q hq

theorem paramDone_keys {ps ps' : List AParam} (h : List.Forall₂ ParamDone ps ps') :
    ps'.map AParam.k = ps.map AParam.k := by
  induction h with
  | nil => rfl
  | cons h1 _ ih => simp only [List.map_cons, h1.1, ih]

theorem paramDone_sig {ps ps' : List AParam} (h : List.Forall₂ ParamDone ps ps') :
    ∀ p ∈ ps', ∃ t, SigT p.type t := by
  induction h with
  | nil => simp
  | cons h1 _ ih =>
    intro p hp
    rcases List.mem_cons.1 hp with rfl | hp
    · exact h1.2.1
    · exact ih p hp

theorem paramDone_same {ps ps' : List AParam} (h : List.Forall₂ ParamDone ps ps')
    (hs : ∀ p ∈ ps, ∃ t, SigT p.type t) : ps' = ps := by
  induction h with
  | nil => rfl
  | cons h1 _ ih =>
    obtain ⟨t, ht⟩ := hs _ List.mem_cons_self
    rw [h1.2.2 t ht, ih fun p hp => hs p (List.mem_cons_of_mem _ hp)]

end

end Bms
