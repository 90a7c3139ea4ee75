import Verif.Lemmas.FiniteStmt

/-!
# Analysis of functions ends, if analysis of calls does
-/

namespace Bms

open Spec

mutual

theorem callFree_calls : (e : AExpr) → CallFree e → callsE e = []
  | .literal .., _ => by simp [callsE]
  | .id .., _ => by simp [callsE]
  | .conversion _ _ e t, h => by
    simp only [CallFree] at h
    simp [callsE, callFree_calls e h.1, callFreeT_calls t h.2]
  | .ite _ _ l c r, h => by
    simp only [CallFree] at h
    simp [callsE, callFree_calls l h.1, callFree_calls c h.2.1, callFree_calls r h.2.2]
  | .binary _ _ _ l r, h => by
    simp only [CallFree] at h
    simp [callsE, callFree_calls l h.1, callFree_calls r h.2]
  | .prefix _ _ _ e, h => by
    simp only [CallFree] at h
    simp [callsE, callFree_calls e h]
  | .call .., h => by simp [CallFree] at h

theorem callFreeT_calls : (t : AType) → CallFreeT t → callsT t = []
  | .base .., _ => by simp [callsT]
  | .uint _ _ _ w, h => by
    simp only [CallFreeT] at h
    simp [callsT, callFree_calls w h]

end

section

variable {ds : List ADecl} {N : Nat} {st : List Key} {K : Key → Prop} {s : ASt}

/-- A function is written, with the same address, level and instances. -/
theorem Good.update (h : Good ds N s) {k : Key} {f f' : AFn} (hf : s.fns k = some f) (ha : f'.address = f.address) (hl : f'.level = f.level)
    (hi : f'.instances = f.instances) : Good ds N (s.setFn k f') := by
  have h0 := h.fns k f hf
  refine h.setFn hf ha ?_ ?_
  · rw [ha, hl]
    exact h0.level
  · rw [hi]
    exact h0.instances

theorem paramsF (hg : BGiven ds N) {k : Key} {f0 : AFn} (hp : Plain ds N k f0) :
    (ps0 : List AParam) → (ps before0 before : List AParam) → (s : ASt) → f0.params = before0 ++ ps0 →
    List.Forall₂ (SimP ds N (Live s)) before0 before → List.Forall₂ (SimP ds N (Live s)) ps0 ps → BInv ds N s → Good ds N s →
    Settles (fun _ s' => Good ds N s' ∧ Keep K s s') (fun n => Ana.params n (Ana.function n) k before ps) s
  | [], ps, before0, before, s, he, hb, hps, h, hi => by
    cases hps
    simp only [Ana.params]
    exact .pure ⟨hi, .refl _⟩
  | p0 :: ps0, ps, before0, before, s, he, hb, hps, h, hi => by
    cases hps with | @cons _ p _ ps hp1 hps =>
    have hmem : p0 ∈ f0.params := by rw [he]; simp
    have hfree : ∀ j ∈ callsT p0.type, False := by
      have hraw : RawFn f0 := hg.raw.raw _ hp.mem
      rw [callFreeT_calls _ (hraw.params p0 hmem).2]
      simp
    simp only [Ana.params]
    refine ((typeF (K := K) (C := fun _ => False) hg .none p0.type p.type s hp1.2 hfree h hi rfl).with_
      fun n => typeA_bl hg (functionA_bl hg n) p0.type p.type s hp1.2 h).bind fun ty s1 h' => ?_
    obtain ⟨⟨i1, l1, ht⟩, g1, k1⟩ := h'
    refine .updateFn_bind fun f hf => .modify_bind ?_
    have i2 : BInv ds N (s1.setFn k { f with params := before ++ { p with type := ty } :: ps }) := by
      refine i1.update hg hp hf rfl rfl fun hs => ⟨hs.k, ?_, hs.ret, hs.reqs, hs.body, hs.cv, hs.instances⟩
      rw [he]
      exact List.rel_append (simPs_mono l1 hb) (.cons ⟨hp1.1, ht⟩ (simPs_mono l1 hps))
    have g2 : Good ds N (s1.setFn k { f with params := before ++ { p with type := ty } :: ps }) := g1.update hf rfl rfl rfl
    have k2 : Keep K s1 (s1.setFn k { f with params := before ++ { p with type := ty } :: ps }) := keep_setFn hf rfl
    have l2 : Lives s (s1.setFn k { f with params := before ++ { p with type := ty } :: ps }) := fun j hj => lives_setFn _ (l1 j hj)
    have i3 := i2.setDecl (k := p.k) (d := ⟨.param, ty.cv⟩) fun v hv => by
      rw [hp1.1]
      exact (varType_follows ds).param f0 hp.mem p0 hmem _ (ht.stands hv)
    have l3 : Lives s ((s1.setFn k { f with params := before ++ { p with type := ty } :: ps }).setDecl p.k ⟨.param, ty.cv⟩) := l2
    have l4 : Lives s1 ((s1.setFn k { f with params := before ++ { p with type := ty } :: ps }).setDecl p.k ⟨.param, ty.cv⟩) :=
      fun j hj => lives_setFn (k := k) (f := { f with params := before ++ { p with type := ty } :: ps }) j hj
    have hb' : List.Forall₂ (SimP ds N (Live ((s1.setFn k { f with params := before ++ { p with type := ty } :: ps }).setDecl p.k
        ⟨.param, ty.cv⟩))) (before0 ++ [p0]) (before ++ [{ p with type := ty }]) :=
      List.rel_append (simPs_mono l3 hb) (.cons ⟨hp1.1, SimT.mono l4 _ _ ht⟩ .nil)
    refine (paramsF hg hp ps0 ps (before0 ++ [p0]) (before ++ [{ p with type := ty }]) _ (by rw [he]; simp)
      hb' (simPs_mono l3 hps) i3 g2.setDecl).mono ?_
    intro _ s' h
    exact ⟨h.1, (k1.trans k2).trans (Keep.trans keep_setDecl h.2)⟩

theorem requiresF (hg : BGiven ds N) {C : Key → Prop} (hC : CallsEnd ds N st K C .forConst) {k : Key} {e0 e : AExpr}
    {s : ASt} (he : SimE ds N (Live s) true e0 e) (hc : ∀ j ∈ callsE e0, C j) (h : BInv ds N s) (hi : Good ds N s) (hst : s.stack = st) :
    Settles (fun _ s' => Good ds N s' ∧ Keep K s s') (fun n => Ana.requires_ n (Ana.function n) k e) s := by
  unfold Ana.requires_
  cases hcv : e.cv with
  | some v => exact .pure ⟨hi, .refl _⟩
  | none =>
    simp only
    refine (exprF hg hC e0 e true .forConst .constant C s he (fun _ => ⟨rfl, rfl⟩) hC hc (fun j hj => hc j (widthCalls_sub e0 j hj)) h hi
      hst).bind fun e' s1 h' => ?_
    obtain ⟨g1, k1⟩ := h'
    exact .updateFn_bind fun f hf => .assert_bind fun _ => .deref_bind fun v hv => .ite (fun _ => .fail) fun _ =>
      .get_bind fun b _ => .ite (fun _ => .fail) fun _ => .pure ⟨g1.update hf rfl rfl rfl, k1.trans (keep_setFn hf rfl)⟩

theorem addressAt_none {k : Key} {f : AFn} (hf : s.fns k = some f) (h : addressAt s k = none) : f.address = none := by
  unfold addressAt at h
  rw [hf] at h
  exact h

/-- What comes after the signature. -/
theorem afterF (hg : BGiven ds N) {L A : Key → Prop} (hce : CallsEnding ds L) {level : Level} {k : Key} {f0 : AFn} (hp : Plain ds N k f0)
    (hC : CallsEnd ds N (k :: st) (· ∈ k :: st) L .forConst)
    (hA : Level.full.rank ≤ level.rank → CallsEnd ds N (k :: st) (· ∈ k :: st) A level ∧ ∀ j ∈ callsSs f0.body, A j)
    (hL : level = .forConst → L f0.k ∧ k = f0.k ∧ k ∉ st)
    {f : AFn} {ret : AType} {s : ASt} (hr : SimT ds N (Live s) f0.ret ret) (hb : SimSs ds N (Live s) f0.body f.body)
    (h : BInv ds N s) (hi : Good ds N s) (hst : s.stack = k :: st) (hnone : addressAt s k = none) :
    Settles (fun _ s' => Good ds N s' ∧ s'.stack = st ∧ ∀ x ∈ st, addressAt s' x = addressAt s x)
      (fun n => afterSignature n k level f ret) s := by
  unfold afterSignature
  have hcomp : ∀ s', BInv ds N s' → Good ds N s' → Keep (· ∈ k :: st) s s' →
      Settles (fun _ s' => Good ds N s' ∧ s'.stack = st ∧ ∀ x ∈ st, addressAt s' x = addressAt s x)
      (fun _ => do
        if level = .forConst then Ana.compile k
        Ana.updateFn k fun f => { f with cv := ret.cv, level := level }
        AM.modify fun s => { s with stack := s.stack.tail }) s' := by
    intro s' i1 g1 k1
    have hn1 : addressAt s' k = none := by rw [k1.2 k (by simp), hnone]
    refine .ite (fun hlev => ?_) fun hlev => ?_
    · obtain ⟨hLf, hk, hnot⟩ := hL hlev
      unfold Ana.compile
      simp only [bind_assoc]
      refine .read_bind (.value_bind fun f1 hf1 => .lift_bind fun r hload => ?_)
      obtain ⟨code, a⟩ := r
      refine .modify_bind (.updateFn_bind fun f2 hf2 => .updateFn_bind fun f3 hf3 => .modify ?_)
      have he2 : f2 = f1 := by
        have : s'.fns k = some f2 := hf2
        rw [hf1] at this
        cases this
        rfl
      subst he2
      have he3 : f3 = { f2 with address := some a } := by
        simp only [ASt.setFn, if_true] at hf3
        cases hf3
        rfl
      subst he3
      rw [setFn_setFn]
      obtain ⟨f1', hf1'⟩ := i1.fns k f2 hf1
      have heq : f1' = f0 := hg.unique hf1'.mem hp.mem (by rw [← hf1'.mod, hp.mod])
      subst heq
      have gl := g1.load hg i1 (f' := { f2 with address := some a, cv := ret.cv, level := level }) hf1 hf1' hk (addressAt_none hf1 hn1)
        (hce.loops _ hp.mem hLf) (hce.returns _ hp.mem hLf) hload rfl hlev (g1.fns k f2 hf1).instances
      refine ⟨gl.stack _, ?_, fun x hx => ?_⟩
      · show s'.stack.tail = st
        rw [k1.1, hst]
        rfl
      · have hxk : x ≠ k := fun e => hnot (e ▸ hx)
        rw [← k1.2 x (by simp [hx])]
        unfold addressAt ASt.setFn
        simp only [if_neg hxk]
    · refine .updateFn_bind fun f1 hf1 => .modify ?_
      have hn := addressAt_none hf1 hn1
      have g2 : Good ds N (s'.setFn k { f1 with cv := ret.cv, level := level }) :=
        g1.setFn hf1 rfl (fun hx => absurd hn hx) (g1.fns k f1 hf1).instances
      refine ⟨g2.stack _, ?_, fun x hx => ?_⟩
      · show s'.stack.tail = st
        rw [k1.1, hst]
        rfl
      · rw [← k1.2 x (by simp [hx])]
        exact addressAt_setFn (f' := { f1 with cv := ret.cv, level := level }) hf1 rfl x
  refine .updateFn_bind fun f1 hf1 => ?_
  have i1 : BInv ds N (s.setFn k { f1 with level := if f1.level = .unanalyzed then .shallow else f1.level }) :=
    h.update hg hp hf1 rfl rfl fun hs => ⟨hs.k, hs.params, hs.ret, hs.reqs, hs.body, hs.cv, hs.instances⟩
  have l1 : Lives s (s.setFn k { f1 with level := if f1.level = .unanalyzed then .shallow else f1.level }) := lives_setFn
  have g1 : Good ds N (s.setFn k { f1 with level := if f1.level = .unanalyzed then .shallow else f1.level }) :=
    hi.setFn hf1 rfl (fun hx => absurd (addressAt_none hf1 hnone) hx) (hi.fns k f1 hf1).instances
  have k1 : Keep (· ∈ k :: st) s (s.setFn k { f1 with level := if f1.level = .unanalyzed then .shallow else f1.level }) := keep_setFn hf1 rfl
  generalize s.setFn k { f1 with level := if f1.level = .unanalyzed then .shallow else f1.level } = s1 at i1 l1 g1 k1
  refine .ite (fun hfull => ?_) fun _ => hcomp s1 i1 g1 k1
  obtain ⟨hA1, hA2⟩ := hA hfull
  refine .get_bind fun o ho => .value_bind fun t ht => ?_
  subst ht
  have hcc : ∀ j ∈ constCallsSs f0.body, L j := fun j hj => hce.called _ hp.mem j (by simp [constCallsD, hj])
  refine ((stmtsF hg hC hA1 (hr.concrete ho) f0.body false f.body s1 (SimSs.mono l1 _ _ hb) (fun b hb => ⟨_, hp.mem, hb⟩) hA2 hcc i1 g1
    (k1.1.trans hst)).with_ fun n => stmtsA_bl hg (functionA_bl hg n) (hr.concrete ho) f0.body false f.body s1 (SimSs.mono l1 _ _ hb)
      (fun b hb => ⟨_, hp.mem, hb⟩) i1).bind fun body s2 h2 => ?_
  obtain ⟨⟨i2, l2, hbody⟩, g2, k2⟩ := h2
  refine .updateFn_bind fun f2 hf2 => hcomp _ ?_ (g2.update hf2 rfl rfl rfl) ((k1.trans k2).trans (keep_setFn hf2 rfl))
  exact i2.update hg hp hf2 rfl rfl fun hs => ⟨hs.k, hs.params, hs.ret, hs.reqs, hbody, hs.cv, hs.instances⟩

/-- One function, if calls in it end. -/
theorem plainF (hg : BGiven ds N) {L A : Key → Prop} (hce : CallsEnding ds L) {level : Level} {k : Key}
    (hC : CallsEnd ds N (k :: st) (· ∈ k :: st) L .forConst)
    (hA : Level.full.rank ≤ level.rank → CallsEnd ds N (k :: st) (· ∈ k :: st) A level ∧
      ∀ f0, .function f0 ∈ ds → f0.k = k % N → ∀ j ∈ callsSs f0.body, A j)
    (hL : level = .forConst → L (k % N) ∧ k ∉ st)
    {s : ASt} (hgen : ∀ f, s.fns k = some f → f.generic = false)
    (h : BInv ds N s) (hi : Good ds N s) (hst : s.stack = st) :
    Settles (fun _ s' => Good ds N s' ∧ Keep (· ∈ st) s s') (fun n => Ana.function n k level) s := by
  refine .of_succ ?_
  simp only [Ana.function]
  refine .assert_bind fun _ => .read_bind (.value_bind fun f hf => ?_)
  refine .ite (fun _ => .pure ⟨hi, .refl _⟩) fun hrank => ?_
  have hgf := hgen f hf
  refine .ite (fun hx => by rw [hgf] at hx; cases hx) fun _ => .assert_bind fun _ => ?_
  obtain ⟨f0, hf0⟩ := h.fns k f hf
  have hp : Plain ds N k f0 := ⟨hf0.mem, hf0.mod, fun hx => by have := hf0.generic.2 hx; rw [hgf] at this; cases this⟩
  have hnone : addressAt s k = none := by
    unfold addressAt
    rw [hf]
    cases ha : f.address with
    | none => exact ha
    | some a =>
      have := (hi.fns k f hf).level (by rw [ha]; simp)
      rw [this] at hrank
      exfalso
      apply hrank
      cases level <;> decide
  have hL' : level = .forConst → L f0.k ∧ k = f0.k ∧ k ∉ st := by
    intro hlev
    obtain ⟨h1, h2⟩ := hL hlev
    rw [hf0.mod] at h1
    refine ⟨h1, ?_, h2⟩
    rw [← hf0.mod]
    refine (low_self ?_).symm
    by_cases hk : k < N
    · exact hk
    · have := (hi.fns k f hf).inst (Nat.le_of_not_lt hk) f0 hf0.mem hf0.mod.symm
      rw [hce.plain _ hf0.mem h1] at this
      cases this
  refine ((paramsF (K := fun _ => True) hg hp f0.params f.params [] [] s rfl .nil hf0.sim.params h hi).with_
    fun n => paramsA_bl hg (functionA_bl hg n) hp f0.params f.params [] [] s rfl .nil hf0.sim.params h).bind fun _ s1 h1 => ?_
  obtain ⟨⟨i1, l1⟩, g1, k1⟩ := h1
  have hfree : ∀ j ∈ callsT f0.ret, False := by
    have hraw : RawFn f0 := hg.raw.raw _ hp.mem
    rw [callFreeT_calls _ hraw.ret.2]
    simp
  refine ((typeF (C := fun _ => False) (K := fun _ => True) hg .none f0.ret f.ret s1 (SimT.mono l1 _ _ hf0.sim.ret) hfree i1 g1 rfl).with_
    fun n => typeA_bl hg (functionA_bl hg n) f0.ret f.ret s1 (SimT.mono l1 _ _ hf0.sim.ret) i1).bind fun ret s2 h2 => ?_
  obtain ⟨⟨i2, l2, hr⟩, g2, k2⟩ := h2
  refine .updateFn_bind fun f2 hf2 => .modify_bind ?_
  have i3 : BInv ds N ({ s2.setFn k { f2 with ret := ret } with stack := k :: (s2.setFn k { f2 with ret := ret }).stack } : ASt) :=
    BInv.congr (i2.update hg hp hf2 (f' := { f2 with ret := ret }) rfl rfl fun hs =>
      ⟨hs.k, hs.params, hr, hs.reqs, hs.body, hs.cv, hs.instances⟩) rfl rfl rfl
  have l23 : Lives s2 ({ s2.setFn k { f2 with ret := ret } with stack := k :: (s2.setFn k { f2 with ret := ret }).stack } : ASt) :=
    fun j hj => lives_setFn (k := k) (f := { f2 with ret := ret }) j hj
  have g3 : Good ds N ({ s2.setFn k { f2 with ret := ret } with stack := k :: (s2.setFn k { f2 with ret := ret }).stack } : ASt) :=
    (g2.update (f' := { f2 with ret := ret }) hf2 rfl rfl rfl).stack _
  have hst3 : ({ s2.setFn k { f2 with ret := ret } with stack := k :: (s2.setFn k { f2 with ret := ret }).stack } : ASt).stack = k :: st := by
    show k :: s2.stack = _
    rw [k2.1, k1.1, hst]
  have ha3 : ∀ j, addressAt ({ s2.setFn k { f2 with ret := ret } with stack := k :: (s2.setFn k { f2 with ret := ret }).stack } : ASt) j =
      addressAt s j := fun j =>
    (addressAt_setFn (f' := { f2 with ret := ret }) hf2 rfl j).trans ((k2.2 j trivial).trans (k1.2 j trivial))
  generalize ({ s2.setFn k { f2 with ret := ret } with stack := k :: (s2.setFn k { f2 with ret := ret }).stack } : ASt) = s3
    at i3 l23 g3 hst3 ha3
  have l3 : Lives s s3 := (l1.trans l2).trans l23
  have key : ∀ s', BInv ds N s' → Good ds N s' → Lives s3 s' → Keep (· ∈ k :: st) s3 s' →
      Settles (fun _ s' => Good ds N s' ∧ Keep (· ∈ st) s s') (fun n => afterSignature n k level f ret) s' := by
    intro s' i' g' l' k'
    refine (afterF hg hce hp hC (fun hfull => ⟨(hA hfull).1, (hA hfull).2 f0 hp.mem hp.mod.symm⟩) hL' (SimT.mono (l23.trans l') _ _ hr)
      (SimSs.mono (l3.trans l') _ _ hf0.sim.body) i' g' (k'.1.trans hst3) (by rw [k'.2 k (by simp), ha3, hnone])).mono fun _ s4 h4 => ?_
    obtain ⟨h5, h6, h7⟩ := h4
    exact ⟨h5, h6.trans hst.symm, fun j hj => by rw [h7 j hj, k'.2 j (by simp [hj]), ha3]⟩
  have hq := hf0.sim.reqs
  cases hreq : f.requires_ with
  | none => exact key s3 i3 g3 (.refl _) (.refl _)
  | some e =>
    rw [hreq] at hq
    generalize hreq0 : f0.requires_ = o at hq
    cases hq with
    | @some e0 _ hq =>
      refine ((requiresF hg hC (SimE.mono l3 _ _ hq) (fun j hj => hce.called _ hp.mem j (by simp [constCallsD, hreq0, callsO, hj])) i3 g3
        hst3).with_ fun n => requiresA_bl hg (functionA_bl hg n) hp hreq0 (SimE.mono l3 _ _ hq) i3).bind fun _ s4 h4 => ?_
      exact key s4 h4.1.1 h4.2.1 h4.1.2 h4.2.2

end

end Bms
