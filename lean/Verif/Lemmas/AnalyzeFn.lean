import Verif.Lemmas.AnalyzeSig

/-!
# Analysis of functions
-/

namespace Bms

open Spec

/-! ## The stack -/

/-- The state with another stack. -/
def ASt.onto (s : ASt) (S : List Key) : ASt := { s with stack := S }

/-- Extension, as seen by the functions in `S`. -/
def Ext0 (S : List Key) (s s' : ASt) : Prop := Ext [] (s.onto S) (s'.onto S)

theorem Ext0.trans {S : List Key} {s s' s'' : ASt} (a : Ext0 S s s') (b : Ext0 S s' s'') :
    Ext0 S s s'' := Ext.trans a b

theorem Ext0.refl (S : List Key) (s : ASt) : Ext0 S s s := Ext.refl _ _

theorem Ext0.ext {S : List Key} {s s' : ASt} (h : Ext0 S s s') (hs : s.stack = S) (hs' : s'.stack = S) :
    Ext [] s s' := by
  obtain ⟨d, f, c, st, n⟩ := s
  obtain ⟨d', f', c', st', n'⟩ := s'
  simp only at hs hs'
  subst hs
  subst hs'
  exact h

theorem Ext.restack {D S : List Key} {s s' : ASt} (h : Ext D s s') (hS : ∀ k ∈ S, k ∈ s.stack)
    (hD : ∀ k ∈ S, ∀ f, s.fns k = some f → ∀ x ∈ owned f, x ∉ D) : Ext0 S s s' where
  stack := rfl
  next := h.next
  declSome := h.declSome
  declKind := h.declKind
  fns := h.fns
  newFns := h.newFns
  onStack k hk := h.onStack k (hS k hk)
  onStackDecl k hk f hf x hx _ := h.onStackDecl k (hS k hk) f hf x hx (hD k hk f hf x hx)
  unowned := h.unowned
  code := h.code

/-! ## The signature -/

theorem paramDone_mem {ps ps' : List AParam} (h : List.Forall₂ ParamDone ps ps') {p : AParam}
    (hp : p ∈ ps) : ∃ p' ∈ ps', ParamDone p p' := by
  induction h with
  | nil => cases hp
  | cons h1 _ ih =>
    rcases List.mem_cons.1 hp with rfl | hp
    · exact ⟨_, List.mem_cons_self, h1⟩
    · obtain ⟨p', h2, h3⟩ := ih hp
      exact ⟨p', List.mem_cons_of_mem _ h2, h3⟩

/-- The function after the analysis of its signature. -/
def withSig (f : AFn) (ps : List AParam) (ret : AType) : AFn := { f with params := ps, ret := ret }

section

variable {N : Nat}

theorem loaded_low {s s' : ASt} (h : LoadedInv s) {k : Key} {f f' : AFn} (hf : s.fns k = some f)
    (hf' : s'.fns k = some f') (hl : f.level ≠ .forConst) (hl' : f'.level ≠ .forConst)
    (hfns : ∀ j, j ≠ k → s'.fns j = s.fns j) (hcode : s'.code = s.code) : LoadedInv s' := by
  refine h.same hcode (fun j => ?_) fun j => ?_
  · by_cases hj : j = k
    · subst hj; simp [progOf, hf, hf', hl, hl']
    · simp only [progOf, hfns j hj]
  · by_cases hj : j = k
    · subst hj; simp [addrOf, hf, hf', hl, hl']
    · simp only [addrOf, hfns j hj]

/-- The signature is analyzed and the function put on the stack. -/
theorem push_ok {s s3 : ASt} (h : Inv N s) {k : Key} {f : AFn} (hf : s.fns k = some f)
    (hg : f.generic = false) (hl : f.level ≠ .forConst) (hon : k ∉ s.stack) {ps' : List AParam}
    {ret' : AType} (hps : List.Forall₂ ParamDone f.params ps') (hret : ∃ t, SigT ret' t)
    (hretSame : ∀ t, SigT f.ret t → ret' = f.ret)
    (hfns : s3.fns = (s.setFn k (withSig f ps' ret')).fns)
    (hdecl : ∀ p ∈ ps', s3.decl p.k = some ⟨.param, p.type.cv⟩)
    (hdecl' : ∀ x, x ∉ f.params.map AParam.k → s3.decl x = s.decl x)
    (hcode : s3.code = s.code) (hstack : s3.stack = k :: s.stack) (hnext : s3.next = s.next)
    (hvp : ∀ p ∈ ps', Finally s3 fun P => WidthsT P p.type) (hvr : Finally s3 fun P => WidthsT P ret') :
    Inv N s3 ∧ Ext0 s.stack s s3 := by
  have hfi := h.fn k f hf
  have hp := hfi.plain hg
  have hf3 : s3.fns k = some (withSig f ps' ret') := by rw [hfns]; simp [ASt.setFn]
  have hj3 : ∀ j, j ≠ k → s3.fns j = s.fns j := fun j hj => by rw [hfns]; simp [ASt.setFn, hj]
  have hkeys := paramDone_keys hps
  have howned : owned (withSig f ps' ret') = owned f := by simp only [owned, withSig, hkeys]
  have hsame : f.level ≠ .unanalyzed → ps' = f.params ∧ ret' = f.ret := by
    intro hl
    refine ⟨paramDone_same hps (hp.sigParams hl), ?_⟩
    obtain ⟨t, ht⟩ := hp.sigRet hl
    exact hretSame t ht
  have hle : FnLe f (withSig f ps' ret') :=
    ⟨rfl, rfl, howned, Nat.le_refl _, hsame, fun _ => rfl, fun _ => rfl, hps.length_eq.symm⟩
  have hnp : ∀ x, x ∉ owned f → s3.decl x = s.decl x := fun x hx => hdecl' x fun hm =>
    hx (List.mem_append_left _ hm)
  have hpar : ∀ x ∈ f.params.map AParam.k, ∃ p p', p ∈ f.params ∧ p.k = x ∧ p' ∈ ps' ∧ ParamDone p p' ∧
      s.decl x = some ⟨.param, p.type.cv⟩ ∧ s3.decl x = some ⟨.param, p'.type.cv⟩ := by
    intro x hx
    obtain ⟨p, hm, rfl⟩ := List.mem_map.1 hx
    obtain ⟨p', h1, h2⟩ := paramDone_mem hps hm
    refine ⟨p, p', hm, rfl, h1, h2, hfi.paramDecl p hm, ?_⟩
    rw [← h2.1]
    exact hdecl p' h1
  have hsome : ∀ x kd v, s.decl x = some ⟨kd, some v⟩ → s3.decl x = some ⟨kd, some v⟩ := by
    intro x kd v hx
    by_cases hm : x ∈ f.params.map AParam.k
    · obtain ⟨p, p', h1, h2, h3, h4, h5, h6⟩ := hpar x hm
      rw [h5] at hx
      simp only [Option.some.injEq, Decl.mk.injEq] at hx
      obtain ⟨t, ht⟩ := preT_done (hp.params p h1) hx.2
      rw [h6, h4.2.2 t ht, ← hx.1, hx.2]
    · rw [hdecl' x hm, hx]
  have hkind : ∀ x ∈ owned f, ∀ d, s.decl x = some d → ∃ d', s3.decl x = some d' ∧ d'.kind = d.kind := by
    intro x _ d hx
    by_cases hm : x ∈ f.params.map AParam.k
    · obtain ⟨p, p', h1, h2, h3, h4, h5, h6⟩ := hpar x hm
      rw [h5] at hx
      cases hx
      exact ⟨_, h6, rfl⟩
    · exact ⟨d, (hdecl' x hm).trans hx, rfl⟩
  have hnd := hfi.ownedNodup
  rw [owned, List.nodup_append] at hnd
  constructor
  · refine (h.update hf hf3 hle hj3 hnp hnext hsome hkind (fun x _ hx => ?_) (fun x _ d hx => ?_)
      (fun j hj => ?_) (fun _ => hg) (by rw [hcode]; exact h.code) ⟨[], by simp [hcode]⟩
      (loaded_low h.loaded hf hf3 hl hl hj3 hcode) (fun hgr hip => ?_)).1
    · by_cases hm : x ∈ f.params.map AParam.k
      · obtain ⟨p, p', h1, h2, h3, h4, h5, h6⟩ := hpar x hm
        rw [h5] at hx; cases hx
      · exact (hdecl' x hm).trans hx
    · by_cases hm : x ∈ f.params.map AParam.k
      · obtain ⟨p, p', h1, h2, h3, h4, h5, h6⟩ := hpar x hm
        rw [h6] at hx
        cases hx
        obtain ⟨t, ht⟩ := h4.2.1
        rw [ht.1]
        exact ⟨rfl, ht.2.2⟩
      · rw [hdecl' x hm] at hx
        exact h.declOk x d hx
    · rw [hstack]; simp [hj]
    · refine ⟨⟨hfi.key.1, hnext ▸ hfi.key.2⟩, fun x hx => ?_, ?_, hdecl, fun d hd => ?_, fun _ => ?_,
        fun e => ?_⟩
      · rw [howned] at hx; rw [hnext]; exact hfi.ownedLt x hx
      · rw [howned]; exact hfi.ownedNodup
      · rw [hdecl' d.1 fun hm => hnd.2.2 _ hm _ (mem_keys hd) rfl]
        exact hfi.bodyDecl d hd
      · exact {
          params := fun p hm => by obtain ⟨t, ht⟩ := paramDone_sig hps p hm; exact .done ht
          ret := by obtain ⟨t, ht⟩ := hret; exact .done ht
          sigParams := fun _ => paramDone_sig hps
          sigRet := fun _ => hret
          cv := fun hl => by
            rcases hp.cv hl with e | ⟨e, _⟩
            · left
              simp only [withSig, (hsame hl).2]
              exact e
            · exact absurd e hon
          cvNone := hp.cvNone
          reqs := hp.reqs
          raw := fun _ hn => absurd (by rw [hstack]; simp) hn
          typed := fun hr => by
            have hne : f.level ≠ .unanalyzed := by
              rw [Level.ne_unanalyzed]; have : 2 ≤ f.level.rank := hr; omega
            obtain ⟨h1, h2⟩ := hp.typed hr
            refine ⟨?_, h2⟩
            simp only [withSig, (hsame hne).2]
            exact h1.mono (hgr.ctx (by decide) (Nat.le_refl _))
          typedConst := fun e => absurd e hl
          noSelf := hp.noSelf
          instRefs := fun hr hk j hj => by
            obtain ⟨h1, h2⟩ := hp.instRefs hr hk j hj
            refine ⟨hnext ▸ h1, fun g hgj => ?_⟩
            by_cases e : j = k
            · exact e
            · rw [hj3 j e] at hgj; exact h2 g hgj
          paramRefs := fun hr j hj => hip j (hp.paramRefs hr j hj)
          valsParams := fun p hm _ => hvp p hm
          valsRet := fun _ => hvr
          valsReqs := fun e he hs => (hp.valsReqs e he hs).grow hgr
          valsBody := fun hr => (hp.valsBody hr).grow hgr }
      · simp only [withSig, hg] at e; cases e
  · exact Ext.update (s := s.onto s.stack) (s' := s3.onto s.stack) hf hf3 hle hj3 hnp hnext hsome hkind rfl
      hon (fun j g hj hjk x hx => h.disjoint j k g f hj hf hjk x hx) ⟨[], by simp [ASt.onto, hcode]⟩

/-! ## The requires-clause -/

/-- The requires-clause is analyzed and the function becomes at least shallowly analyzed. -/
theorem requires_ok {n : Nat} {af : Key → Level → AM Unit} (haf : AfOk N af) {s3 s4 : ASt}
    (h : Inv N s3) {k : Key} {f : AFn} {S : List Key} (hstack : s3.stack = k :: S) (hkS : k ∉ S)
    (hf : s3.fns k = some f) (hl : f.level ≠ .forConst) (hsp : ∀ p ∈ f.params, ∃ t, SigT p.type t)
    (hsr : ∃ t, SigT f.ret t)
    (hx : (match f.requires_ with
      | some e => Ana.requires_ n af k e
      | none => pure ()) s3 = .ok () s4) :
    ∃ g s5, s4.fns k = some g ∧
      s5 = s4.setFn k { g with level := if g.level = .unanalyzed then .shallow else g.level } ∧
      g.params = f.params ∧ g.ret = f.ret ∧ g.body = f.body ∧ g.level = f.level ∧
      g.generic = f.generic ∧ (g.requires_ = none ↔ f.requires_ = none) ∧
      (∀ e ∈ g.requires_, e.cv.isSome) ∧
      Inv N s5 ∧ Ext0 S s3 s5 ∧ s5.stack = s3.stack ∧ (∀ x ∈ owned f, s5.decl x = s3.decl x) := by
  have hk : k ∈ s3.stack := by rw [hstack]; simp
  obtain ⟨f', hf', hg⟩ := h.stackFns k hk
  rw [hf] at hf'
  cases hf'
  have hfi := h.fn k f hf
  have hp := hfi.plain hg
  -- the clause itself
  obtain ⟨s4', g, hinv, hext, hs4, hg', hreq, hvreq⟩ : ∃ s4' g, Inv N s4' ∧ Ext [] s3 s4' ∧
      s4 = s4'.setFn k g ∧
      (g = f ∨ f.level = .unanalyzed ∧ f.requires_ ≠ none ∧ ∃ e : AExpr, e.cv.isSome ∧
        g = { f with requires_ := some e, cv := e.cv }) ∧
      (∀ e ∈ g.requires_, e.cv.isSome) ∧
      ∀ e ∈ g.requires_, Finally s4' fun P => WidthsE P e ∧ HasValue P e CVal.tt := by
    cases hr : f.requires_ with
    | none =>
      simp only [hr, AM.pure_ok, true_and] at hx
      subst hx
      refine ⟨s3, f, h, .refl _ _, ?_, .inl rfl, by simp [hr], by simp [hr]⟩
      obtain ⟨d, fn, c, st, nx⟩ := s3
      simp only [ASt.setFn, ASt.mk.injEq, true_and, and_true]
      funext j
      split
      · rename_i e; rw [e]; exact hf
      · rfl
    | some e =>
      simp only [hr] at hx
      cases hcv : e.cv with
      | some v =>
        simp only [Ana.requires_, hcv, AM.pure_ok, true_and] at hx
        subst hx
        refine ⟨s3, f, h, .refl _ _, ?_, .inl rfl, by simp [hr, hcv], fun e' he =>
          hp.valsReqs e' he (by rw [hr] at he; cases he; simp [hcv])⟩
        obtain ⟨d, fn, c, st, nx⟩ := s3
        simp only [ASt.setFn, ASt.mk.injEq, true_and, and_true]
        funext j
        split
        · rename_i e; rw [e]; exact hf
        · rfl
      | none =>
        simp only [Ana.requires_, hcv, AM.bind_ok, updateFn_ok, AM.assert_ok, AM.deref_ok, AM.ite_fail_ok,
          AM.get_ok] at hx
        obtain ⟨e', s4', h1, _, s5, ⟨f1, hf1, rfl⟩, _, _, ⟨ha, rfl⟩, v, _, ⟨hv, rfl⟩, hty, b, _, ⟨hb, rfl⟩,
          hbt, hx⟩ := hx
        simp only [AM.pure_ok, true_and] at hx
        subst hx
        rcases hp.reqs e hr with ⟨hlu, hraw⟩ | hs
        · have a := expr_raw_ok haf e h hraw (.inl rfl) h1
          have hf4 := a.ext.onStack k hk
          rw [hf, hf1] at hf4
          cases hf4
          refine ⟨s4', _, a.inv, a.ext, rfl, .inr ⟨hlu, by simp, e', by simp [hv], rfl⟩, by simp [hv], ?_⟩
          intro e'' he
          cases he
          have b := expr_vals_const haf h hraw h1
          refine (b.widths.and (b.sound rfl _ hv)).imp fun P h => ⟨h.1, ?_⟩
          have hv' := asBool_tt (b.vok _ hv) hty hb (by simpa using hbt)
          subst hv'
          exact h.2.hasValue rfl
        · rw [hcv] at hs; cases hs
  -- the state after this
  have hf4 : s4'.fns k = some f := (hext.onStack k hk).trans hf
  have hk4 : k ∈ s4'.stack := hext.stack ▸ hk
  have hfi4 := hinv.fn k f hf4
  have hp4 := hfi4.plain hg
  have hgeq : g.params = f.params ∧ g.ret = f.ret ∧ g.body = f.body ∧ g.level = f.level ∧
      g.generic = f.generic ∧ (g.requires_ = none ↔ f.requires_ = none) ∧ g.k = f.k ∧
      g.address = f.address := by
    rcases hg' with rfl | ⟨_, hn, e, _, rfl⟩
    · simp
    · simp [hn]
  obtain ⟨e1, e2, e3, e4, e5, e6, e7, e8⟩ := hgeq
  set g' : AFn := { g with level := if g.level = .unanalyzed then .shallow else g.level } with hgdef
  have hlvl : g'.level = if f.level = .unanalyzed then .shallow else f.level := by
    simp only [hgdef, e4]
  have hs5f : (s4.setFn k g').fns k = some g' := by simp [ASt.setFn]
  have hs5j : ∀ j, j ≠ k → (s4.setFn k g').fns j = s4'.fns j := fun j hj => by
    rw [hs4]; simp [ASt.setFn, hj]
  have hs5d : (s4.setFn k g').decl = s4'.decl := by rw [hs4]; rfl
  have hs5c : (s4.setFn k g').code = s4'.code := by rw [hs4]; rfl
  have hs5s : (s4.setFn k g').stack = s4'.stack := by rw [hs4]; rfl
  have hs5n : (s4.setFn k g').next = s4'.next := by rw [hs4]; rfl
  have howned : owned g' = owned f := by simp only [owned, hgdef, e1, e3]
  have hl' : g'.level ≠ .forConst := by
    rw [hlvl]; split
    · decide
    · exact hl
  have hlu : g'.level ≠ .unanalyzed := by
    rw [hlvl]; split
    · decide
    · assumption
  have hrank : f.level.rank ≤ g'.level.rank := by
    rw [hlvl]; split
    · rename_i e; rw [e]; simp [Level.rank]
    · exact Nat.le_refl _
  have hrank2 : 2 ≤ g'.level.rank → 2 ≤ f.level.rank := by
    rw [hlvl]; split
    · simp [Level.rank]
    · exact id
  have hle : FnLe f g' := ⟨e7, e5, howned, hrank, fun _ => ⟨e1, e2⟩, fun _ => e3, fun e => absurd e hl,
    by simp only [hgdef, e1]⟩
  refine ⟨g, _, by rw [hs4]; simp [ASt.setFn], rfl, e1, e2, e3, e4, e5, e6, hreq, ?_, ?_, ?_, ?_⟩
  · refine (hinv.update hf4 hs5f hle hs5j (fun x _ => by rw [hs5d]) hs5n (fun x kd v hx => by rw [hs5d]; exact hx)
      (fun x _ d hx => ⟨d, by rw [hs5d]; exact hx, rfl⟩) (fun x _ hx => by rw [hs5d]; exact hx)
      (fun x _ d hx => by rw [hs5d] at hx; exact hinv.declOk x d hx) (fun j _ => by rw [hs5s]) (fun _ => hg)
      (by rw [hs5c]; exact hinv.code) ⟨[], by simp [hs5c]⟩
      (loaded_low hinv.loaded hf4 hs5f hl hl' hs5j hs5c)
      (fun hgr hip => ?_)).1
    refine ⟨⟨e7.trans hfi4.key.1, hs5n ▸ hfi4.key.2⟩, fun x hx => ?_, ?_, fun p hpm => ?_, fun d hd => ?_,
      fun _ => ?_, fun e => ?_⟩
    · rw [howned] at hx; rw [hs5n]; exact hfi4.ownedLt x hx
    · rw [howned]; exact hfi4.ownedNodup
    · rw [hs5d]; simp only [hgdef, e1] at hpm; exact hfi4.paramDecl p hpm
    · rw [hs5d]; simp only [hgdef, e3] at hd; exact hfi4.bodyDecl d hd
    · exact {
        params := fun p hm => by simp only [hgdef, e1] at hm; exact hp4.params p hm
        ret := by simp only [hgdef, e2]; exact hp4.ret
        sigParams := fun _ => by simp only [hgdef, e1]; exact hsp
        sigRet := fun _ => by simp only [hgdef, e2]; exact hsr
        cv := fun _ => by
          rw [show g'.ret = f.ret from e2]
          by_cases hu : f.level = .unanalyzed
          · right
            refine ⟨by rw [hs5s]; exact hk4, ?_⟩
            rcases hg' with rfl | ⟨_, hn, e, _, rfl⟩
            · exact .inl (hp.cvNone hu)
            · right; simp
          · rcases hg' with rfl | ⟨hn, _⟩
            · rcases hp4.cv hu with e | ⟨_, e⟩
              · exact .inl e
              · exact .inr ⟨by rw [hs5s]; exact hk4, e⟩
            · exact absurd hn hu
        cvNone := fun e => absurd e hlu
        reqs := fun e he => .inr (hreq e he)
        raw := fun _ hn => absurd (by rw [hs5s]; exact hk4) hn
        typed := fun hr => by
          obtain ⟨h1, h2⟩ := hp4.typed (hrank2 hr)
          refine ⟨?_, by simp only [hgdef, e3]; exact h2⟩
          rw [show g'.ret = f.ret from e2, show g'.body = f.body from e3]
          exact h1.mono (hgr.ctx (by decide) (Nat.le_refl _))
        typedConst := fun e => absurd e hl'
        noSelf := fun hr hn => by
          simp only [hgdef, e3]
          refine hp4.noSelf (Nat.lt_of_le_of_lt hrank hr) fun e => hn ?_
          exact e6.2 e
        instRefs := fun hr hk j hj => by
          simp only [hgdef, e3] at hj
          obtain ⟨h1, h2⟩ := hp4.instRefs (Nat.lt_of_le_of_lt hrank hr) hk j hj
          refine ⟨hs5n ▸ h1, fun g hgj => ?_⟩
          by_cases e : j = k
          · exact e
          · rw [hs5j j e] at hgj; exact h2 g hgj
        paramRefs := fun hr j hj => by
          simp only [hgdef, e3] at hj
          exact hip j (hp4.paramRefs (Nat.lt_of_le_of_lt hrank hr) j hj)
        valsParams := fun p hm hs => by
          simp only [hgdef, e1] at hm
          exact (hp4.valsParams p hm hs).grow hgr
        valsRet := fun hs => by
          rw [show g'.ret = f.ret from e2] at hs ⊢
          exact (hp4.valsRet hs).grow hgr
        valsReqs := fun e he _ => (hvreq e he).grow hgr
        valsBody := fun hr => by
          rw [show g'.body = f.body from e3]
          exact (hp4.valsBody (hrank2 hr)).grow hgr }
    · simp only [hgdef, e5, hg] at e; cases e
  · refine Ext0.trans (hext.restack (fun j hj => by rw [hstack]; simp [hj]) (by simp)) ?_
    exact Ext.update (s := s4'.onto S) (s' := (s4.setFn k g').onto S) hf4 hs5f hle hs5j
      (fun x _ => congrFun hs5d x) hs5n (fun x kd v hx => (congrFun hs5d x).trans hx)
      (fun x _ d hx => ⟨d, (congrFun hs5d x).trans hx, rfl⟩) rfl
      hkS (fun j g hj hjk x hx => hinv.disjoint j k g f hj hf4 hjk x hx)
      ⟨[], by simp [ASt.onto, hs5c]⟩
  · rw [hs5s]; exact hext.stack
  · intro x hx
    rw [hs5d]
    exact hext.onStackDecl k hk f hf x hx (by simp)

/-! ## The body -/

theorem body_ok {n : Nat} {af : Key → Level → AM Unit} (haf : AfOk N af) {s5 s6 : ASt} (h : Inv N s5)
    {k : Key} {f : AFn} {S : List Key} (hstack : s5.stack = k :: S) (hkS : k ∉ S)
    (hf : s5.fns k = some f) (hlu : f.level ≠ .unanalyzed) {lvl : Level}
    (hlvl : lvl = .forConst ∨ lvl = .full ∧ S = []) (hlt : f.level.rank < lvl.rank) {t : CType}
    (ht : SigT f.ret t)
    (hraw : f.level.rank < 2 → RawSs f.body ∧ ∀ x ∈ (declsSs f.body).map Prod.fst, Unset s5 x)
    {body : List AStmt} (hx : Ana.stmts n af t lvl false f.body s5 = .ok body s6) :
    Inv N s6 ∧ Ext0 S s5 s6 ∧ s6.stack = s5.stack ∧ s6.fns k = some f ∧
      TypedSs (ctxOf (innerOf lvl) s6) (typeOf f.ret) false (eraseStmts body) ∧ DoneSs body ∧
      declsSs body = declsSs f.body ∧ (2 ≤ f.level.rank → body = f.body) ∧
      Finally s6 fun P => ValuesSs P body := by
  have hk : k ∈ s5.stack := by rw [hstack]; simp
  obtain ⟨f', hf', hg⟩ := h.stackFns k hk
  rw [hf] at hf'
  cases hf'
  have hfi := h.fn k f hf
  have hp := hfi.plain hg
  have hnd := hfi.ownedNodup
  rw [owned, List.nodup_append] at hnd
  rw [ht.typeOf]
  by_cases hl : f.level.rank < 2
  · obtain ⟨hr, hu⟩ := hraw hl
    have hpre : SPre lvl s5 (refsSs f.body) (declsSs f.body) := by
      refine ⟨?_, fun r hr => ?_, ⟨k, f, hk, hf, hl, fun _ h => h⟩, fun d hd => hu d.1 (mem_keys hd), hnd.2.1⟩
      · rcases hlvl with e | ⟨e, rfl⟩
        · exact .inl e
        · exact .inr ⟨e, rfl, k, f, hstack, hf, hlu, hl, fun _ h => h⟩
      · exact hp.paramRefs hl r hr
    have a := stmts_raw_ok haf f.body h hr hpre hx
    refine ⟨a.inv, a.ext.restack (fun j hj => by rw [hstack]; simp [hj]) fun j hj g hgj x hxo hxd => ?_,
      a.ext.stack, (a.ext.onStack k hk).trans hf, a.typed, a.done, a.decls,
      fun e => absurd hl (Nat.not_lt.2 e), stmts_vals haf f.body h hr hpre hx⟩
    have hjk : j ≠ k := fun e => hkS (e ▸ hj)
    exact h.disjoint j k g f hgj hf hjk x hxo (List.mem_append_right _ hxd)
  · have hc : lvl = .forConst := by
      rcases hlvl with e | ⟨e, _⟩
      · exact e
      · rw [e] at hlt; exact absurd hlt hl
    subst hc
    obtain ⟨h1, h2⟩ := hp.typed (Nat.not_lt.1 hl)
    rw [ht.typeOf] at h1
    have a := stmts_done_ok haf f.body h h2 h1 hfi.bodyDecl hx
    have hs := a.same
    subst hs
    exact ⟨a.inv, a.ext.restack (fun j hj => by rw [hstack]; simp [hj]) (by simp), a.ext.stack,
      (a.ext.onStack k hk).trans hf, a.typed, h2, rfl, fun _ => rfl,
      (hp.valsBody (Nat.not_lt.1 hl)).grow a.ext.grows⟩

/-- The function leaves the stack. -/
theorem finish_ok {s6 s' : ASt} (h : Inv N s6) {k : Key} {f : AFn} {S : List Key}
    (hstack : s6.stack = k :: S) (hkS : k ∉ S) (hf : s6.fns k = some f) (hlu : f.level ≠ .unanalyzed)
    (hlc : f.level ≠ .forConst) {lvl : Level} (hlt : f.level.rank ≤ lvl.rank) {body : List AStmt}
    {a : Option Nat}
    (hdecls : declsSs body = declsSs f.body) (hsame : 2 ≤ f.level.rank → body = f.body)
    (hreq : ∀ e ∈ f.requires_, e.cv.isSome)
    (hlow : lvl.rank < 2 → body = f.body ∧ RawSs f.body ∧ ∀ x ∈ (declsSs f.body).map Prod.fst, Unset s6 x)
    (hhigh : 2 ≤ lvl.rank → TypedSs (ctxOf (innerOf lvl) s6) (typeOf f.ret) false (eraseStmts body) ∧
      DoneSs body ∧ Finally s6 fun P => ValuesSs P body)
    (ha : lvl = .forConst → a.isSome)
    (hf' : s'.fns k = some { f with body := body, address := a, cv := f.ret.cv, level := lvl })
    (hj : ∀ j, j ≠ k → s'.fns j = s6.fns j) (hdecl : s'.decl = s6.decl) (hnext : s'.next = s6.next)
    (hstack' : s'.stack = S) (hcode : OperandsOk s'.code) (hcode' : ∃ c, s'.code = s6.code ++ c)
    (hload : LoadedInv s') : Inv N s' ∧ Ext0 S s6 s' := by
  have hk : k ∈ s6.stack := by rw [hstack]; simp
  obtain ⟨f1, hf1, hg⟩ := h.stackFns k hk
  rw [hf] at hf1
  cases hf1
  have hfi := h.fn k f hf
  have hp := hfi.plain hg
  set f' : AFn := { f with body := body, address := a, cv := f.ret.cv, level := lvl } with hfdef
  have howned : owned f' = owned f := by simp only [owned, hfdef, hdecls]
  have hle : FnLe f f' := ⟨rfl, rfl, howned, hlt, fun _ => ⟨rfl, rfl⟩, hsame, fun e => absurd e hlc, rfl⟩
  constructor
  · refine (h.update hf hf' hle hj (fun x _ => by rw [hdecl]) hnext (fun x kd v hx => by rw [hdecl]; exact hx)
      (fun x _ d hx => ⟨d, by rw [hdecl]; exact hx, rfl⟩) (fun x _ hx => by rw [hdecl]; exact hx)
      (fun x _ d hx => by rw [hdecl] at hx; exact h.declOk x d hx)
      (fun j hjk => by rw [hstack', hstack]; simp [hjk]) (fun _ => hg) hcode hcode' hload (fun hgr hip => ?_)).1
    refine ⟨⟨hfi.key.1, hnext ▸ hfi.key.2⟩, fun x hx => ?_, ?_, fun p hpm => ?_, fun d hd => ?_,
      fun _ => ?_, fun e => ?_⟩
    · rw [howned] at hx; rw [hnext]; exact hfi.ownedLt x hx
    · rw [howned]; exact hfi.ownedNodup
    · rw [hdecl]; exact hfi.paramDecl p hpm
    · rw [hdecl]; simp only [hfdef, hdecls] at hd; exact hfi.bodyDecl d hd
    · have hlow' : lvl.rank < 2 → f.level.rank < 2 := fun e => Nat.lt_of_le_of_lt hlt e
      exact {
        params := hp.params
        ret := hp.ret
        sigParams := fun _ => hp.sigParams hlu
        sigRet := fun _ => hp.sigRet hlu
        cv := fun _ => .inl rfl
        cvNone := fun e => by
          simp only [hfdef] at e
          rw [Level.ne_unanalyzed] at hlu
          rw [e] at hlt
          exact absurd (Nat.le_trans hlu hlt) (by decide)
        reqs := fun e he => .inr (hreq e he)
        raw := fun hr _ => by
          obtain ⟨h1, h2, h3⟩ := hlow hr
          simp only [hfdef, h1]
          refine ⟨h2, fun x hx kd v => ?_⟩
          rw [hdecl]
          exact h3 x hx kd v
        typed := fun hr => by
          obtain ⟨h1, h2, -⟩ := hhigh hr
          exact ⟨h1.mono (hgr.ctx (innerOf_ne _) (by unfold innerOf; split <;> simp [Level.rank])), h2⟩
        typedConst := fun e => by
          have e' : lvl = .forConst := e
          obtain ⟨h1, -, -⟩ := hhigh (by rw [e']; simp [Level.rank])
          refine ⟨h1.mono (hgr.ctx (innerOf_ne _) (by rw [e']; simp [innerOf])), ha e', ?_⟩
          obtain ⟨t, ht⟩ := hp.sigRet hlu
          simp only [hfdef, ht.1, Option.isSome_some]
        noSelf := fun hr hn => by
          simp only [hfdef, (hlow hr).1]
          exact hp.noSelf (hlow' hr) hn
        instRefs := fun hr hk j hjm => by
          simp only [hfdef, (hlow hr).1] at hjm
          obtain ⟨h1, h2⟩ := hp.instRefs (hlow' hr) hk j hjm
          refine ⟨hnext ▸ h1, fun g hgj => ?_⟩
          by_cases e : j = k
          · exact e
          · rw [hj j e] at hgj; exact h2 g hgj
        paramRefs := fun hr j hjm => by
          simp only [hfdef, (hlow hr).1] at hjm
          exact hip j (hp.paramRefs (hlow' hr) j hjm)
        valsParams := fun p hm hs => (hp.valsParams p hm hs).grow hgr
        valsRet := fun hs => (hp.valsRet hs).grow hgr
        valsReqs := fun e he hs => (hp.valsReqs e he hs).grow hgr
        valsBody := fun hr => (hhigh hr).2.2.grow hgr }
    · simp only [hfdef, hg] at e; cases e
  · exact Ext.update (s := s6.onto S) (s' := s'.onto S) hf hf' hle hj
      (fun x _ => congrFun hdecl x) hnext (fun x kd v hx => (congrFun hdecl x).trans hx)
      (fun x _ d hx => ⟨d, (congrFun hdecl x).trans hx, rfl⟩) rfl
      hkS (fun j g hj hjk x hx => h.disjoint j k g f hj hf hjk x hx) hcode'

/-! ## Functions -/

/-- The end of `Ana.function`. -/
def doneTail (k : Key) (lvl : Level) (ret : AType) : AM Unit := do
  Ana.updateFn k fun f => { f with cv := ret.cv, level := lvl }
  AM.modify fun s => { s with stack := s.stack.tail }

/-- `Ana.function` from the compilation on. -/
def compileTail (k : Key) (lvl : Level) (ret : AType) : AM Unit :=
  if lvl = .forConst then do
    Ana.compile k
    doneTail k lvl ret
  else doneTail k lvl ret

/-- `Ana.function` from the body on. -/
def bodyTail (n : Nat) (k : Key) (lvl : Level) (ret : AType) (body : List AStmt) : AM Unit :=
  if Level.full.rank ≤ lvl.rank then do
    let t ← AM.get ret.concreteType
    let t ← AM.value t
    let body ← Ana.stmts n (Ana.function n) t lvl false body
    Ana.updateFn k fun f => { f with body := body }
    compileTail k lvl ret
  else compileTail k lvl ret

theorem function_chain {n : Nat} {k : Key} {lvl : Level} {s s' : ASt} {f : AFn} (hf : s.fns k = some f)
    (hg : f.generic = false) (hle : ¬ lvl.rank ≤ f.level.rank)
    (hx : Ana.function (n + 1) k lvl s = .ok () s') :
    ∃ s1 ret s2 f1 s4 g, Ana.params n (Ana.function n) k [] f.params s = .ok () s1 ∧
      Ana.type n (Ana.function n) f.ret s1 = .ok ret s2 ∧ s2.fns k = some f1 ∧
      (match f.requires_ with
        | some e => Ana.requires_ n (Ana.function n) k e
        | none => pure ())
        { s2.setFn k { f1 with ret := ret } with stack := k :: s2.stack } = .ok () s4 ∧
      s4.fns k = some g ∧
      bodyTail n k lvl ret f.body
        (s4.setFn k { g with level := if g.level = .unanalyzed then .shallow else g.level }) = .ok () s' := by
  simp only [Ana.function, AM.bind_ok, AM.assert_ok, AM.read_ok, AM.value_ok] at hx
  obtain ⟨_, _, ⟨hne, rfl⟩, _, _, ⟨rfl, rfl⟩, f0, _, ⟨hf0, rfl⟩, hx⟩ := hx
  rw [hf] at hf0
  cases hf0
  rw [if_neg hle, hg] at hx
  simp only [Bool.false_eq_true, if_false, AM.bind_ok, AM.assert_ok] at hx
  obtain ⟨_, _, ⟨_, rfl⟩, _, s1, h1, ret, s2, h2, _, s3, h3, _, _, h3', hx⟩ := hx
  rw [updateFn_ok] at h3
  obtain ⟨f1, hf1, rfl⟩ := h3
  rw [AM.modify_ok] at h3'
  subst h3'
  cases hr : f.requires_ with
  | none =>
    simp only [hr] at hx
    change (Ana.updateFn k _ >>= fun _ => bodyTail n k lvl ret f.body) _ = _ at hx
    simp only [AM.bind_ok, updateFn_ok] at hx
    obtain ⟨_, _, ⟨g, hg', rfl⟩, hx⟩ := hx
    exact ⟨s1, ret, s2, f1, { s2.setFn k { f1 with ret := ret } with stack := k :: s2.stack }, g, h1, h2,
      hf1, by simp [AM.pure_ok, ASt.setFn], hg', hx⟩
  | some e =>
    simp only [hr] at hx
    change (Ana.requires_ n (Ana.function n) k e >>= fun _ => Ana.updateFn k _ >>= fun _ =>
      bodyTail n k lvl ret f.body) _ = _ at hx
    simp only [AM.bind_ok, updateFn_ok] at hx
    obtain ⟨_, s4, h4, _, _, ⟨g, hg', rfl⟩, hx⟩ := hx
    exact ⟨s1, ret, s2, f1, s4, g, h1, h2, hf1, h4, hg', hx⟩

theorem tail_ok {s6 s7 s' : ASt} (h : Inv N s6) {k : Key} {f : AFn} {S : List Key}
    (hstack : s6.stack = k :: S) (hkS : k ∉ S) (hf : s6.fns k = some f) (hlu : f.level ≠ .unanalyzed)
    (hlc : f.level ≠ .forConst) {lvl : Level} (hlt : f.level.rank ≤ lvl.rank) {body : List AStmt}
    (hdecls : declsSs body = declsSs f.body) (hsame : 2 ≤ f.level.rank → body = f.body)
    (hreq : ∀ e ∈ f.requires_, e.cv.isSome)
    (hlow : lvl.rank < 2 → body = f.body ∧ RawSs f.body ∧ ∀ x ∈ (declsSs f.body).map Prod.fst, Unset s6 x)
    (hhigh : 2 ≤ lvl.rank → TypedSs (ctxOf (innerOf lvl) s6) (typeOf f.ret) false (eraseStmts body) ∧
      DoneSs body ∧ Finally s6 fun P => ValuesSs P body) {t : CType} (ht : SigT f.ret t)
    (h7 : s7 = s6.setFn k { f with body := body }) (hx : compileTail k lvl f.ret s7 = .ok () s') :
    Inv N s' ∧ Ext0 S s6 s' ∧ s'.stack = S ∧ ∃ f', s'.fns k = some f' ∧ f'.generic = false ∧
      f'.level = lvl := by
  have hk : k ∈ s6.stack := by rw [hstack]; simp
  obtain ⟨f1, hf1, hg⟩ := h.stackFns k hk
  rw [hf] at hf1
  cases hf1
  have h7k : s7.fns k = some { f with body := body } := by rw [h7]; simp [ASt.setFn]
  unfold compileTail at hx
  by_cases hc : lvl = .forConst
  · subst hc
    rw [if_pos rfl] at hx
    simp only [AM.bind_ok, doneTail, updateFn_ok, AM.modify_ok] at hx
    obtain ⟨_, s8, h8, _, _, ⟨f8, hf8, rfl⟩, rfl⟩ := hx
    obtain ⟨hty, -, -⟩ := hhigh (by simp [Level.rank])
    rw [ht.typeOf] at hty
    obtain ⟨c, rfl, hc1, hc2⟩ := compile_ok h (k := k) (f := { f with body := body }) s7 (by rw [h7])
      (by rw [h7]; rfl) (fun g hgk _ => by rw [hf] at hgk; cases hgk; exact hlc) ht hty
      (fun p hp => (h.declKey p.k _ ((h.fn k f hf).paramDecl p hp)).2) h8
    simp only [ASt.setFn, if_true, Option.some.injEq] at hf8
    subst hf8
    subst h7
    have key := finish_ok (s' := { ({ (s6.setFn k { f with body := body }).setFn k
        { f with body := body, address := some s6.code.length } with code := s6.code ++ c } : ASt).setFn k
        { f with body := body, address := some s6.code.length, cv := f.ret.cv, level := .forConst } with
        stack := s6.stack.tail }) (lvl := .forConst) (a := some s6.code.length) h hstack hkS hf hlu hlc hlt
      hdecls hsame hreq hlow hhigh (by simp) (by simp [ASt.setFn]) (fun j hj => by simp [ASt.setFn, hj]) rfl
      rfl (by simp [hstack]) (h.code.append hc1) ⟨c, rfl⟩ (fun P hP => ?_)
    · exact ⟨key.1, key.2, by simp [hstack, ASt.setFn],
        { f with body := body, address := some s6.code.length, cv := f.ret.cv, level := .forConst },
        by simp [ASt.setFn], hg, rfl⟩
    · have hPk : P.fns k = some (fnDef { f with body := body }) := by
        apply hP
        simp [progOf, ASt.setFn, hg, fnDef]
      have := hc2 P (fun j d hj => ?_) hPk
      · have ha : ∀ {A B : Key → Option Nat} {code : List Instr}, A = B → Loaded P B code →
            Loaded P A code := fun e h => e ▸ h
        refine ha ?_ this
        funext j
        simp only [addrOf, ASt.setFn]
        by_cases e : j = k
        · simp [e, hg]
        · simp [e]
      · apply hP
        by_cases e : j = k
        · subst e
          simp [progOf, hf, hlc] at hj
        · simpa [progOf, ASt.setFn, e] using hj
  · rw [if_neg hc] at hx
    simp only [AM.bind_ok, doneTail, updateFn_ok, AM.modify_ok] at hx
    obtain ⟨_, _, ⟨f8, hf8, rfl⟩, rfl⟩ := hx
    rw [h7k] at hf8
    cases hf8
    subst h7
    have hfk : ({ (s6.setFn k { f with body := body }).setFn k
        { f with body := body, cv := f.ret.cv, level := lvl } with stack := s6.stack.tail } : ASt).fns k =
        some { f with body := body, cv := f.ret.cv, level := lvl } := by simp [ASt.setFn]
    have hfj : ∀ j, j ≠ k → ({ (s6.setFn k { f with body := body }).setFn k
        { f with body := body, cv := f.ret.cv, level := lvl } with stack := s6.stack.tail } : ASt).fns j =
        s6.fns j := fun j hj => by simp [ASt.setFn, hj]
    have key := finish_ok (s' := { (s6.setFn k { f with body := body }).setFn k
        { f with body := body, cv := f.ret.cv, level := lvl } with stack := s6.stack.tail })
      (lvl := lvl) (a := f.address) h hstack hkS hf hlu hlc hlt
      hdecls hsame hreq hlow hhigh (fun e => absurd e hc) hfk hfj rfl rfl (by simp [hstack]) h.code
      ⟨[], by simp [ASt.setFn]⟩ (loaded_low h.loaded hf hfk hlc hc hfj rfl)
    exact ⟨key.1, key.2, by simp [hstack, ASt.setFn], _, hfk, hg, rfl⟩

theorem function_ok : ∀ (n : Nat) {s s' : ASt} {k : Key} {f : AFn} {lvl : Level}, Inv N s →
    s.fns k = some f → f.generic = false →
    (lvl = .shallow ∨ lvl = .forConst ∨ lvl = .full ∧ s.stack = []) →
    (k ∈ s.stack → lvl.rank ≤ f.level.rank) → Ana.function n k lvl s = .ok () s' →
    Inv N s' ∧ Ext [] s s' ∧ ∃ f', s'.fns k = some f' ∧ f'.generic = false ∧ lvl.rank ≤ f'.level.rank := by
  intro n
  induction n with
  | zero =>
    intro s s' k f lvl _ _ _ _ _ hx
    simp only [Ana.function, AM.timeout_ok] at hx
  | succ n ih =>
    intro s s' k f lvl h hf hg hlvl hon hx
    have haf : AfOk N (Ana.function n) := by
      rintro j l s s' hi hl ⟨g, hgj, hgg, hst⟩ hx
      have := ih hi hgj hgg (hl.imp id .inl) hst hx
      exact ⟨this.1, this.2.1⟩
    by_cases hle : lvl.rank ≤ f.level.rank
    · simp only [Ana.function, AM.bind_ok, AM.assert_ok, AM.read_ok, AM.value_ok] at hx
      obtain ⟨_, _, ⟨hne, rfl⟩, _, _, ⟨rfl, rfl⟩, f0, _, ⟨hf0, rfl⟩, hx⟩ := hx
      rw [hf] at hf0
      cases hf0
      simp only [if_pos hle, AM.pure_ok, true_and] at hx
      subst hx
      exact ⟨h, .refl _ _, f, hf, hg, hle⟩
    have hlt := Nat.not_le.1 hle
    have hk : k ∉ s.stack := fun e => hle (hon e)
    have hlc : f.level ≠ .forConst := by
      rw [Ne, Level.eq_forConst]
      have := lvl.rank_le
      omega
    obtain ⟨s1, ret, s2, f1, s4, g, h1, h2, hf1, h4, hg4, hx⟩ := function_chain hf hg hle hx
    have hp := (h.fn k f hf).plain hg
    have hnd := (h.fn k f hf).ownedNodup
    rw [owned, List.nodup_append] at hnd
    obtain ⟨ps', hps, a2, a3, a4, a5, a6, a7, a8, a9, a10⟩ := params_ok haf hp.params hf (by simp) hnd.1
      h.declOk (h.fn k f hf).paramDecl hp.sigParams hp.valsParams h1
    obtain ⟨rfl, ⟨tr, hret⟩, hretSame, hretVals⟩ := type_pre haf hp.ret a8
      (fun hs => (hp.valsRet hs).grow a9) h2
    rw [a2] at hf1
    simp only [ASt.setFn, if_true, Option.some.injEq] at hf1
    subst hf1
    -- the stack
    set s3 : ASt := { s2.setFn k { f with params := [] ++ ps', ret := ret } with stack := k :: s2.stack }
      with hs3
    have hfns3 : s3.fns = (s.setFn k (withSig f ps' ret)).fns := by
      simp only [hs3, ASt.setFn, a2, withSig, List.nil_append]
      funext j
      split <;> rfl
    have hf3 : s3.fns k = some (withSig f ps' ret) := by rw [hfns3]; simp [ASt.setFn]
    have hg3 : Grows s2 s3 := by
      refine ⟨fun x kd v hx => hx, fun j g hj => ?_, [], by simp [hs3, ASt.setFn]⟩
      by_cases e : j = k
      · subst e
        rw [a2] at hj
        simp only [ASt.setFn, if_true, Option.some.injEq] at hj
        subst hj
        refine ⟨_, hf3, ⟨rfl, rfl, ?_, Nat.le_refl _, fun hl => ?_, fun _ => rfl, fun _ => rfl, ?_⟩⟩
        · simp [owned, withSig]
        · obtain ⟨t, ht⟩ := hp.sigRet hl
          simp [withSig, hretSame t ht]
        · simp [withSig]
      · exact ⟨g, by simpa [hs3, ASt.setFn, e] using hj, .refl _⟩
    obtain ⟨i3, e3⟩ := push_ok (s3 := s3) h hf hg hlc hk hps ⟨tr, hret⟩ hretSame hfns3 a3 a4 a5
      (by simp only [hs3, a6]) a7 (fun p hm => (a10 p hm).grow hg3) (hretVals.grow hg3)
    have hst3 : s3.stack = k :: s.stack := by simp only [hs3, a6]
    -- the requires-clause
    obtain ⟨g', s5, b1, b2, b3, b4, b5, b6, b7, b8, breq, i5, e5, b9, b10⟩ := requires_ok haf i3 hst3 hk hf3 hlc
      (paramDone_sig hps) ⟨tr, hret⟩ h4
    rw [hg4] at b1
    cases b1
    rw [← b2] at hx
    set f5 : AFn := { g with level := if g.level = .unanalyzed then .shallow else g.level } with hf5
    have hk5 : s5.fns k = some f5 := by rw [b2]; simp [ASt.setFn]
    have hst5 : s5.stack = k :: s.stack := b9.trans hst3
    have hlvl5 : f5.level = if f.level = .unanalyzed then .shallow else f.level := by
      simp only [hf5, b6, withSig]
    have hlu5 : f5.level ≠ .unanalyzed := by
      rw [hlvl5]; split
      · decide
      · assumption
    have hlc5 : f5.level ≠ .forConst := by
      rw [hlvl5]; split
      · decide
      · exact hlc
    have hle5 : f5.level.rank ≤ lvl.rank := by
      rw [hlvl5]; split
      · have : 1 ≤ lvl.rank := Nat.lt_of_le_of_lt (Nat.zero_le _) hlt
        exact this
      · exact Nat.le_of_lt hlt
    have hbody5 : f5.body = f.body := b5
    have hret5 : f5.ret = ret := b4
    have hraw5 : f5.level.rank < 2 →
        RawSs f5.body ∧ ∀ x ∈ (declsSs f5.body).map Prod.fst, Unset s5 x := by
      intro hl
      have hl0 : f.level.rank < 2 := by
        refine Nat.lt_of_le_of_lt ?_ hl
        rw [hlvl5]; split
        · rename_i e; rw [e]; exact Nat.zero_le _
        · exact Nat.le_refl _
      obtain ⟨h5, h6⟩ := hp.raw hl0 hk
      rw [hbody5]
      refine ⟨h5, fun x hx kd v => ?_⟩
      rw [b10 x (List.mem_append_right _ hx)]
      rw [show s3.decl x = s.decl x from a4 x fun hm => hnd.2.2 _ hm _ hx rfl]
      exact h6 x hx kd v
    have hret' : SigT f5.ret tr := by rw [hret5]; exact hret
    have fin : ∀ {s6 : ASt}, Ext0 s.stack s5 s6 → (Inv N s' ∧ Ext0 s.stack s6 s' ∧ s'.stack = s.stack ∧
        ∃ f', s'.fns k = some f' ∧ f'.generic = false ∧ f'.level = lvl) →
        Inv N s' ∧ Ext [] s s' ∧
          ∃ f', s'.fns k = some f' ∧ f'.generic = false ∧ lvl.rank ≤ f'.level.rank := by
      rintro s6 he ⟨c1, c2, c3, f', c4, c5, c6⟩
      exact ⟨c1, (e3.trans (e5.trans (he.trans c2))).ext rfl c3, f', c4, c5, Nat.le_of_eq (by rw [c6])⟩
    unfold bodyTail at hx
    by_cases hfull : Level.full.rank ≤ lvl.rank
    · rw [if_pos hfull] at hx
      simp only [AM.bind_ok, AM.get_ok, AM.value_ok, updateFn_ok] at hx
      obtain ⟨o, _, ⟨ho, rfl⟩, t, _, ⟨rfl, rfl⟩, body, s6, h6, _, _, ⟨f6, hf6, rfl⟩, hx⟩ := hx
      have ht : t = tr := eraseType_concrete hret.2.1 ho
      subst ht
      have hlvl' : lvl = .forConst ∨ lvl = .full ∧ s.stack = [] := by
        rcases hlvl with e | e | e
        · rw [e] at hfull; exact absurd hfull (by decide)
        · exact .inl e
        · exact .inr e
      have hlt5 : f5.level.rank < lvl.rank := by
        rw [hlvl5]; split
        · exact Nat.lt_of_lt_of_le (by decide) hfull
        · exact hlt
      rw [← hbody5] at h6
      obtain ⟨i6, e6, st6, hk6, ty6, d6, ds6, same6, v6⟩ := body_ok haf i5 hst5 hk hk5 hlu5 hlvl' hlt5 hret'
        hraw5 h6
      rw [hk6] at hf6
      cases hf6
      rw [← hret5] at hx
      exact fin e6 (tail_ok i6 (st6.trans hst5) hk hk6 hlu5 hlc5 hle5 ds6 same6 breq
        (fun e => absurd hfull (Nat.not_le.2 e)) (fun _ => ⟨ty6, d6, v6⟩) hret' rfl hx)
    · rw [if_neg hfull, ← hret5] at hx
      refine fin (.refl _ s5) (tail_ok (s7 := s5) i5 hst5 hk hk5 hlu5 hlc5 hle5 rfl (fun _ => rfl) breq
        (fun e => ⟨rfl, hraw5 (Nat.lt_of_le_of_lt hle5 e)⟩) (fun e => absurd e hfull) hret' ?_ hx)
      rw [b2]
      simp only [ASt.setFn]
      congr 1
      funext j
      split <;> rfl

end

end Bms
