import Verif.Lemmas.AnalyzeFn

/-!
# Analysis of programs
-/

namespace Bms

open Spec

/-- A program after name lookup. -/
structure Resolved (ds : List ADecl) (next : Nat) : Prop extends RawProgram ds next where
  noSelf : ∀ f, .function f ∈ ds → f.requires_ ≠ none → .node f.k ∉ refsSs f.body
  paramRefs : ∀ f, .function f ∈ ds → ∀ j, .param j ∈ refsSs f.body → j ∈ f.params.map AParam.k

/-! ## The state before analysis -/

/-- All declarations of a global declaration. -/
def declsG : ADecl → List (Key × Decl)
  | .const_ k _ _ _ _ => [(k, ⟨.const_, none⟩)]
  | .staticAssert .. => []
  | .function f => declsF f

/-- One step of `Ana.initial`. -/
def initStep (s : ASt) (d : ADecl) : ASt :=
  match d with
  | .const_ k cv _ _ _ => s.setDecl k ⟨.const_, cv⟩
  | .staticAssert .. => s
  | .function f => Ana.addFunction f s

theorem initStep_eq (s : ASt) (d : ADecl) (h : RawD d) :
    (initStep s d).decl = insertAll (declsG d) s.decl ∧ (initStep s d).code = s.code ∧
      (initStep s d).stack = s.stack ∧ (initStep s d).next = s.next ∧
      ∀ j, (initStep s d).fns j = match d with
        | .function f => if j = f.k then some f else s.fns j
        | _ => s.fns j := by
  cases d with
  | const_ k cv name ty init =>
    simp only [RawD] at h
    obtain ⟨rfl, _⟩ := h
    exact ⟨rfl, rfl, rfl, rfl, fun _ => rfl⟩
  | staticAssert k cv e => exact ⟨rfl, rfl, rfl, rfl, fun _ => rfl⟩
  | function f => exact ⟨addFunction_decl h.body s, rfl, rfl, rfl, fun _ => rfl⟩

theorem initFold : ∀ (ds : List ADecl) (s : ASt), (∀ d ∈ ds, RawD d) → (ds.flatMap nodeKeys).Nodup →
    (ds.foldl initStep s).decl = insertAll (ds.flatMap declsG) s.decl ∧
      (ds.foldl initStep s).code = s.code ∧ (ds.foldl initStep s).stack = s.stack ∧
      (ds.foldl initStep s).next = s.next ∧
      (∀ f, .function f ∈ ds → (ds.foldl initStep s).fns f.k = some f) ∧
      ∀ j f, (ds.foldl initStep s).fns j = some f → .function f ∈ ds ∧ f.k = j ∨ s.fns j = some f := by
  intro ds
  induction ds with
  | nil => intro s _ _; exact ⟨rfl, rfl, rfl, rfl, by simp, fun j f h => .inr h⟩
  | cons d ds ih =>
    intro s hr hn
    simp only [List.flatMap_cons, List.nodup_append] at hn
    obtain ⟨a1, a2, a3, a4, a5⟩ := initStep_eq s d (hr d (by simp))
    obtain ⟨b1, b2, b3, b4, b5, b6⟩ := ih (initStep s d) (fun d hd => hr d (by simp [hd])) hn.2.1
    simp only [List.foldl_cons]
    refine ⟨?_, b2.trans a2, b3.trans a3, b4.trans a4, fun f hf => ?_, fun j f hf => ?_⟩
    · rw [b1, a1, List.flatMap_cons, insertAll_append]
    · rcases List.mem_cons.1 hf with rfl | hf
      · cases hfk : (ds.foldl initStep (initStep s (.function f))).fns f.k with
        | some g =>
          rcases b6 _ _ hfk with ⟨h1, h2⟩ | h1
          · exfalso
            refine hn.2.2 f.k (by simp [nodeKeys, Inst.keys]) g.k ?_ h2.symm
            exact List.mem_flatMap.2 ⟨_, h1, by simp [nodeKeys, Inst.keys]⟩
          · rw [a5] at h1
            simpa using h1.symm
        | none =>
          exfalso
          revert hfk
          have : ∀ (ds : List ADecl) (s : ASt), (s.fns f.k).isSome →
              ((ds.foldl initStep s).fns f.k).isSome := by
            intro ds
            induction ds with
            | nil => intro s h; exact h
            | cons d ds ih =>
              intro s h
              refine ih _ ?_
              cases d with
              | const_ k cv name ty init => exact h
              | staticAssert k cv e => exact h
              | function g =>
                simp only [initStep, Ana.addFunction]
                split
                · rfl
                · exact h
          have := this ds (initStep s (.function f)) (by rw [a5]; simp)
          intro e
          rw [e] at this
          cases this
      · exact b5 f hf
    · rcases b6 j f hf with ⟨h1, h2⟩ | h1
      · exact .inl ⟨by simp [h1], h2⟩
      · rw [a5] at h1
        cases d with
        | const_ k cv name ty init => exact .inr h1
        | staticAssert k cv e => exact .inr h1
        | function g =>
          simp only at h1
          split at h1
          · rename_i e
            cases h1
            exact .inl ⟨by simp, e.symm⟩
          · exact .inr h1

theorem declsG_sub (d : ADecl) : ∃ l, l.Sublist (nodeKeys d) ∧ ((declsG d).map Prod.fst).Perm l := by
  cases d with
  | const_ k cv name ty init => exact ⟨[k], List.Sublist.cons₂ _ (List.nil_sublist _), .refl _⟩
  | staticAssert k cv e => exact ⟨[], List.nil_sublist _, .refl _⟩
  | function f =>
    obtain ⟨l, h1, h2⟩ := declsF_keys f
    exact ⟨_, h1.append_right _, h2⟩

theorem declsG_nodup {ds : List ADecl} (h : (ds.flatMap nodeKeys).Nodup) :
    ((ds.flatMap declsG).map Prod.fst).Nodup := by
  have key : ∀ ds : List ADecl, ∃ l, l.Sublist (ds.flatMap nodeKeys) ∧
      ((ds.flatMap declsG).map Prod.fst).Perm l := by
    intro ds
    induction ds with
    | nil => exact ⟨[], List.nil_sublist _, .refl _⟩
    | cons d ds ih =>
      obtain ⟨l, h1, h2⟩ := declsG_sub d
      obtain ⟨l', h3, h4⟩ := ih
      simp only [List.flatMap_cons, List.map_append]
      exact ⟨_, h1.append h3, h2.append h4⟩
  obtain ⟨l, h1, h2⟩ := key ds
  exact h2.nodup_iff.2 (h1.nodup h)

theorem declsG_mem {d : ADecl} {x : Key} (h : x ∈ (declsG d).map Prod.fst) : x ∈ nodeKeys d := by
  obtain ⟨l, h1, h2⟩ := declsG_sub d
  exact h1.subset (h2.mem_iff.1 h)

/-- Two global declarations with a common key are the same. -/
theorem nodeKeys_unique {ds : List ADecl} (hn : (ds.flatMap nodeKeys).Nodup) {d e : ADecl} (hd : d ∈ ds)
    (he : e ∈ ds) {x : Key} (h1 : x ∈ nodeKeys d) (h2 : x ∈ nodeKeys e) : d = e := by
  induction ds with
  | nil => cases hd
  | cons a ds ih =>
    simp only [List.flatMap_cons, List.nodup_append] at hn
    rcases List.mem_cons.1 hd with hd' | hd' <;> rcases List.mem_cons.1 he with he' | he'
    · rw [hd', he']
    · exact absurd rfl (hn.2.2 x (hd' ▸ h1) x (List.mem_flatMap.2 ⟨e, he', h2⟩))
    · exact absurd rfl (hn.2.2 x (he' ▸ h2) x (List.mem_flatMap.2 ⟨d, hd', h1⟩))
    · exact ih hn.2.1 hd' he'

theorem initial_eq (ds : List ADecl) (next : Nat) : Ana.initial ds next =
    ds.foldl initStep { decl := fun _ => none, fns := fun _ => none, code := [], stack := [], next := next } :=
  rfl

theorem nodeKeys_nodup {ds : List ADecl} (hn : (ds.flatMap nodeKeys).Nodup) {d : ADecl} (hd : d ∈ ds) :
    (nodeKeys d).Nodup := by
  induction ds with
  | nil => cases hd
  | cons a ds ih =>
    simp only [List.flatMap_cons, List.nodup_append] at hn
    rcases List.mem_cons.1 hd with rfl | hd
    · exact hn.1
    · exact ih hn.2.1 hd

theorem initial_inv {ds : List ADecl} {next : Nat} (h : Resolved ds next) :
    Inv next (Ana.initial ds next) ∧ (Ana.initial ds next).stack = [] ∧
      (∀ f, .function f ∈ ds → (Ana.initial ds next).fns f.k = some f) ∧
      (∀ j f, (Ana.initial ds next).fns j = some f → .function f ∈ ds ∧ f.k = j) ∧
      ∀ k cv name ty init, .const_ k cv name ty init ∈ ds →
        (Ana.initial ds next).decl k = some ⟨.const_, none⟩ := by
  obtain ⟨a1, a2, a3, a4, a5, a6⟩ := initFold ds
    { decl := fun _ => none, fns := fun _ => none, code := [], stack := [], next := next } h.raw h.nodup
  rw [← initial_eq] at a1 a2 a3 a4 a5 a6
  have hfn : ∀ j f, (Ana.initial ds next).fns j = some f → .function f ∈ ds ∧ f.k = j := by
    intro j f hj
    rcases a6 j f hj with h1 | h1
    · exact h1
    · cases h1
  have hmem : ∀ d ∈ ds, ∀ x ∈ declsG d, (Ana.initial ds next).decl x.1 = some x.2 := by
    intro d hd x hx
    rw [a1]
    exact insertAll_mem _ _ (declsG_nodup h.nodup) x (List.mem_flatMap.2 ⟨d, hd, hx⟩)
  have hback : ∀ x v, (Ana.initial ds next).decl x = some v → ∃ d ∈ ds, (x, v) ∈ declsG d := by
    intro x v hx
    rw [a1] at hx
    rcases insertAll_cases _ _ _ _ hx with h1 | ⟨_, h1⟩
    · exact List.mem_flatMap.1 h1
    · cases h1
  have hkey : ∀ d ∈ ds, ∀ x ∈ nodeKeys d, x < next ∧ x ≠ sentinelKey := fun d hd x hx =>
    h.keys x (List.mem_flatMap.2 ⟨d, hd, hx⟩)
  have hown : ∀ {f : AFn} {x : Key}, x ∈ owned f → x ∈ nodeKeys (.function f) := fun hx =>
    declsG_mem (d := .function _) (owned_mem hx)
  have hprog : ∀ k, (progOf (Ana.initial ds next)).fns k = none := by
    intro k
    simp only [progOf]
    cases hk : (Ana.initial ds next).fns k with
    | none => rfl
    | some f =>
      have hl := (h.raw _ (hfn k f hk).1 : RawFn f).level
      simp [hl]
  refine ⟨⟨Nat.le_of_eq a4.symm, fun x d hx => ?_, fun x d hx => ?_, fun k f hf => ?_, fun k j f g hk hj hkj x hx hx' => ?_,
    fun k hk => ?_, ?_, fun P _ => ?_⟩, a3, a5, hfn, fun k cv name ty init hm => ?_⟩
  · rw [a4]
    obtain ⟨e, h1, h2⟩ := hback x d hx
    exact hkey e h1 x (declsG_mem (List.mem_map.2 ⟨_, h2, rfl⟩))
  · obtain ⟨e, h1, h2⟩ := hback x d hx
    cases e with
    | const_ k cv name ty init =>
      simp only [declsG, List.mem_singleton, Prod.mk.injEq] at h2
      rw [h2.2]
      trivial
    | staticAssert k cv e => simp [declsG] at h2
    | function f =>
      have hr : RawFn f := h.raw _ h1
      simp only [declsG, declsF, List.mem_append, List.mem_flatMap, List.mem_map, Prod.mk.injEq] at h2
      rcases h2 with ⟨p, hp, h2⟩ | ⟨y, hy, hyx, h2⟩
      · obtain ⟨k, name, ty⟩ := p
        have hrt := (hr.params _ hp).1
        simp only [declsP, List.mem_cons, Prod.mk.injEq] at h2
        rcases h2 with ⟨_, h2⟩ | h2
        · simp only at hrt
          rw [rawT_cv hrt] at h2
          rw [h2]; trivial
        · split at h2
          · simp only [List.mem_singleton, Prod.mk.injEq] at h2
            simp only [RawT, RawE] at hrt
            rw [h2.2, hrt.2.2]
            trivial
          · cases h2
      · rw [← h2]
        cases y.2 <;> trivial
  · obtain ⟨hm, rfl⟩ := hfn k f hf
    have hr : RawFn f := h.raw _ hm
    have hnd : (nodeKeys (.function f)).Nodup := nodeKeys_nodup h.nodup hm
    refine ⟨⟨rfl, ?_⟩, fun x hx => ?_, owned_nodup (declsF_nodup hnd), fun p hp => ?_, fun d hd => ?_,
      fun hg => ?_, fun hg => ?_⟩
    · rw [a4]; exact (hkey _ hm f.k (by simp [nodeKeys, Inst.keys])).1
    · rw [a4]; exact (hkey _ hm x (hown hx)).1
    · exact hmem _ hm _ (declsF_param hp)
    · exact ⟨none, hmem _ hm _ (declsF_body hd)⟩
    · exact {
        params := fun p hp => .raw (hr.params p hp).1 (hr.params p hp).2
        ret := .raw hr.ret.1 hr.ret.2
        sigParams := fun e => absurd hr.level e
        sigRet := fun e => absurd hr.level e
        cv := fun e => absurd hr.level e
        cvNone := fun _ => hr.cv
        reqs := fun e he => .inl ⟨hr.level, hr.reqs e he⟩
        raw := fun _ _ => by
          refine ⟨hr.body, fun x hx kd v hxd => ?_⟩
          obtain ⟨d, hd, rfl⟩ := List.mem_map.1 hx
          have := hmem _ hm _ (declsF_body hd)
          simp only at this
          rw [this] at hxd
          cases hxd
        typed := fun e => by rw [hr.level] at e; exact absurd e (by decide)
        typedConst := fun e => by rw [hr.level] at e; cases e
        noSelf := fun _ => h.noSelf f hm
        instRefs := fun _ hk => by
          have := (hkey _ hm f.k (by simp [nodeKeys, Inst.keys])).1
          exact absurd hk (Nat.not_le.2 this)
        paramRefs := fun _ j hj => by
          obtain ⟨p, hp, rfl⟩ := List.mem_map.1 (h.paramRefs f hm j hj)
          exact ⟨_, hmem _ hm _ (declsF_param hp)⟩
        valsParams := fun p hp hs => by rw [rawT_cv (hr.params p hp).1] at hs; cases hs
        valsRet := fun hs => by rw [rawT_cv hr.ret.1] at hs; cases hs
        valsReqs := fun e he hs => by rw [rawE_cv (hr.reqs e he)] at hs; cases hs
        valsBody := fun e => by rw [hr.level] at e; exact absurd e (by decide) }
    · exact {
        params := hr.params
        ret := hr.ret
        reqs := hr.reqs
        raw := hr.body
        unset := fun x hx kd v hxd => by
          obtain ⟨d, hd, rfl⟩ := List.mem_map.1 hx
          have := hmem _ hm _ (declsF_body hd)
          simp only at this
          rw [this] at hxd
          cases hxd
        level := hr.level
        cv := hr.cv
        noSelf := h.noSelf f hm
        keys := ⟨hnd, fun x hx => by rw [a4]; exact hkey _ hm x hx⟩
        instances := fun i hi => by rw [hr.instances] at hi; cases hi }
  · obtain ⟨h1, rfl⟩ := hfn k f hk
    obtain ⟨h2, rfl⟩ := hfn j g hj
    have := nodeKeys_unique h.nodup h1 h2 (hown hx) (hown hx')
    cases this
    exact hkj rfl
  · rw [a3] at hk; cases hk
  · rw [a2]; exact .nil
  · have ha : addrOf (Ana.initial ds next) = fun _ => none := by
      funext k
      simp only [addrOf]
      cases hk : (Ana.initial ds next).fns k with
      | none => rfl
      | some f =>
        have hl := (h.raw _ (hfn k f hk).1 : RawFn f).level
        simp [hl]
    rw [a2, ha]
    exact .empty
  · exact hmem _ hm (k, ⟨.const_, none⟩) (by simp [declsG])

/-! ## Global declarations -/

/-- A declaration that belongs to no function gets its value. -/
theorem setGlobal_ok {N : Nat} {s : ASt} (h : Inv N s) {k : Key} {v : Value}
    (hd : s.decl k = some ⟨.const_, none⟩) (hu : ∀ j f, s.fns j = some f → k ∉ owned f) (hv : VOk v) :
    Inv N (s.setDecl k ⟨.const_, some v⟩) ∧ Grows s (s.setDecl k ⟨.const_, some v⟩) := by
  have hdk : (s.setDecl k ⟨.const_, some v⟩).decl k = some ⟨.const_, some v⟩ := by simp [ASt.setDecl]
  have hdj : ∀ x, x ≠ k → (s.setDecl k ⟨.const_, some v⟩).decl x = s.decl x := fun x hx => by
    simp [ASt.setDecl, hx]
  have hg : Grows s (s.setDecl k ⟨.const_, some v⟩) := by
    refine ⟨fun x kd w hx => ?_, fun j f hj => ⟨f, hj, .refl f⟩, [], by simp [ASt.setDecl]⟩
    rw [hdj x, hx]
    rintro rfl
    rw [hd] at hx
    cases hx
  refine ⟨⟨h.next, fun x d hx => ?_, fun x d hx => ?_, fun j f hj => ?_, h.disjoint, h.stackFns, h.code,
    h.loaded.same rfl (fun _ => rfl) fun _ => rfl⟩, hg⟩
  · by_cases e : x = k
    · exact e ▸ h.declKey k _ hd
    · rw [hdj x e] at hx; exact h.declKey x d hx
  · by_cases e : x = k
    · subst e; rw [hdk] at hx; cases hx; exact hv
    · rw [hdj x e] at hx; exact h.declOk x d hx
  · refine (h.fn j f hj).grow (Nat.le_refl _) hg (fun x hx => hdj x ?_) Iff.rfl (fun i g h1 h2 => ?_) ?_
    · rintro rfl; exact hu j f hj hx
    · have h1' : s.fns i = some g := h1
      rw [h2] at h1'; cases h1'
    · rintro x ⟨cv, hx⟩
      refine ⟨cv, ?_⟩
      rw [hdj x, hx]
      rintro rfl
      rw [hd] at hx
      cases hx

/-- What becomes of functions that are analyzed as global declarations. -/
theorem functionDecl_ok {N n : Nat} {s s' : ASt} {k : Key} {f : AFn} (h : Inv N s) (hs : s.stack = [])
    (hf : s.fns k = some f) (hx : Ana.function n k .full s = .ok () s') :
    Inv N s' ∧ Ext [] s s' ∧
      (f.generic = false → ∃ f', s'.fns k = some f' ∧ f'.generic = false ∧ 2 ≤ f'.level.rank) := by
  by_cases hg : f.generic = false
  · obtain ⟨h1, h2, h3⟩ := function_ok n h hf hg (.inr (.inr ⟨rfl, hs⟩)) (by rw [hs]; simp) hx
    exact ⟨h1, h2, fun _ => h3⟩
  · have hgt : f.generic = true := by simpa using hg
    have hgi := (h.fn k f hf).gen hgt
    refine (fun (a : Inv N s' ∧ Ext [] s s') => ⟨a.1, a.2, fun e => absurd e hg⟩) ?_
    cases n with
    | zero => simp [Ana.function, AM.timeout_ok] at hx
    | succ n =>
      simp only [Ana.function, AM.bind_ok, AM.assert_ok, AM.read_ok, AM.value_ok] at hx
      obtain ⟨_, _, ⟨_, rfl⟩, _, _, ⟨rfl, rfl⟩, f0, _, ⟨hf0, rfl⟩, hx⟩ := hx
      rw [hf] at hf0
      cases hf0
      rw [hgi.level, if_neg (by decide), hgt, if_pos rfl] at hx
      have key : ∀ (is : List AInstance) (s s' : ASt), Inv N s → s.stack = [] →
          (∀ i ∈ is, ∃ g, s.fns i.key = some g ∧ g.generic = false) →
          (is.forM fun i => Ana.function n i.key .full) s = .ok () s' → Inv N s' ∧ Ext [] s s' := by
        intro is
        induction is with
        | nil =>
          intro s s' h _ _ hx
          change (pure () : AM Unit) s = _ at hx
          simp only [AM.pure_ok, true_and] at hx
          subst hx
          exact ⟨h, .refl _ _⟩
        | cons i is ih =>
          intro s s' h hs hi hx
          change (Ana.function n i.key .full >>= fun _ => is.forM fun i => Ana.function n i.key .full) s = _ at hx
          simp only [AM.bind_ok] at hx
          obtain ⟨_, s1, h1, hx⟩ := hx
          obtain ⟨g, hg, hgg⟩ := hi i (by simp)
          obtain ⟨a1, a2, -⟩ := function_ok n h hg hgg (.inr (.inr ⟨rfl, hs⟩)) (by rw [hs]; simp) h1
          have hi' : ∀ j ∈ is, ∃ g, s1.fns j.key = some g ∧ g.generic = false := by
            intro j hj
            obtain ⟨g, hg, hgg⟩ := hi j (by simp [hj])
            obtain ⟨g', h2, h3⟩ := a2.fns _ _ hg
            exact ⟨g', h2, h3.generic.trans hgg⟩
          obtain ⟨b1, b2⟩ := ih s1 s' a1 (a2.stack.trans hs) hi' hx
          exact ⟨b1, a2.trans b2⟩
      refine key f.instances s s' h hs (fun i hi => ?_) hx
      obtain ⟨_, g, h1, h2, _⟩ := hgi.instances i hi
      exact ⟨g, h1, h2⟩

theorem afOk_function (N n : Nat) : AfOk N (Ana.function n) := by
  rintro j l s s' hi hl ⟨g, hgj, hgg, hst⟩ hx
  have := function_ok n hi hgj hgg (hl.imp id .inl) hst hx
  exact ⟨this.1, this.2.1⟩

/-- The declaration has been analyzed. -/
def Analyzed (s : ASt) : ADecl → Prop
  | .const_ k .. => ∃ v, s.decl k = some ⟨.const_, some v⟩ ∧ VOk v
  | .staticAssert .. => True
  | .function f => f.generic = false → ∃ f', s.fns f.k = some f' ∧ f'.generic = false ∧ 2 ≤ f'.level.rank

theorem Analyzed.grow {s s' : ASt} {d : ADecl} (h : Analyzed s d) (hg : Grows s s') : Analyzed s' d := by
  cases d with
  | const_ k cv name ty init =>
    obtain ⟨v, h1, h2⟩ := h
    exact ⟨v, hg.declSome _ _ _ h1, h2⟩
  | staticAssert k cv e => trivial
  | function f =>
    intro hf
    obtain ⟨f', h1, h2, h3⟩ := h hf
    obtain ⟨f'', h4, h5⟩ := hg.fns _ _ h1
    exact ⟨f'', h4, h5.generic.trans h2, Nat.le_trans h3 h5.level⟩

/-- What is not yet analyzed. -/
structure Waiting (N : Nat) (s : ASt) (ds : List ADecl) : Prop where
  raw : ∀ d ∈ ds, RawD d
  consts : ∀ k cv name ty init, .const_ k cv name ty init ∈ ds →
    k < N ∧ s.decl k = some ⟨.const_, none⟩ ∧ ∀ j f, s.fns j = some f → k ∉ owned f
  fns : ∀ f, .function f ∈ ds → ∃ g, s.fns f.k = some g ∧ g.generic = f.generic

theorem Waiting.ext {N : Nat} {s s' : ASt} {ds : List ADecl} (h : Waiting N s ds) (hi : Inv N s)
    (he : Ext [] s s') : Waiting N s' ds where
  raw := h.raw
  consts k cv name ty init hm := by
    obtain ⟨h1, h2, h3⟩ := h.consts k cv name ty init hm
    refine ⟨h1, ?_, fun j f hj hk => ?_⟩
    · rw [he.unowned k (Nat.lt_of_lt_of_le h1 hi.next) h3]
      exact h2
    · cases hs : s.fns j with
      | none =>
        have := (he.newFns j f hj hs).2 k hk
        exact absurd (Nat.lt_of_lt_of_le h1 hi.next) (Nat.not_lt.2 this)
      | some g =>
        obtain ⟨g', h4, h5⟩ := he.fns j g hs
        rw [hj] at h4
        cases h4
        exact h3 j g hs (h5.owned ▸ hk)
  fns f hm := by
    obtain ⟨g, h1, h2⟩ := h.fns f hm
    obtain ⟨g', h3, h4⟩ := he.fns _ _ h1
    exact ⟨g', h3, h4.generic.trans h2⟩

theorem Waiting.sub {N : Nat} {s : ASt} {ds ds' : List ADecl} (h : Waiting N s ds)
    (hs : ∀ d ∈ ds', d ∈ ds) : Waiting N s ds' :=
  ⟨fun d hd => h.raw d (hs d hd), fun k cv name ty init hm => h.consts k cv name ty init (hs _ hm),
    fun f hm => h.fns f (hs _ hm)⟩

/-- One declaration. -/
theorem decl_ok {N n : Nat} {d : ADecl} {ds : List ADecl} {s s1 : ASt} (h : Inv N s) (hs : s.stack = [])
    (hw : Waiting N s (d :: ds)) (hn : ((d :: ds).flatMap nodeKeys).Nodup) (h1 : Ana.decl n d s = .ok () s1) :
    Inv N s1 ∧ s1.stack = [] ∧ Grows s s1 ∧ Waiting N s1 ds ∧ Analyzed s1 d := by
  simp only [List.flatMap_cons, List.nodup_append] at hn
  have hraw := hw.raw d (by simp)
  cases d with
  | const_ k cv name ty init =>
    simp only [RawD] at hraw
    obtain ⟨rfl, hr1, hr2⟩ := hraw
    simp only [Ana.decl, AM.bind_ok] at h1
    obtain ⟨⟨v, ty', init'⟩, s2, h2, h1⟩ := h1
    simp only [AM.modify_ok] at h1
    subst h1
    obtain ⟨b1, b2, b3⟩ := const_ok (afOk_function N n) h hr1 hr2 h2
    have hw2 := hw.ext h b2
    obtain ⟨c1, c2, c3⟩ := hw2.consts k none name ty init (by simp)
    obtain ⟨d1, d2⟩ := setGlobal_ok b1 c2 c3 b3
    refine ⟨d1, b2.stack.trans hs, b2.grows.trans d2, ?_, v, by simp [ASt.setDecl], b3⟩
    refine ⟨fun d hd => hw.raw d (by simp [hd]), fun j cv' name' ty' init' hm => ?_,
      fun f hf => hw2.fns f (by simp [hf])⟩
    obtain ⟨e1, e2, e3⟩ := hw2.consts j cv' name' ty' init' (by simp [hm])
    refine ⟨e1, ?_, e3⟩
    have : j ≠ k := fun e => hn.2.2 k (by simp [nodeKeys]) j
      (List.mem_flatMap.2 ⟨_, hm, by simp [nodeKeys]⟩) e.symm
    simp only [ASt.setDecl, if_neg this]
    exact e2
  | staticAssert k cv e =>
    simp only [RawD] at hraw
    obtain ⟨rfl, hr⟩ := hraw
    simp only [Ana.decl, AM.bind_ok, AM.pure_ok, true_and] at h1
    obtain ⟨⟨v, e'⟩, s2, h2, rfl⟩ := h1
    obtain ⟨b1, b2, -⟩ := staticAssert_ok (afOk_function N n) h hr h2
    exact ⟨b1, b2.stack.trans hs, b2.grows, (hw.ext h b2).sub (by simp +contextual), trivial⟩
  | function f =>
    simp only [Ana.decl] at h1
    obtain ⟨g, hg, hgg⟩ := hw.fns f (by simp)
    obtain ⟨b1, b2, b3⟩ := functionDecl_ok h hs hg h1
    exact ⟨b1, b2.stack.trans hs, b2.grows, (hw.ext h b2).sub (by simp +contextual),
      fun hf => b3 (hgg.trans hf)⟩

theorem decls_ok {N n : Nat} : ∀ {ds : List ADecl} {s s' : ASt}, Inv N s → s.stack = [] →
    Waiting N s ds → (ds.flatMap nodeKeys).Nodup → Ana.decls n ds s = .ok () s' →
    Inv N s' ∧ s'.stack = [] ∧ Grows s s' ∧ ∀ d ∈ ds, Analyzed s' d := by
  intro ds
  induction ds with
  | nil =>
    intro s s' h hs _ _ hx
    simp only [Ana.decls, AM.pure_ok, true_and] at hx
    subst hx
    exact ⟨h, hs, .refl _, by simp⟩
  | cons d ds ih =>
    intro s s' h hs hw hn hx
    simp only [Ana.decls, AM.bind_ok] at hx
    obtain ⟨_, s1, h1, hx⟩ := hx
    obtain ⟨a1, a2, a3, a4, a5⟩ := decl_ok h hs hw hn h1
    simp only [List.flatMap_cons, List.nodup_append] at hn
    obtain ⟨b1, b2, b3, b4⟩ := ih a1 a2 a4 hn.2.1 hx
    refine ⟨b1, b2, a3.trans b3, fun e he => ?_⟩
    rcases List.mem_cons.1 he with rfl | he
    · exact a5.grow b3
    · exact b4 e he

/-- Analysis of a program after name lookup. -/
theorem analysis_ok {n : Nat} {ds : List ADecl} {next : Nat} {s : ASt} (h : Resolved ds next)
    (hx : Ana.decls n ds (Ana.initial ds next) = .ok () s) :
    Inv next s ∧ s.stack = [] ∧ Grows (Ana.initial ds next) s ∧ ∀ d ∈ ds, Analyzed s d := by
  obtain ⟨a1, a2, a3, a4, a5⟩ := initial_inv h
  refine decls_ok a1 a2 ⟨h.raw, fun k cv name ty init hm => ⟨?_, a5 k cv name ty init hm, fun j f hj hk => ?_⟩,
    fun f hf => ⟨f, a3 f hf, rfl⟩⟩ h.nodup hx
  · exact (h.keys k (List.mem_flatMap.2 ⟨_, hm, by simp [nodeKeys]⟩)).1
  · have := nodeKeys_unique h.nodup hm (a4 j f hj).1 (x := k) (by simp [nodeKeys])
      (declsG_mem (d := .function f) (owned_mem hk))
    cases this

end Bms
