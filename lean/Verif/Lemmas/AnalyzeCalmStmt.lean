import Verif.Lemmas.AnalyzeCalmFn

/-!
# Analysis of calm statements and programs
-/

namespace Bms

open Spec

section

variable {K : Facts} {S X own seen : List Key} {n : Nat} {af : Key → Level → AM Unit}

theorem declaredType_calm {s : ASt} (hs : NamesOk K s) {ty : AType} (hr : RawT ty) (h : considered (constT K ty) = true) :
    Calm (fun (r : AType × CType) s' => s = s' ∧ constT K ty = .ok r.2 ∧ r.2.WF) (Ana.declaredType n af ty) s := by
  unfold Ana.declaredType
  refine Calm.bind (constT_considered hs hr h) fun ty' _ _ h => ?_
  obtain ⟨rfl, t, ht, hsig⟩ := h
  refine Calm.bind (P := fun v s' => s = s' ∧ Value.unknownOf t = v) (.value hsig.1 ⟨rfl, rfl⟩) fun v _ _ h => ?_
  obtain ⟨rfl, rfl⟩ := h
  exact .pure ⟨rfl, ht, hsig.2.2⟩

theorem const_calm {s : ASt} (hs : NamesOk K s) {k : Key} {ty : Option AType} {init : AExpr}
    (ht : ∀ t ∈ ty, RawT t) (hr : RawE init) (h : calmConst K k ty init = true) :
    Calm (fun (r : Value × Option AType × AExpr) s' => s = s' ∧ ∃ c, K.value k = some c ∧ r.1 = Value.known c ∧ WF c)
      (Ana.const_ n af k ty init) s := by
  unfold Ana.const_
  cases ty with
  | none =>
    simp only [calmConst] at h
    have hc : considered (constE K init) = true := by
      cases hx : constE K init <;> simp [hx] at h <;> rfl
    refine Calm.bind (constE_considered hs hr hc) fun e' _ _ h' => ?_
    obtain ⟨rfl, v, hv, hcv, hw⟩ := h'
    simp only [hv, decide_eq_true_eq] at h
    refine Calm.bind (P := fun a s' => s = s' ∧ Value.known v = a) (.deref hcv ⟨rfl, rfl⟩) fun _ _ _ h => ?_
    obtain ⟨rfl, rfl⟩ := h
    refine Calm.bind (P := fun _ s' => s = s') (.assert rfl rfl) fun _ _ _ h => ?_
    subst h
    exact .pure ⟨rfl, v, h, rfl, hw⟩
  | some ty =>
    simp only [calmConst] at h
    have hct : considered (constT K ty) = true := by
      cases hx : constT K ty <;> simp [hx] at h <;> rfl
    refine Calm.bind (declaredType_calm hs (ht ty rfl) hct) fun r _ _ h' => ?_
    obtain ⟨rfl, hty, htw⟩ := h'
    obtain ⟨ty', t⟩ := r
    simp only at hty htw
    simp only [hty] at h
    have hc : considered (constE K init) = true := by
      cases hx : constE K init <;> simp [hx] at h <;> rfl
    refine Calm.bind (constE_considered hs hr hc) fun e' _ _ h' => ?_
    obtain ⟨rfl, v, hv, hcv, hw⟩ := h'
    simp only [hv] at h
    refine Calm.bind (P := fun a s' => s = s' ∧ Value.known v = a) (.deref hcv ⟨rfl, rfl⟩) fun _ _ _ h => ?_
    obtain ⟨rfl, rfl⟩ := h
    refine .ite (fun _ => .fail) fun hcv => ?_
    refine Calm.bind (P := fun w s' => s = s' ∧ evalConversionV (Value.known v) t = .ok w)
      (.lift (considered_conversion _ _) fun w hw => ⟨rfl, hw⟩) fun w _ _ h => ?_
    obtain ⟨rfl, hx⟩ := h
    have hcv : v.type.isConvertibleTo t = true := by simpa [Value.known] using hcv
    rw [conversion_known hcv] at hx
    cases hy : evalConversion v t with
    | ok c =>
      rw [hy] at hx
      cases hx
      simp only [hy, decide_eq_true_eq] at h
      exact .pure ⟨rfl, c, h, rfl, (C11_conversion_wf hw htw hy).1⟩
    | _ => rw [hy] at hx; cases hx

theorem let_calm {bad : Option Key} (haf : AfCalm K S bad.toList own seen af) {s : ASt} (hs : CalmSt K S bad.toList own seen s)
    {k : Key} {ty : Option AType} {init : Option AExpr} (ht : ∀ t ∈ ty, RawT t) (hr : ∀ e ∈ init, RawE e)
    (h : ((ty.isSome || init.isSome) && ty.all (fun t => considered (constT K t)) && init.all (calmE K own bad)) = true) :
    Calm (fun (r : CType × Option AType × Option AExpr) s' => CalmSt K S bad.toList own seen s' ∧ r.1.WF)
      (Ana.let_ n af k ty init .full) s := by
  unfold Ana.let_
  simp only [Bool.and_eq_true, Bool.or_eq_true] at h
  obtain ⟨⟨h1, h2⟩, h3⟩ := h
  cases ty with
  | none =>
    cases init with
    | none => simp at h1
    | some e =>
      refine Calm.bind (calmE_calm haf e hs (hr e rfl) h3) fun e' s1 _ h => ?_
      obtain ⟨hs, v, hv, hok, -⟩ := h
      refine Calm.bind (P := fun a s' => s1 = s' ∧ v = a) (.value hv ⟨rfl, rfl⟩) fun _ _ _ h => ?_
      obtain ⟨rfl, rfl⟩ := h
      exact .pure ⟨hs, hok.1⟩
  | some ty =>
    cases init with
    | none =>
      refine Calm.bind (declaredType_calm hs.names (ht ty rfl) h2) fun r _ _ h' => ?_
      obtain ⟨rfl, hty, htw⟩ := h'
      exact .pure ⟨hs, htw⟩
    | some e =>
      refine Calm.bind (declaredType_calm hs.names (ht ty rfl) h2) fun r _ _ h' => ?_
      obtain ⟨rfl, hty, htw⟩ := h'
      refine Calm.bind (calmE_calm haf e hs (hr e rfl) h3) fun e' s1 _ h => ?_
      obtain ⟨hs, v, hv, hok, -⟩ := h
      refine Calm.bind (P := fun a s' => s1 = s' ∧ v = a) (.deref hv ⟨rfl, rfl⟩) fun _ _ _ h => ?_
      obtain ⟨rfl, rfl⟩ := h
      exact .ite (fun _ => .fail) fun _ => .pure ⟨hs, htw⟩

theorem staticAssert_calm {s : ASt} (hs : NamesOk K s) {k : Key} {e : AExpr} (hr : RawE e)
    (h : considered (constE K e) = true) : Calm (fun _ s' => s = s') (Ana.staticAssert n af k e) s := by
  unfold Ana.staticAssert
  refine Calm.bind (constE_considered hs hr h) fun e' _ _ h' => ?_
  obtain ⟨rfl, v, hv, hcv, hw⟩ := h'
  refine Calm.bind (P := fun _ s' => s = s') (.assert (by rw [hcv]; rfl) rfl) fun _ _ _ h => ?_
  subst h
  refine Calm.bind (P := fun a s' => s = s' ∧ Value.known v = a) (.deref hcv ⟨rfl, rfl⟩) fun _ _ _ h => ?_
  obtain ⟨rfl, rfl⟩ := h
  refine .ite (fun _ => .fail) fun hb => ?_
  have hb : v.type = .bool := by simpa [Value.known] using hb
  refine Calm.bind (P := fun _ s' => s = s') (.get (a := decide (v.int ≠ 0)) (by simp [Value.asBool, Value.known, hb]) rfl)
    fun b _ _ h => ?_
  subst h
  exact .ite (fun _ => .fail) fun _ => .pure rfl

theorem condition_calm {bad : Option Key} (haf : AfCalm K S bad.toList own seen af) {s : ASt}
    (hs : CalmSt K S bad.toList own seen s) {k : Key} {c : AExpr} (hr : RawE c) (h : calmE K own bad c = true) :
    Calm (fun _ => CalmSt K S bad.toList own seen) (Ana.condition n af k c .full) s := by
  unfold Ana.condition
  refine Calm.bind (calmE_calm haf c hs hr h) fun e' s1 _ h => ?_
  obtain ⟨hs, v, hv, hok, -⟩ := h
  refine Calm.bind (P := fun a s' => s1 = s' ∧ v = a) (.value hv ⟨rfl, rfl⟩) fun _ _ _ h => ?_
  obtain ⟨rfl, rfl⟩ := h
  exact .ite (fun _ => .fail) fun _ => .pure hs

/-! ## Statements -/

mutual

theorem stmt_calm {bad : Option Key} (haf : ∀ seen, AfCalm K S bad.toList own seen af) {ret : CType} : (t : AStmt) →
    {loop : Bool} → {seen : List Key} → {s : ASt} → CalmSt K S bad.toList own seen s → RawS t →
    calmS K own bad seen t = true → (∀ d ∈ declsS t, d ∈ K.kinds) →
    Calm (fun _ => CalmSt K S bad.toList own (seen ++ (declsS t).map Prod.fst)) (Ana.stmt n af ret .full loop t) s
  | .const_ k cv name ty init, loop, seen, s, hs, hr, hq, hd => by
    rw [Ana.stmt.eq_def]
    obtain ⟨rfl, ht, hi⟩ := hr
    rw [calmS] at hq
    refine Calm.bind (const_calm hs.names ht hi hq) fun r _ _ h => ?_
    obtain ⟨rfl, c, hv, hc, hw⟩ := h
    obtain ⟨v, ty', init'⟩ := r
    simp only at hc
    subst hc
    exact Calm.bind (P := fun _ => CalmSt K S bad.toList own (seen ++ [k]))
      (.modify (hs.const hw hv (hd _ (by simp [declsS])))) fun _ _ _ hs => .pure hs
  | .let_ k cv name ty init, loop, seen, s, hs, hr, hq, hd => by
    rw [Ana.stmt.eq_def]
    obtain ⟨rfl, ht, hi⟩ := hr
    rw [calmS] at hq
    refine Calm.bind (let_calm (haf seen) hs ht hi hq) fun r _ _ h => ?_
    obtain ⟨hs, hw⟩ := h
    obtain ⟨t, ty', init'⟩ := r
    exact Calm.bind (P := fun _ => CalmSt K S bad.toList own (seen ++ [k]))
      (.modify (hs.var hw (hd _ (by simp [declsS])))) fun _ _ _ hs => .pure hs
  | .staticAssert k cv e, loop, seen, s, hs, hr, hq, hd => by
    rw [Ana.stmt.eq_def]
    obtain ⟨rfl, hr⟩ := hr
    rw [calmS] at hq
    refine Calm.bind (staticAssert_calm hs.names hr hq) fun r _ _ h => ?_
    subst h
    exact .pure (by simpa [declsS] using hs)
  | .ifThen k cv c t, loop, seen, s, hs, hr, hq, hd => by
    rw [Ana.stmt.eq_def]
    simp only [calmS, Bool.and_eq_true] at hq
    refine Calm.bind (condition_calm (haf seen) hs hr.2.1 hq.1) fun _ _ _ hs => ?_
    exact Calm.bind (stmt_calm haf t hs hr.2.2 hq.2 hd) fun _ _ _ hs => .pure hs
  | .ifElse k cv c t e, loop, seen, s, hs, hr, hq, hd => by
    rw [Ana.stmt.eq_def]
    simp only [calmS, Bool.and_eq_true] at hq
    refine Calm.bind (condition_calm (haf seen) hs hr.2.1 hq.1.1) fun _ _ _ hs => ?_
    refine Calm.bind (stmt_calm haf t hs hr.2.2.1 hq.1.2 fun d h => hd d (by simp [declsS, h])) fun _ _ _ hs => ?_
    refine Calm.bind (stmt_calm haf e hs hr.2.2.2 hq.2 fun d h => hd d (by simp [declsS, h])) fun _ _ _ hs => .pure ?_
    simpa [declsS] using hs
  | .while_ k cv c b, loop, seen, s, hs, hr, hq, hd => by
    rw [Ana.stmt.eq_def]
    simp only [calmS, Bool.and_eq_true] at hq
    refine Calm.bind (condition_calm (haf seen) hs hr.2.1 hq.1) fun _ _ _ hs => ?_
    exact Calm.bind (stmt_calm haf b hs hr.2.2 hq.2 hd) fun _ _ _ hs => .pure hs
  | .control k cv c e, loop, seen, s, hs, hr, hq, hd => by
    rw [Ana.stmt.eq_def]
    have e0 : seen ++ (declsS (.control k cv c e)).map Prod.fst = seen := by simp [declsS]
    rw [e0]
    rw [calmS] at hq
    cases c with
    | break_ => exact .ite (fun _ => .pure hs) fun _ => .fail
    | continue_ => exact .ite (fun _ => .pure hs) fun _ => .fail
    | return_ =>
      cases e with
      | none => exact .ite (fun _ => .fail) fun _ => .pure hs
      | some e =>
        refine Calm.bind (calmE_calm (haf seen) e hs (hr.2.2 e rfl) hq) fun e' s1 _ h => ?_
        obtain ⟨hs, v, hv, hok, -⟩ := h
        refine Calm.bind (P := fun a s' => s1 = s' ∧ v = a) (.value hv ⟨rfl, rfl⟩) fun _ _ _ h => ?_
        obtain ⟨rfl, rfl⟩ := h
        refine .ite (fun _ => .fail) fun _ => ?_
        exact Calm.bind (P := fun _ => CalmSt K S bad.toList own seen) (.foldResult (considered_conversion _ _) fun _ _ => hs)
          fun _ _ _ hs => .pure hs
  | .assign k cv name ref e, loop, seen, s, hs, hr, hq, hd => by
    rw [Ana.stmt.eq_def]
    have e0 : seen ++ (declsS (.assign k cv name ref e)).map Prod.fst = seen := by simp [declsS]
    rw [e0]
    rw [calmS.eq_def] at hq
    simp only [Bool.and_eq_true] at hq
    cases ref with
    | none => cases hq.2
    | some r =>
      cases r with
      | builtin f => cases hq.2
      | param p => exact .fail
      | node j =>
        have hj := hq.2
        simp only [Facts.declared, Bool.and_eq_true, Bool.or_eq_true, Bool.not_eq_true', ← Bool.not_eq_true,
          List.contains_iff_mem] at hj
        refine Calm.bind (P := fun t s' => s = t ∧ s = s') (.read ⟨rfl, rfl⟩) fun _ _ _ h => ?_
        obtain ⟨rfl, rfl⟩ := h
        cases hf : s.fns j with
        | some f => exact .fail
        | none =>
          rcases hj with ⟨(hj | hj) | hj, hseen⟩
          · have := hs.names.fns j hj
            rw [hf] at this
            cases this
          · obtain ⟨-, cv, h2, -⟩ := hs.names.const j hj
            simp only [h2]
            exact .fail
          · obtain ⟨-, cv, h2, -⟩ := hs.names.let_ j hj
            simp only [h2]
            have hseen : j ∈ seen := hseen.resolve_left fun h => h hj
            refine Calm.bind (calmE_calm (haf seen) e hs hr.2 hq.1) fun e' s1 _ h => ?_
            obtain ⟨hs, v, hv, hok, -⟩ := h
            refine Calm.bind (P := fun a s' => s1 = s' ∧ v = a) (.value hv ⟨rfl, rfl⟩) fun _ _ _ h => ?_
            obtain ⟨rfl, rfl⟩ := h
            refine Calm.bind (P := fun t s' => s1 = t ∧ s1 = s') (.read ⟨rfl, rfl⟩) fun _ _ _ h => ?_
            obtain ⟨rfl, rfl⟩ := h
            obtain ⟨w, hw⟩ := hs.seenOk j hseen hj
            refine Calm.bind (P := fun d s' => s1 = s' ∧ ⟨.let_, some w⟩ = d) (.value hw ⟨rfl, rfl⟩) fun _ _ _ h => ?_
            obtain ⟨rfl, rfl⟩ := h
            refine Calm.bind (P := fun d s' => s1 = s' ∧ w = d) (.value rfl ⟨rfl, rfl⟩) fun _ _ _ h => ?_
            obtain ⟨rfl, rfl⟩ := h
            refine .ite (fun _ => .fail) fun _ => ?_
            exact Calm.bind (P := fun _ => CalmSt K S bad.toList own seen)
              (.foldResult (considered_conversion _ _) fun _ _ => hs) fun _ _ _ hs => .pure hs
  | .block k cv ss, loop, seen, s, hs, hr, hq, hd => by
    rw [Ana.stmt.eq_def]
    rw [calmS] at hq
    exact Calm.bind (stmts_calm haf ss hs hr.2 hq hd) fun _ _ _ hs => .pure hs
  | .call e, loop, seen, s, hs, hr, hq, hd => by
    rw [Ana.stmt.eq_def]
    have e0 : seen ++ (declsS (.call e)).map Prod.fst = seen := by simp [declsS]
    rw [e0]
    rw [calmS] at hq
    cases e with
    | call k cv st name ref args =>
      exact Calm.bind (call_calm (haf seen) args hs hr.2.2 hq) fun _ _ _ h => .pure h.1
    | _ => exact hr.elim

theorem stmts_calm {bad : Option Key} (haf : ∀ seen, AfCalm K S bad.toList own seen af) {ret : CType} : (ss : List AStmt) →
    {loop : Bool} → {seen : List Key} → {s : ASt} → CalmSt K S bad.toList own seen s → RawSs ss →
    calmSs K own bad seen ss = true → (∀ d ∈ declsSs ss, d ∈ K.kinds) →
    Calm (fun _ => CalmSt K S bad.toList own (seen ++ (declsSs ss).map Prod.fst)) (Ana.stmts n af ret .full loop ss) s
  | [], loop, seen, s, hs, hr, hq, hd => by
    rw [Ana.stmts.eq_def]
    exact .pure (by simpa [declsSs] using hs)
  | t :: ss, loop, seen, s, hs, hr, hq, hd => by
    rw [Ana.stmts.eq_def]
    simp only [calmSs, Bool.and_eq_true] at hq
    refine Calm.bind (stmt_calm haf t hs hr.1 hq.1 fun d h => hd d (by simp [declsSs, h])) fun _ _ _ hs => ?_
    refine Calm.bind (stmts_calm haf ss hs hr.2 hq.2 fun d h => hd d (by simp [declsSs, h])) fun _ _ _ hs => .pure ?_
    simpa [declsSs] using hs

end

/-! ## Functions -/

theorem updateFn_calm {k : Key} {g : AFn → AFn} {s : ASt} {f : AFn} (hf : s.fns k = some f) {P : Unit → ASt → Prop}
    (h : P () (s.setFn k (g f))) : Calm P (Ana.updateFn k g) s := by
  unfold Ana.updateFn
  refine Calm.bind (P := fun t s' => s = t ∧ s = s') (.read ⟨rfl, rfl⟩) fun _ _ _ h => ?_
  obtain ⟨rfl, rfl⟩ := h
  refine Calm.bind (P := fun g s' => s = s' ∧ f = g) (.value hf ⟨rfl, rfl⟩) fun _ _ _ h => ?_
  obtain ⟨rfl, rfl⟩ := h
  exact .modify h

theorem setFn_other (s : ASt) {j k : Key} (f : AFn) (h : j ≠ k) : (s.setFn k f).fns j = s.fns j := by
  simp [ASt.setFn, h]

/-- A function is replaced by one with the same keys. -/
theorem CalmSt.setFn {Y : List Key} {s : ASt} (h : CalmSt K S X own seen s) {k : Key} {f f' : AFn}
    (hf : s.fns k = some f) (hf' : FnCalm K Y k f') (hXY : ∀ j, j ≠ k → j ∈ X → j ∈ Y)
    (hlev : k ∈ S → 1 ≤ f'.level.rank) : CalmSt K S Y own seen (s.setFn k f') :=
  h.fn hf rfl (setFn_same s k f') (fun _ hj => setFn_other s f' hj) hf' hXY hlev

theorem FnCalm.withParams {j : Key} {f : AFn} (h : FnCalm K X j f) {ps : List AParam}
    (hk : ps.map AParam.k = f.params.map AParam.k) (ht : ∀ p ∈ ps, TypeOk K p.type)
    (hd : 1 ≤ f.level.rank → ∀ p ∈ ps, ∃ t, SigC p.type t) : FnCalm K X j { f with params := ps } := by
  refine ⟨h.key, h.plain, h.inst, fun p hp a ha => ?_, ht, h.ret, h.req, fun hl => ?_, fun hl => ?_⟩
  · have : p.k ∈ f.params.map AParam.k := hk ▸ List.mem_map.2 ⟨p, hp, rfl⟩
    obtain ⟨q, hq, e⟩ := List.mem_map.1 this
    exact h.keys q hq a (e ▸ ha)
  · obtain ⟨h1, h2, h3⟩ := h.body hl
    refine ⟨h1, ?_, h3⟩
    show calmSs K (ps.map AParam.k) _ _ _ = true
    rw [hk]
    exact h2
  · obtain ⟨-, h2, h3⟩ := h.done hl
    exact ⟨hd hl, h2, h3⟩

/-- Only parameters of a function have been changed. -/
structure SameFn (f g : AFn) : Prop where
  level : g.level = f.level
  body : g.body = f.body
  requires_ : g.requires_ = f.requires_
  ret : g.ret = f.ret
  keys : g.params.map AParam.k = f.params.map AParam.k

theorem params_calm {k : Key} : (ps : List AParam) → {before : List AParam} → {s : ASt} → {f : AFn} →
    CalmSt K S X own seen s → s.fns k = some f → f.params = before ++ ps → (∀ p ∈ before, ∃ t, SigC p.type t) →
    OwnOk (before.map AParam.k) s → (∀ p ∈ before ++ ps, ∀ a, (p.k, a) ∉ K.kinds) →
    Calm (fun _ s' => CalmSt K S X own seen s' ∧ ∃ g, s'.fns k = some g ∧ SameFn f g ∧
      (∀ p ∈ g.params, ∃ t, SigC p.type t) ∧ OwnOk (f.params.map AParam.k) s') (Ana.params n af k before ps) s
  | [], before, s, f, hs, hf, hp, hb, ho, hk => by
    rw [Ana.params]
    refine .pure ⟨hs, f, hf, ⟨rfl, rfl, rfl, rfl, rfl⟩, fun p h => hb p (by simpa [hp] using h), ?_⟩
    rw [hp, List.append_nil]
    exact ho
  | p :: ps, before, s, f, hs, hf, hp, hb, ho, hk => by
    rw [Ana.params]
    have hq := hs.fns k f hf
    refine Calm.bind (type_calm hs.names (hq.params p (by simp [hp]))) fun ty _ _ h => ?_
    obtain ⟨rfl, t, ht⟩ := h
    have hkeys : (before ++ { p with type := ty } :: ps).map AParam.k = f.params.map AParam.k := by simp [hp]
    have hfc : FnCalm K X k { f with params := before ++ { p with type := ty } :: ps } := by
      refine hq.withParams hkeys (fun q hm => ?_) fun hl q hm => ?_
      · rcases List.mem_append.1 hm with hm | hm
        · exact .inr (hb q hm)
        · rcases List.mem_cons.1 hm with rfl | hm
          · exact .inr ⟨t, ht⟩
          · exact hq.params q (by simp [hp, hm])
      · rcases List.mem_append.1 hm with hm | hm
        · exact hb q hm
        · rcases List.mem_cons.1 hm with rfl | hm
          · exact ⟨t, ht⟩
          · exact (hq.done hl).1 q (by simp [hp, hm])
    have hlev : k ∈ S → 1 ≤ f.level.rank := by
      intro hm
      obtain ⟨f', hf', hl⟩ := hs.self k hm
      rw [hf] at hf'
      cases hf'
      exact hl
    refine Calm.bind (P := fun _ s' => s' = s.setFn k { f with params := before ++ { p with type := ty } :: ps })
      (updateFn_calm hf rfl) fun _ _ _ h => ?_
    subst h
    have hs1 := hs.setFn hf hfc (fun _ _ h => h) hlev
    refine Calm.bind (P := fun _ s' => s' = (s.setFn k { f with params := before ++ { p with type := ty } :: ps }).setDecl p.k
      ⟨.param, some (Value.unknownOf t)⟩) (.modify ?_) fun _ _ _ h => ?_
    · rw [ht.1]
    subst h
    have hs2 := hs1.param (p := p.k) ht.2.2 (hk p (by simp))
    refine (params_calm ps (before := before ++ [{ p with type := ty }]) hs2 (setFn_same s k _) (by simp)
      (fun q hm => ?_) (fun q hm => ?_) ?_).mono fun _ s' _ h => ?_
    · rcases List.mem_append.1 hm with hm | hm
      · exact hb q hm
      · rw [List.mem_singleton] at hm
        subst hm
        exact ⟨t, ht⟩
    · by_cases e : q = p.k
      · exact ⟨t, ht.2.2, by simp [ASt.setDecl, e]⟩
      · have hm : q ∈ before.map AParam.k := by
          simp only [List.map_append, List.map_cons, List.map_nil, List.mem_append, List.mem_singleton] at hm
          exact hm.resolve_right e
        obtain ⟨u, hu, hd⟩ := ho q hm
        exact ⟨u, hu, by simpa [ASt.setDecl, ASt.setFn, e] using hd⟩
    · intro q hm a
      rcases List.mem_append.1 hm with hm | hm
      · rcases List.mem_append.1 hm with hm | hm
        · exact hk q (by simp [hm]) a
        · rw [List.mem_singleton] at hm
          subst hm
          exact hk p (by simp) a
      · exact hk q (by simp [hm]) a
    · obtain ⟨h1, g, h2, h3, h4, h5⟩ := h
      refine ⟨h1, g, h2, ⟨h3.level, h3.body, h3.requires_, h3.ret, h3.keys.trans hkeys⟩, h4, ?_⟩
      rw [← hkeys]
      exact h5

/-- A function whose signature and requires-clause have been analyzed. -/
structure Ready (f g : AFn) (ret : AType) : Prop where
  level : g.level = f.level
  body : g.body = f.body
  keys : g.params.map AParam.k = f.params.map AParam.k
  params : ∀ p ∈ g.params, ∃ t, SigC p.type t
  type : g.ret = ret
  sig : ∃ t, SigC ret t
  req : g.requires_.isSome = f.requires_.isSome
  reqs : ∀ e ∈ g.requires_, ∃ v, e.cv = some v
  value : g.requires_.isSome = true → ∃ v, g.cv = some v ∧ v.type.WF

theorem requires_calm {k : Key} {f g : AFn} {ret : AType} {e : AExpr} {s : ASt} (hs : CalmSt K S X own seen s)
    (hg : s.fns k = some g) (he : g.requires_ = some e) (hl : g.level = f.level) (hb : g.body = f.body)
    (hk : g.params.map AParam.k = f.params.map AParam.k) (hp : ∀ p ∈ g.params, ∃ t, SigC p.type t) (hr : g.ret = ret)
    (ht : ∃ t, SigC ret t) (hf : f.requires_ = some e) :
    Calm (fun _ s' => CalmSt K S X own seen s' ∧ s'.decl = s.decl ∧ ∃ g', s'.fns k = some g' ∧ Ready f g' ret)
      (Ana.requires_ n af k e) s := by
  unfold Ana.requires_
  have hq := hs.fns k g hg
  have hlev : k ∈ S → 1 ≤ g.level.rank := by
    intro hm
    obtain ⟨f', hf', hl⟩ := hs.self k hm
    rw [hg] at hf'
    cases hf'
    exact hl
  cases hc : e.cv with
  | some v =>
    have hv : (∃ v, e.cv = some v) ∧ ∃ v, g.cv = some v ∧ v.type.WF := by
      rcases hq.req e he with ⟨h, -⟩ | h
      · rw [rawE_cv h] at hc
        cases hc
      · exact h
    refine .pure ⟨hs, rfl, g, hg, hl, hb, hk, hp, hr, ht, by simp [he, hf], fun x hx => ?_, fun _ => hv.2⟩
    rw [he] at hx
    cases hx
    exact hv.1
  | none =>
    have hraw : RawE e ∧ considered (constE K e) = true := by
      rcases hq.req e he with h | ⟨⟨v, hv⟩, -⟩
      · exact h
      · rw [hc] at hv
        cases hv
    refine Calm.bind (constE_considered hs.names hraw.1 hraw.2) fun e' _ _ h => ?_
    obtain ⟨rfl, v, -, hcv, hw⟩ := h
    refine Calm.bind (P := fun _ s' => s' = s.setFn k { g with requires_ := some e', cv := e'.cv })
      (updateFn_calm hg rfl) fun _ _ _ h => ?_
    subst h
    have hval : ∃ w, e'.cv = some w ∧ w.type.WF := ⟨_, hcv, hw.1⟩
    have hfc : FnCalm K X k { g with requires_ := some e', cv := e'.cv } := by
      refine ⟨hq.key, hq.plain, hq.inst, hq.keys, hq.params, hq.ret, fun x hx => ?_, fun h => ?_, fun h => ?_⟩
      · cases hx
        exact .inr ⟨⟨_, hcv⟩, hval⟩
      · obtain ⟨h1, h2, h3⟩ := hq.body h
        refine ⟨h1, ?_, h3⟩
        have : badOf { g with requires_ := some e', cv := e'.cv } = badOf g := by simp [badOf, he]
        rw [this]
        exact h2
      · obtain ⟨h1, h2, h3, h4⟩ := hq.done h
        refine ⟨h1, h2, fun x hx => ?_, .inr hval⟩
        cases hx
        exact ⟨_, hcv⟩
    have hs1 := hs.setFn hg hfc (fun _ _ h => h) hlev
    refine Calm.bind (P := fun _ s' => s.setFn k { g with requires_ := some e', cv := e'.cv } = s')
      (.assert (by rw [hcv]; rfl) rfl) fun _ _ _ h => ?_
    subst h
    refine Calm.bind (P := fun w s' => s.setFn k { g with requires_ := some e', cv := e'.cv } = s' ∧ Value.known v = w)
      (.deref hcv ⟨rfl, rfl⟩) fun _ _ _ h => ?_
    obtain ⟨rfl, rfl⟩ := h
    refine .ite (fun _ => .fail) fun hbool => ?_
    have hbool : v.type = .bool := by simpa [Value.known] using hbool
    refine Calm.bind (P := fun _ s' => s.setFn k { g with requires_ := some e', cv := e'.cv } = s')
      (.get (a := decide (v.int ≠ 0)) (by simp [Value.asBool, Value.known, hbool]) rfl) fun b _ _ h => ?_
    subst h
    refine .ite (fun _ => .fail) fun _ => ?_
    refine .pure ⟨hs1, rfl, _, setFn_same _ _ _, hl, hb, hk, hp, hr, ht, by simp [hf], fun x hx => ?_, fun _ => hval⟩
    cases hx
    exact ⟨_, hcv⟩

end

section

variable {K : Facts} {S X own seen : List Key} {n : Nat}

/-- The signature of a function; then the rest. -/
theorem signature_calm {k : Key} {level : Level} (hl : level ≠ .unanalyzed) {s : ASt} {f : AFn}
    (hs : CalmSt K S X own seen s) (hf : s.fns k = some f) (hlev : f.level.rank < level.rank) {P : Unit → ASt → Prop}
    (hrest : ∀ s' g ret, CalmSt K S X own seen s' → s'.fns k = some g → Ready f g ret → OwnOk (f.params.map AParam.k) s' →
      Calm P (afterSignature n k level f ret) s') : Calm P (Ana.function (n + 1) k level) s := by
  rw [Ana.function]
  have hq := hs.fns k f hf
  refine Calm.bind (P := fun _ s' => s = s') (.assert (by simpa using hl) rfl) fun _ _ _ h => ?_
  subst h
  refine Calm.bind (P := fun t s' => s = t ∧ s = s') (.read ⟨rfl, rfl⟩) fun _ _ _ h => ?_
  obtain ⟨rfl, rfl⟩ := h
  refine Calm.bind (P := fun g s' => s = s' ∧ f = g) (.value hf ⟨rfl, rfl⟩) fun _ _ _ h => ?_
  obtain ⟨rfl, rfl⟩ := h
  rw [if_neg (Nat.not_le.2 hlev), if_neg (by simp [hq.plain])]
  refine Calm.bind (P := fun _ s' => s = s') (.assert (by simp [hq.inst]) rfl) fun _ _ _ h => ?_
  subst h
  refine Calm.bind (params_calm f.params hs hf rfl (by simp) (fun _ h => by cases h) (by simpa using hq.keys))
    fun _ s1 _ h => ?_
  obtain ⟨hs1, g, hg, hsame, hps, hown⟩ := h
  have hqg := hs1.fns k g hg
  refine Calm.bind (type_calm hs1.names (hsame.ret ▸ hqg.ret)) fun ret _ _ h => ?_
  obtain ⟨rfl, ht⟩ := h
  refine Calm.bind (P := fun _ s' => s' = s1.setFn k { g with ret := ret }) (updateFn_calm hg rfl) fun _ _ _ h => ?_
  subst h
  have hfc : FnCalm K X k { g with ret := ret } :=
    ⟨hqg.key, hqg.plain, hqg.inst, hqg.keys, hqg.params, .inr ht, hqg.req, hqg.body, fun h => by
      obtain ⟨h1, -, h3⟩ := hqg.done h
      exact ⟨h1, ht, h3⟩⟩
  have hs2 := hs1.setFn hg hfc (fun _ _ h => h) fun hm => by
    obtain ⟨f', hf', hl⟩ := hs1.self k hm
    rw [hg] at hf'
    cases hf'
    exact hl
  have ho2 : OwnOk (f.params.map AParam.k) (s1.setFn k { g with ret := ret }) := hown
  have hg2 := setFn_same s1 k { g with ret := ret }
  generalize s1.setFn k { g with ret := ret } = s2 at hs2 hg2 ho2
  refine Calm.bind (P := fun _ s' => s' = { s2 with stack := k :: s2.stack }) (.modify rfl) fun _ _ _ h => ?_
  subst h
  have hs3 : CalmSt K S X own seen { s2 with stack := k :: s2.stack } := hs2.same rfl rfl
  have ho3 : OwnOk (f.params.map AParam.k) { s2 with stack := k :: s2.stack } := ho2
  have hg3 : ({ s2 with stack := k :: s2.stack } : ASt).fns k = some { g with ret := ret } := hg2
  generalize ({ s2 with stack := k :: s2.stack } : ASt) = s3 at hs3 hg3 ho3
  cases hreq : f.requires_ with
  | none =>
    have hn : g.requires_ = none := hsame.requires_.trans hreq
    refine hrest s3 _ ret hs3 hg3 ⟨hsame.level, hsame.body, hsame.keys, hps, rfl, ht, by simp [hn, hreq], ?_, ?_⟩ ho3
    · simp [hn]
    · simp [hn]
  | some e =>
    refine Calm.bind (requires_calm (f := f) hs3 hg3 (hsame.requires_.trans hreq) hsame.level hsame.body hsame.keys hps rfl ht hreq)
      fun _ s4 _ h => ?_
    obtain ⟨hs4, hd, g', hg', hr⟩ := h
    exact hrest s4 g' ret hs4 hg' hr fun p hp => by rw [hd]; exact ho3 p hp

/-- Calls only analyze signatures. -/
theorem afCalm (n : Nat) : AfCalm K S X own seen (Ana.function (n + 1)) := by
  intro k f s hs hf hX
  have hq := hs.fns k f hf
  by_cases hlev : Level.shallow.rank ≤ f.level.rank
  · rw [Ana.function]
    refine Calm.bind (P := fun _ s' => s = s') (.assert rfl rfl) fun _ _ _ h => ?_
    subst h
    refine Calm.bind (P := fun t s' => s = t ∧ s = s') (.read ⟨rfl, rfl⟩) fun _ _ _ h => ?_
    obtain ⟨rfl, rfl⟩ := h
    refine Calm.bind (P := fun g s' => s = s' ∧ f = g) (.value hf ⟨rfl, rfl⟩) fun _ _ _ h => ?_
    obtain ⟨rfl, rfl⟩ := h
    rw [if_pos hlev]
    obtain ⟨h1, h2, h3, h4⟩ := hq.done hlev
    exact .pure ⟨hs, f, hf, hlev, h1, h4.resolve_left hX⟩
  · refine signature_calm (by decide) hs hf (Nat.lt_of_not_le hlev) fun s' g ret hs hg hr _ => ?_
    unfold afterSignature
    have hqg := hs.fns k g hg
    have h0 : f.level.rank < 1 := Nat.lt_of_not_le hlev
    have hS : k ∉ S := by
      intro hm
      obtain ⟨f', hf', hl⟩ := hs.self k hm
      rw [hg] at hf'
      cases hf'
      rw [hr.level] at hl
      exact absurd hl (Nat.not_le.2 h0)
    obtain ⟨t, ht⟩ := hr.sig
    refine Calm.bind (P := fun _ s'' => ∃ l, s'' = s'.setFn k { g with level := l }) (updateFn_calm hg ⟨_, rfl⟩) fun _ _ _ h => ?_
    obtain ⟨l, rfl⟩ := h
    rw [if_neg (by decide)]
    simp only [show Level.shallow ≠ .forConst by decide, if_false]
    refine Calm.bind (P := fun _ s'' => s'' = s'.setFn k { g with cv := ret.cv, level := .shallow })
      (updateFn_calm (setFn_same _ _ _) ?_) fun _ _ _ h => ?_
    · rw [setFn_setFn]
    subst h
    have hval : ∃ v, ret.cv = some v ∧ v.type.WF := ⟨_, ht.1, ht.2.2⟩
    have hfc : FnCalm K X k { g with cv := ret.cv, level := .shallow } := by
      refine ⟨hqg.key, hqg.plain, hqg.inst, hqg.keys, hqg.params, hqg.ret, fun e he => ?_, fun _ => ?_, fun _ => ?_⟩
      · exact (hqg.req e he).imp id fun h => ⟨h.1, hval⟩
      · exact hqg.body (by rw [hr.level]; exact Nat.lt_trans h0 (by decide))
      · exact ⟨hr.params, by rw [show ({ g with cv := ret.cv, level := .shallow } : AFn).ret = ret from hr.type]; exact hr.sig,
          hr.reqs, .inr hval⟩
    have hs1 := hs.setFn hg hfc (fun _ _ h => h) fun hm => absurd hm hS
    exact .modify ⟨hs1.same rfl rfl, _, setFn_same _ _ _, Nat.le_refl 1, hr.params, hval⟩

/-- Analysis of functions is calm. -/
theorem function_calm (n : Nat) {k : Key} {f : AFn} {s : ASt} (hs : CalmSt K [] [] [] [] s) (hf : s.fns k = some f) :
    Calm (fun _ => CalmSt K [] [] [] []) (Ana.function (n + 2) k .full) s := by
  have hq := hs.fns k f hf
  by_cases hlev : Level.full.rank ≤ f.level.rank
  · rw [Ana.function]
    refine Calm.bind (P := fun _ s' => s = s') (.assert rfl rfl) fun _ _ _ h => ?_
    subst h
    refine Calm.bind (P := fun t s' => s = t ∧ s = s') (.read ⟨rfl, rfl⟩) fun _ _ _ h => ?_
    obtain ⟨rfl, rfl⟩ := h
    refine Calm.bind (P := fun g s' => s = s' ∧ f = g) (.value hf ⟨rfl, rfl⟩) fun _ _ _ h => ?_
    obtain ⟨rfl, rfl⟩ := h
    rw [if_pos hlev]
    exact .pure hs
  · refine signature_calm (by decide) hs hf (Nat.lt_of_not_le hlev) fun s' g ret hs hg hr hown => ?_
    unfold afterSignature
    have hqg := hs.fns k g hg
    have h0 : f.level.rank < 2 := Nat.lt_of_not_le hlev
    obtain ⟨t, ht⟩ := hr.sig
    have hlv : 1 ≤ (if g.level = .unanalyzed then Level.shallow else g.level).rank ∧
        (if g.level = .unanalyzed then Level.shallow else g.level).rank < 2 := by
      have h2 : g.level.rank < 2 := hr.level ▸ h0
      revert h2
      cases g.level <;> simp [Level.rank]
    generalize hle : (if g.level = .unanalyzed then Level.shallow else g.level) = l at hlv
    refine Calm.bind (P := fun _ s'' => s'' = s'.setFn k { g with level := l })
      (updateFn_calm hg (by rw [hle])) fun _ _ _ h => ?_
    subst h
    have hbad : badOf g = badOf f := by simp [badOf, hr.req, hqg.key, hq.key]
    have hfc : FnCalm K (badOf f).toList k { g with level := l } := by
      refine ⟨hqg.key, hqg.plain, hqg.inst, hqg.keys, hqg.params, hqg.ret, hqg.req, fun _ => ?_, fun _ => ?_⟩
      · exact hqg.body (hr.level ▸ h0)
      · refine ⟨hr.params, by rw [show ({ g with level := l } : AFn).ret = ret from hr.type]; exact hr.sig, hr.reqs, ?_⟩
        cases hreq : g.requires_.isSome with
        | true => exact .inr (hr.value hreq)
        | false =>
          left
          rw [← hbad]
          simp [badOf, hreq, hqg.key]
    have hs1 : CalmSt K [] (badOf f).toList [] [] (s'.setFn k { g with level := l }) :=
      hs.setFn hg hfc (fun _ _ h => by cases h) fun h => by cases h
    have hs2 : CalmSt K [k] (badOf f).toList (f.params.map AParam.k) [] (s'.setFn k { g with level := l }) := by
      refine ⟨hs1.names, hs1.fns, hown, fun p hp a => ?_, fun _ h => (by cases h), fun j hj => ?_⟩
      · obtain ⟨q, hm, rfl⟩ := List.mem_map.1 hp
        exact hq.keys q hm a
      · rw [List.mem_singleton] at hj
        subst hj
        exact ⟨_, setFn_same _ _ _, hlv.1⟩
    rw [if_pos (by decide)]
    simp only [show Level.full ≠ .forConst by decide, if_false]
    generalize s'.setFn k { g with level := l } = s2 at hs2
    refine Calm.bind (P := fun o s' => s2 = s' ∧ some t = o) (.get ht.2.1 ⟨rfl, rfl⟩) fun _ _ _ h => ?_
    obtain ⟨rfl, rfl⟩ := h
    refine Calm.bind (P := fun o s' => s2 = s' ∧ t = o) (.value rfl ⟨rfl, rfl⟩) fun _ _ _ h => ?_
    obtain ⟨rfl, rfl⟩ := h
    obtain ⟨hb1, hb2, hb3⟩ := hq.body h0
    refine Calm.bind (stmts_calm (fun seen => afCalm n) f.body hs2 hb1 hb2 hb3) fun body s3 _ hs3 => ?_
    obtain ⟨g3, hg3, hl3⟩ := hs3.self k (by simp)
    have hq3 := hs3.fns k g3 hg3
    refine Calm.bind (P := fun _ s'' => s'' = s3.setFn k { g3 with body := body }) (updateFn_calm hg3 rfl) fun _ _ _ h => ?_
    subst h
    refine Calm.bind (P := fun _ s'' => s'' = s3.setFn k { g3 with body := body, cv := ret.cv, level := .full })
      (updateFn_calm (setFn_same _ _ _) ?_) fun _ _ _ h => ?_
    · rw [setFn_setFn]
    subst h
    have hval : ∃ v, ret.cv = some v ∧ v.type.WF := ⟨_, ht.1, ht.2.2⟩
    have hfc3 : FnCalm K [] k { g3 with body := body, cv := ret.cv, level := .full } := by
      obtain ⟨d1, d2, d3, -⟩ := hq3.done hl3
      refine ⟨hq3.key, hq3.plain, hq3.inst, hq3.keys, hq3.params, hq3.ret, fun e he => ?_, fun h => absurd h (by show ¬ 2 < 2; decide), fun _ => ?_⟩
      · exact (hq3.req e he).imp id fun h => ⟨h.1, hval⟩
      · exact ⟨d1, d2, d3, .inr hval⟩
    have hs4 : CalmSt K [k] [] (f.params.map AParam.k) _ (s3.setFn k { g3 with body := body, cv := ret.cv, level := .full }) :=
      hs3.setFn hg3 hfc3 (fun j hj h => by
        simp only [badOf] at h
        split at h
        · cases h
        · simp only [Option.toList_some, List.mem_singleton] at h
          exact absurd (h.trans hq.key) hj) fun _ => (by decide : 1 ≤ Level.full.rank)
    have hs4 := hs4.same (s' := { s3.setFn k { g3 with body := body, cv := ret.cv, level := .full } with
      stack := (s3.setFn k { g3 with body := body, cv := ret.cv, level := .full }).stack.tail }) rfl rfl
    exact .modify ⟨hs4.names, hs4.fns, fun _ h => (by cases h), fun _ h => (by cases h),
      fun _ h => (by cases h), fun _ h => (by cases h)⟩

/-! ## Programs -/

theorem decls_calm (n : Nat) : (ds : List ADecl) → {s : ASt} → CalmSt K [] [] [] [] s → (∀ d ∈ ds, RawD d) →
    (∀ d ∈ ds, calmD K d = true) → (∀ k cv name ty init, ADecl.const_ k cv name ty init ∈ ds → (k, .const_) ∈ K.kinds) →
    (∀ f, ADecl.function f ∈ ds → f.k ∈ K.fns) →
    Calm (fun _ => CalmSt K [] [] [] []) (Ana.decls (n + 2) ds) s
  | [], s, hs, _, _, _, _ => by
    rw [Ana.decls]
    exact .pure hs
  | d :: ds, s, hs, hr, hq, hc, hf => by
    rw [Ana.decls]
    refine Calm.bind (P := fun _ => CalmSt K [] [] [] []) ?_ fun _ s' _ hs => decls_calm n ds hs (fun d hd => hr d (by simp [hd]))
      (fun d hd => hq d (by simp [hd])) (fun k cv name ty init hd => hc k cv name ty init (by simp [hd])) fun f hd => hf f (by simp [hd])
    have hrd := hr d (by simp)
    have hqd := hq d (by simp)
    cases d with
    | const_ k cv name ty init =>
      obtain ⟨rfl, ht, hi⟩ := hrd
      refine Calm.bind (const_calm hs.names ht hi hqd) fun r _ _ h => ?_
      obtain ⟨rfl, c, hv, hcv, hw⟩ := h
      obtain ⟨v, ty', init'⟩ := r
      simp only at hcv
      subst hcv
      have := hs.const hw hv (hc k none name ty init (by simp))
      exact .modify ⟨this.names, this.fns, this.ownOk, this.ownKeys, fun _ h => (by cases h), this.self⟩
    | staticAssert k cv e =>
      obtain ⟨rfl, hi⟩ := hrd
      refine Calm.bind (staticAssert_calm hs.names hi hqd) fun r _ _ h => ?_
      subst h
      exact .pure hs
    | function f =>
      have := hs.names.fns f.k (hf f (by simp))
      obtain ⟨g, hg⟩ := Option.isSome_iff_exists.1 this
      exact function_calm n hs hg

end

end Bms
