import Verif.Lemmas.CSemSound

/-!
# Lemmas: programs compute the same in C
-/

namespace Bms.C

open Spec (WF Meaning Res Frame Flow execSs Prog fnDef typeOf bindParams finish)

theorem functionOf_mem {k : Key} {ds : List ADecl} {f : AFn} (h : functionOf k ds = some f) :
    ADecl.function f ∈ ds ∧ f.generic = false ∧ f.k = k := by
  induction ds with
  | nil => cases h
  | cons d ds ih =>
    cases d with
    | function g =>
      simp only [functionOf] at h
      by_cases hg : g.k = k ∧ g.generic = false
      · rw [if_pos hg] at h
        cases h
        exact ⟨.head _, hg.2, hg.1⟩
      · rw [if_neg hg] at h
        obtain ⟨h1, h2⟩ := ih h
        exact ⟨.tail _ h1, h2⟩
    | _ =>
      simp only [functionOf] at h
      obtain ⟨h1, h2⟩ := ih h
      exact ⟨.tail _ h1, h2⟩

theorem functionOf_self {ds : List ADecl} {f : AFn} (hm : ADecl.function f ∈ ds) (hg : f.generic = false) :
    ∃ g, functionOf f.k ds = some g := by
  induction ds with
  | nil => cases hm
  | cons d ds ih =>
    cases d with
    | function g =>
      simp only [functionOf]
      by_cases hgk : g.k = f.k ∧ g.generic = false
      · rw [if_pos hgk]; exact ⟨g, rfl⟩
      · rw [if_neg hgk]
        cases hm with
        | head => exact absurd ⟨rfl, hg⟩ hgk
        | tail _ hm => exact ih hm
    | _ =>
      simp only [functionOf]
      cases hm with
      | tail _ hm => exact ih hm

/-- The function in C. -/
theorem findFn_of {cs : Consts} {ds : List ADecl} {c : List CDecl} (h : MeansDs cs false ds c) {f : AFn}
    (hn : ∀ g, ADecl.function g ∈ ds → g.generic = false → g.name = f.name → g = f)
    (hm : ADecl.function f ∈ ds) (hg : f.generic = false) :
    ∃ ct ty ps b, findFn f.name c = some (ty, ps, .block b) ∧ TypeOf f.ret ct ∧ TypeIs ct ty ∧
      MeansPs f.params ps ∧ MeansSs cs false f.body b := by
  induction h with
  | nil => cases hm
  | @cons s ss t ts hs hss ih =>
    have tail : ADecl.function f ∈ ss → ∃ ct ty ps b, findFn f.name ts = some (ty, ps, .block b) ∧ TypeOf f.ret ct ∧
        TypeIs ct ty ∧ MeansPs f.params ps ∧ MeansSs cs false f.body b :=
      fun hm => ih (fun g h1 h2 h3 => hn g (.tail _ h1) h2 h3) hm
    cases hs with
    | constDropped =>
      cases hm with
      | tail _ hm => exact tail hm
    | staticAssert =>
      cases hm with
      | tail _ hm => exact tail hm
    | generic hgen =>
      cases hm with
      | head => rw [hg] at hgen; cases hgen
      | tail _ hm => exact tail hm
    | @function _ g ct ty ps b h1 h2 h3 h4 h5 =>
      rw [List.singleton_append]
      simp only [findFn]
      by_cases he : g.name = f.name
      · have := hn g (.head _) h1 he
        subst this
        rw [if_pos rfl]
        exact ⟨ct, ty, ps, b, rfl, h2, h3, h4, h5⟩
      · rw [if_neg he]
        cases hm with
        | head => exact absurd rfl he
        | tail _ hm => exact tail hm

theorem findFn_none {cs : Consts} {ds : List ADecl} {c : List CDecl} (h : MeansDs cs false ds c) {x : Name}
    (hx : ∀ g, ADecl.function g ∈ ds → g.generic = false → g.name ≠ x) : findFn x c = none := by
  induction h with
  | nil => rfl
  | @cons s ss t ts hs hss ih =>
    have tail := ih fun g h1 h2 => hx g (.tail _ h1) h2
    cases hs with
    | constDropped => exact tail
    | staticAssert => exact tail
    | generic => exact tail
    | @function _ g ct ty ps b h1 h2 h3 h4 h5 =>
      rw [List.singleton_append]
      simp only [findFn]
      rw [if_neg (hx g (.head _) h1)]
      exact tail

theorem params_types {ps : List AParam} {qs : List (Ty × List Char)} (h : MeansPs ps qs)
    (ht : ∀ p ∈ ps, TypeOf p.type (typeOf p.type)) :
    List.Forall₂ TypeIs (ps.map fun p => typeOf p.type) (qs.map Prod.fst) := by
  induction h with
  | nil => exact .nil
  | @cons p c ps cs hp hps ih =>
    cases hp with
    | mk h1 h2 =>
      have := typeOf_fun h1 (ht p (.head _))
      subst this
      exact .cons h2 (ih fun q hq => ht q (.tail _ hq))

/-- The variables of a call. -/
theorem bind_agrees {A : Around} {ps : List AParam} {qs : List (Ty × List Char)} (h : MeansPs ps qs)
    (ht : ∀ p ∈ ps, TypeOf p.type (typeOf p.type) ∧ A.vars p.k = some (typeOf p.type) ∧ Wide (typeOf p.type))
    (hnd : (ps.map AParam.k).Nodup) :
    ∀ vs cvs, vs.map CVal.type = ps.map (fun p => typeOf p.type) → (∀ v ∈ vs, WF v) → List.Forall₂ (Rep true) vs cvs →
      EnvIs A (bindParams (ps.map fun p => (p.k, typeOf p.type)) vs) (ps.map fun p => (p.name, some p.k))
        (bindC qs cvs) := by
  induction h with
  | nil =>
    intro vs cvs h1 _ h3
    cases vs with
    | nil =>
      cases h3
      exact ⟨.nil, by simp⟩
    | cons v vs => cases h1
  | @cons p c ps cs hp hps ih =>
    intro vs cvs h1 h2 h3
    cases vs with
    | nil => cases h1
    | cons v vs =>
      cases h3 with
      | @cons _ d _ ds hd hds =>
        cases hp with
        | @mk ct ty g1 g2 =>
          obtain ⟨t1, t2, t3⟩ := ht p (.head _)
          have := typeOf_fun g1 t1
          subst this
          simp only [List.map_cons, List.cons.injEq] at h1
          rw [List.map_cons, List.nodup_cons] at hnd
          have rest := ih (fun q hq => ht q (.tail _ hq)) hnd.2 vs ds h1.2 (fun v hv => h2 v (.tail _ hv)) hds
          simp only [List.map_cons, bindParams, bindC]
          refine rest.declare ?_ (fun j hj => set_other hj) t2 (wide_not_void t3) (typeIs_fits g2 (.inr t3)) ?_
          · intro hm
            rw [List.map_map] at hm
            obtain ⟨q, hq, he⟩ := List.mem_map.mp hm
            refine hnd.1 (List.mem_map.mpr ⟨q, hq, ?_⟩)
            simpa using he
          · intro u hu
            simp only [Frame.set, if_true] at hu
            cases hu
            have hwf := h2 v (.head _)
            refine ⟨hwf, h1.1, by rw [hd.2.1], ?_⟩
            have hf := hd.1
            have hh := hd.2.2
            rw [h1.1] at hf
            rw [hd.2.1] at hh
            have hin := hwf.2
            rw [h1.1] at hin
            generalize typeOf p.type = tt at g2 hf hin t3 ⊢
            cases g2 with
            | void => exact t3.elim
            | bool => exact hin
            | int =>
              have hf : d.type = .int := hf
              rw [hf] at hh
              exact hh
            | exact => exact hin
            | bits => exact hin

theorem bindParams_wf (ps : List (Key × CType)) (vs : List CVal) (h : ∀ v ∈ vs, WF v) :
    FrameWF (bindParams ps vs) := by
  induction ps generalizing vs with
  | nil => intro k v hv; simp [bindParams] at hv; cases hv
  | cons p ps ih =>
    cases vs with
    | nil => intro k v hv; simp [bindParams] at hv; cases hv
    | cons v vs => exact (ih vs fun u hu => h u (.tail _ hu)).set (h v (.head _))

/-- Calls compute the same in C. -/
theorem call_agrees {cs : Consts} {strict : Bool} {ds : List ADecl} {c : List CDecl} (hP : SameProgram cs strict ds)
    (hc : MeansDs cs false ds c) : ∀ n k f vs v, functionOf k ds = some f →
      vs.map CVal.type = f.params.map (fun p => typeOf p.type) → (∀ v ∈ vs, WF v) →
      (programOf cs ds).callN n k vs = .ok v → WF v ∧ v.type = typeOf f.ret ∧
      ∀ cvs, List.Forall₂ (Rep true) vs cvs → Agrees strict (Rep true v) (callC c n f.name cvs) := by
  intro n
  induction n with
  | zero => intro k f vs v _ _ _ h; cases h
  | succ n ih =>
    intro k f vs v hf hvt hvw h
    obtain ⟨hm, hg, hk⟩ := functionOf_mem hf
    obtain ⟨vars, ρ, hvars, hpar, hnd, hret, hrv, hbody⟩ := hP.bodies f hm hg
    obtain ⟨ct, ty, ps, b, g1, g2, g3, g4, g5⟩ :=
      findFn_of hc (fun g h1 h2 h3 => hP.names g f h1 hm h2 hg h3) hm hg
    have := typeOf_fun g2 hret
    subst this
    have hfns : (programOf cs ds).fns k = some (fnDef f) := by simp [programOf, hf]
    have hM : Matches ⟨cs, vars, fnsOf ds, strict⟩ ((programOf cs ds).meaning ((programOf cs ds).callN n))
        (functions c (callC c n)) := by
      refine ⟨rfl, hvars, ?_, ?_⟩
      · intro ha
        have : findFn "assert".toList c = none := findFn_none hc fun g h1 h2 h3 => by
          obtain ⟨g', hg'⟩ := functionOf_self h1 h2
          obtain ⟨q1, q2, q3⟩ := functionOf_mem hg'
          have := hP.keys g' g q1 h1 q2 h2 q3
          subst this
          refine ha g'.k (g'.params.map fun p => typeOf p.type) (typeOf g'.ret) ?_
          simp only [fnsOf, hg', Option.map_some, h3]
        unfold functions
        rw [this]
        exact if_pos rfl
      · intro m x ts t hfn
        obtain ⟨g, hg', hx⟩ := Option.map_eq_some_iff.mp (show (functionOf m ds).map _ = _ from hfn)
        cases hx
        obtain ⟨q1, q2, q3⟩ := functionOf_mem hg'
        obtain ⟨_, _, _, hpar', _, hret', _, _⟩ := hP.bodies g q1 q2
        obtain ⟨ct', ty', ps', b', p1, p2, p3, p4, p5⟩ :=
          findFn_of hc (fun g' h1 h2 h3 => hP.names g' g h1 q1 h2 q2 h3) q1 q2
        have := typeOf_fun p2 hret'
        subst this
        refine ⟨?_, ?_, ⟨ty', ps'.map Prod.fst, callC c n g.name⟩, ?_, p3, params_types p4 fun p hp => (hpar' p hp).1,
          fun vs v h1 h2 h3 => ih m g vs v hg' h1 h2 h3⟩
        · show ((programOf cs ds).fns m).map _ = _
          have : (programOf cs ds).fns m = some (fnDef g) := by simp [programOf, hg']
          rw [this]
          simp [fnDef]
        · intro s hs
          obtain ⟨p, hp, rfl⟩ := List.mem_map.mp hs
          exact typeOf_wf (hpar' p hp).1
        · unfold functions
          rw [p1]
    simp only [Prog.callN, hfns] at h
    have hlen : vs.length = (fnDef f).params.length := by
      have := congrArg List.length hvt
      simpa [fnDef] using this
    rw [if_pos hlen] at h
    obtain ⟨fl, h1, h2⟩ := Res.bind_eq_ok.mp h
    have hrw := typeOf_wf hret
    have key : ∀ cvs, List.Forall₂ (Rep true) vs cvs →
        Agrees strict (FlowIs ⟨cs, vars, fnsOf ds, strict⟩ (typeOf f.ret) true
          (f.params.map fun p => (p.name, some p.k)) ρ fl)
          (execCs (functions c (callC c n)) ty (n + 1) b (bindC ps cvs)) := fun cvs hcvs =>
      sameSs_agrees (n + 1) hM g3 hrw hbody b g5 _ _ fl (bind_agrees g4 hpar hnd vs cvs hvt hvw hcvs) h1
    have hbodyT : WF v ∧ v.type = typeOf f.ret := by
      have hfl := sameSs_wf (n + 1) hM hrw hbody _ fl (bindParams_wf _ vs hvw) h1
      cases fl with
      | normal σ =>
        simp only [finish, fnDef] at h2
        by_cases hv : typeOf f.ret = .void
        · simp only [hv, if_true] at h2
          cases h2
          exact ⟨⟨trivial, rfl⟩, hv.symm⟩
        · simp only [hv, if_false] at h2; cases h2
      | return_ u => cases h2; exact hfl
      | break_ => cases h2
      | continue_ => cases h2
    refine ⟨hbodyT.1, hbodyT.2, fun cvs hcvs => ?_⟩
    have hl2 : cvs.length = ps.length := by
      have a1 := forall₂_length hcvs
      have a2 := forall₂_length (params_types g4 fun p hp => (hpar p hp).1)
      simp [fnDef] at hlen
      simp at a2
      omega
    simp only [callC, g1]
    rw [if_pos hl2]
    simp only [execC]
    refine Agrees.bind (P := fun cf => ∃ cf', cf = cf'.leave (bindC ps cvs).length ∧ FlowIs ⟨cs, vars, fnsOf ds, strict⟩
      (typeOf f.ret) true (f.params.map fun p => (p.name, some p.k)) ρ fl cf')
      ((key cvs hcvs).bind fun cf hcf => ⟨cf, rfl, hcf⟩) ?_
    rintro _ ⟨cf, rfl, hcf⟩
    cases fl with
    | normal σ =>
      cases cf with
      | normal E =>
        simp only [finish, fnDef] at h2
        by_cases hv : typeOf f.ret = .void
        · simp only [hv, if_true] at h2
          cases h2
          have : ty = .void := by rw [hv] at g3; cases g3; rfl
          subst this
          exact ⟨rfl, rfl, rfl⟩
        · simp only [hv, if_false] at h2; cases h2
      | _ => exact hcf.elim
    | return_ u =>
      cases cf with
      | return_ d =>
        cases h2
        exact hcf.2.2
      | _ => exact hcf.elim
    | break_ => cases h2
    | continue_ => cases h2

end Bms.C
