import Verif.Props.Analysis

/-!
# C57: values of constants, widths of types, static assertions
-/

namespace Bms

open Spec

theorem Inv.values {N : Nat} {s : ASt} (h : Inv N s) (hF : Final s) {k : Key} {f : AFn}
    (hf : s.fns k = some f) (hg : f.generic = false) (hl : f.level ≠ .unanalyzed) :
    ValuesF (progOf s) f := by
  have hp := (h.fn k f hf).plain hg
  refine ⟨fun p hm => ?_, ?_, fun e he => ?_, fun hr => hp.valsBody hr s hF (.refl _)⟩
  · obtain ⟨t, ht⟩ := hp.sigParams hl p hm
    exact hp.valsParams p hm (by rw [ht.1]; rfl) s hF (.refl _)
  · obtain ⟨t, ht⟩ := hp.sigRet hl
    exact hp.valsRet (by rw [ht.1]; rfl) s hF (.refl _)
  · rcases hp.reqs e he with ⟨h1, -⟩ | h1
    · exact absurd h1 hl
    · exact hp.valsReqs e he h1 s hF (.refl _)

theorem decls_vals {N n : Nat} : ∀ {ds : List ADecl} {s s' : ASt}, Inv N s → s.stack = [] →
    Waiting N s ds → (ds.flatMap nodeKeys).Nodup → KeyInv s → Ana.decls n ds s = .ok () s' → Final s' →
    (∀ f, .function f ∈ ds → ∃ f', s'.fns f.k = some f' ∧ SameF (Redirect s') f f') →
    ∀ d ∈ ds, ValuesD s' d := by
  intro ds
  induction ds with
  | nil => intros; contradiction
  | cons d ds ih =>
    intro s s' h hs hw hn hk hx hF hfs e he
    have hall := decls_ok h hs hw hn hx
    simp only [Ana.decls, AM.bind_ok] at hx
    obtain ⟨_, s1, h1, hx⟩ := hx
    obtain ⟨a1, a2, a3, a4, a5⟩ := decl_ok h hs hw hn h1
    have hsh := shape_decl hk h1
    have hn' := hn
    simp only [List.flatMap_cons, List.nodup_append] at hn'
    rcases List.mem_cons.1 he with rfl | he
    swap
    · exact ih a1 a2 a4 hn'.2.1 hsh.inv hx hF (fun f hf => hfs f (by simp [hf])) e he
    obtain ⟨-, -, b3, -⟩ := decls_ok a1 a2 a4 hn'.2.1 hx
    have hsh' := shape_decls hsh.inv hx
    have hraw := hw.raw e (by simp)
    cases e with
    | const_ k cv name ty init =>
      simp only [RawD] at hraw
      obtain ⟨rfl, hr1, hr2⟩ := hraw
      simp only [Ana.decl, AM.bind_ok] at h1
      obtain ⟨⟨v, ty', init'⟩, s2, h2, h1⟩ := h1
      simp only [AM.modify_ok] at h1
      obtain ⟨c0, c1, c2⟩ := shape_const (shape_function n) hk h2
      have c3 := const_vals (afOk_function N n) h hr1 hr2 h2
      obtain ⟨d1, d2, d3⟩ := const_ok (afOk_function N n) h hr1 hr2 h2
      obtain ⟨e1, e2, e3⟩ := (hw.ext h d2).consts k none name ty init (by simp)
      have hg2 := (setGlobal_ok d1 e2 e3 d3).2
      rw [h1] at hg2
      have hsh2 : Shape s2 s' := by
        refine Shape.trans (s' := s1) ?_ hsh'
        rw [← h1]
        exact .of_fns c0.inv rfl rfl
      refine ⟨v, ty', init', ?_, ?_, ?_, c3 s' hF (hg2.trans b3)⟩
      · exact b3.declSome k _ _ (by rw [← h1]; simp [ASt.setDecl])
      · exact sameO_comp (S := SameT (Redirect s2)) (S' := SameT Eq) (S'' := SameT (Redirect s')) (fun _ _ _ x y => sameT_comp hsh2.lift x y) c1
          (sameO_refl (sameT_refl fun _ => rfl) _)
      · exact sameE_comp hsh2.lift c2 (sameE_refl (fun _ => rfl) _)
    | staticAssert k cv e =>
      simp only [RawD] at hraw
      obtain ⟨rfl, hr⟩ := hraw
      simp only [Ana.decl, AM.bind_ok, AM.pure_ok, true_and] at h1
      obtain ⟨⟨v, e'⟩, s2, h2, rfl⟩ := h1
      obtain ⟨c0, c1⟩ := shape_staticAssert (shape_function n) hk h2
      exact ⟨e', sameE_comp hsh'.lift c1 (sameE_refl (fun _ => rfl) _),
        staticAssert_vals (afOk_function N n) h hr h2 s' hF b3⟩
    | function f =>
      intro hg
      obtain ⟨f', h2, h3, h4⟩ := (a5.grow b3) hg
      obtain ⟨f'', h5, h6⟩ := hfs f (by simp)
      rw [h2] at h5
      cases h5
      refine ⟨f', h2, h6, h4, hall.1.values hF h2 h3 ?_⟩
      rw [Level.ne_unanalyzed]
      exact Nat.le_of_succ_le h4

/-- **C57** (partial). If analysis accepts a program, then all global constants, constants in functions,
and widths of types have the values that the source semantics gives to their initializers and width
expressions, all static assertions hold and all requires-clauses are true, where calls are calls of the
functions of the analyzed program. This includes instances of generic functions. Missing are constants
with a type whose initializer has no value (these are accepted; see `C57_unknown_violation`), and what is
missing in C54 and C56. -/
theorem C57_values_partial {n : Nat} {ds : List ADecl} {next : Nat} {s : ASt} (h : RawProgram ds next)
    (hs : NoSelfReference ds) (hx : Ana.program n ds next = .ok () s)
    (hH : (progOf s).Homogeneous) (hE : (progOf s).Ends) (hF : (progOf s).Fresh)
    (hlen : s.code.length ≤ 2 ^ 62) :
    (∃ ds', Names.program ds = .ok ds' ∧ ∀ d ∈ ds', ValuesD s d) ∧
      ∀ k f, s.fns k = some f → f.generic = false → f.level ≠ .unanalyzed → ValuesF (progOf s) f := by
  obtain ⟨ds', hn, hd⟩ := program_split hx
  have hr := lookup_resolved h hn (hs ds' hn)
  obtain ⟨hi, -, -, ha⟩ := analysis_ok hr hd
  have hfin : Final s := ⟨hi.prog, hH, hE, hF, hlen⟩
  obtain ⟨a1, a2, a3, a4, a5⟩ := initial_inv hr
  have hk : KeyInv (Ana.initial ds' next) :=
    ⟨fun k f hf => (a1.fn k f hf).key, fun k f hf i hi => by
      have := (hr.raw _ (a4 k f hf).1).instances
      rw [this] at hi
      cases hi⟩
  refine ⟨⟨ds', hn, ?_⟩, fun k f hf hg hl => hi.values hfin hf hg hl⟩
  refine decls_vals a1 a2 ⟨hr.raw, fun k cv name ty init hm => ⟨?_, a5 k cv name ty init hm, fun j f hj hk => ?_⟩,
    fun f hf => ⟨f, a3 f hf, rfl⟩⟩ hr.nodup hk hd hfin fun f hf => (shape_decls hk hd).fns _ _ (a3 f hf)
  · exact (hr.keys k (List.mem_flatMap.2 ⟨_, hm, by simp [nodeKeys]⟩)).1
  · have := nodeKeys_unique hr.nodup hm (a4 j f hj).1 (x := k) (by simp [nodeKeys])
      (declsG_mem (d := .function f) (owned_mem hk))
    cases this

end Bms
