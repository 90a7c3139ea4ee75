import Verif.Lemmas.GenerateSafe
import Verif.Lemmas.GenerateTree
import Verif.Props.AnalysisCases
import Verif.Props.Build
import Verif.Props.GenCProgram

/-!
# C82: code is generated for accepted programs

What analysis leaves in the tree of a program is what the generators of C and C++ code read.
-/

namespace Bms

open Spec
open C (TypesD Named ReadyD HasConst)

namespace Gen

/-- What is known about the analyzed declarations of an accepted program. -/
theorem result_facts {n : Nat} {ds : List ADecl} {next : Nat} {s : ASt} (h : RawProgram ds next)
    (hs : NoSelfReference ds) (hx : Ana.program n ds next = .ok () s) :
    Inv next s ∧ ∀ d ∈ ds, Analyzed s (Ana.result s d) ∧
      (∀ f, d = .function f → ∃ f', s.fns f.k = some f' ∧ plainF f' = plainF f ∧
        (f'.generic = false → 2 ≤ f'.level.rank)) := by
  obtain ⟨ds', hn, hd⟩ := program_split hx
  have hr := lookup_resolved h hn (hs ds' hn)
  obtain ⟨hi, -, -, ha⟩ := analysis_ok hr hd
  obtain ⟨h0, -, h4, h5, -⟩ := initial_inv hr
  have hk : KeyInv (Ana.initial ds' next) :=
    ⟨fun k f hf => (h0.fn k f hf).key, fun k f hf i hi => by
      have := (hr.raw _ (h5 k f hf).1).instances
      rw [this] at hi
      cases hi⟩
  have he : ds'.map stripD = ds.map stripD := by
    have := hn
    simp only [Names.program, Outcome.bind_eq_ok] at this
    obtain ⟨t, ht, hn⟩ := this
    obtain ⟨hh, -⟩ := Scopes.register_ok Scopes.initial_holds ds t ht
    exact (Scopes.decls_ok hh ds ds' hn).2.1
  refine ⟨hi, fun d hdm => ?_⟩
  have hm : stripD d ∈ ds'.map stripD := by rw [he]; exact List.mem_map_of_mem hdm
  obtain ⟨d', hd', e⟩ := List.mem_map.1 hm
  have had := ha d' hd'
  cases d with
  | const_ k cv x t i =>
    cases d' with
    | const_ k' cv' x' t' i' =>
      simp only [stripD, ADecl.const_.injEq] at e
      obtain ⟨rfl, -⟩ := e
      refine ⟨had, fun f hf => by cases hf⟩
    | _ => simp [stripD] at e
  | staticAssert k cv i => exact ⟨trivial, fun f hf => by cases hf⟩
  | function f =>
    cases d' with
    | function f' =>
      simp only [stripD, ADecl.function.injEq] at e
      have hkk : f'.k = f.k := show (stripF f').k = (stripF f).k from congrArg AFn.k e
      obtain ⟨f'', h6, h7⟩ := (shape_decls hk hd).fns _ _ (h4 f' hd')
      have hp : plainF f'' = plainF f := by
        have h8 : plainD (.function f') = plainD (.function f) := by
          rw [← plainD_strip, ← plainD_strip (.function f)]
          simp only [stripD, e]
        simp only [plainD, ADecl.function.injEq] at h8
        rw [plainF_same h7, h8]
      rw [hkk] at h6
      have hlev : f''.generic = false → 2 ≤ f''.level.rank := by
        intro hg
        obtain ⟨g, h9, -, h10⟩ := had (h7.generic ▸ hg)
        rw [hkk, h6] at h9
        cases h9
        exact h10
      refine ⟨?_, fun f0 hf0 => ?_⟩
      · simp only [Ana.result, h6, Option.getD_some, Analyzed]
        intro hg
        have : f''.k = f.k := h7.k.trans hkk
        exact ⟨f'', by rw [this, h6], hg, hlev hg⟩
      · cases hf0
        exact ⟨f'', h6, hp, hlev⟩
    | _ => simp [stripD] at e

theorem result_reads {n : Nat} {ds : List ADecl} {next : Nat} {s : ASt} (h : RawProgram ds next)
    (hs : NoSelfReference ds) (hx : Ana.program n ds next = .ok () s) :
    Reads (GenC.constants (ds.map (Ana.result s))) s := by
  obtain ⟨hi, hd⟩ := result_facts h hs hx
  intro k cv hc
  rcases constantNodes_mem (constants_mem hc) with ⟨x, t, e, hm⟩ | ⟨f, hm, hf⟩
  · obtain ⟨d, hdm, e⟩ := List.mem_map.1 hm
    obtain ⟨ha, -⟩ := hd d hdm
    cases d with
    | const_ k' cv' x' t' e' =>
      simp only [Ana.result, ADecl.const_.injEq] at e
      obtain ⟨rfl, rfl, -⟩ := e
      obtain ⟨v, hv, -⟩ := ha
      simp only [FromState, hv, Option.bind_some]
    | _ => simp [Ana.result] at e
  · obtain ⟨d, hdm, e⟩ := List.mem_map.1 hm
    obtain ⟨-, ha⟩ := hd d hdm
    cases d with
    | function g =>
      obtain ⟨g', h1, -, h3⟩ := ha g rfl
      simp only [Ana.result, h1, Option.getD_some, ADecl.function.injEq] at e
      subst e
      have hfn := hi.fn _ _ h1
      cases hg : g'.generic with
      | false => exact constantsSs_typed ((hfn.plain hg).typed (h3 hg)).1 hfn.bodyDecl _ hf
      | true => exact constantsSs_raw (hfn.gen hg).raw hfn.bodyDecl (hfn.gen hg).unset _ hf
    | _ => simp [Ana.result] at e

end Gen

open Gen

/-- **C82** (partial). After analysis, everything that the generator of C and C++ code reads is there, if all
constants have values. Missing are constants without values (`C82_unknown_violation`), and what is missing in
C54: calls in signatures, and functions with a requires-clause that refer to themselves. -/
theorem C82_ready_partial {n : Nat} {ds : List ADecl} {next : Nat} {s : ASt} (h : RawProgram ds next)
    (hs : NoSelfReference ds) (hb : ∀ d ∈ ds, BlocksD d) (hx : Ana.program n ds next = .ok () s)
    (hk : ∀ k v, HasConst (ds.map (Ana.result s)) k (some v) → v.val ≠ none) (c23 : Bool) :
    ∀ d ∈ ds.map (Ana.result s), ReadyD (GenC.constants (ds.map (Ana.result s))) c23 d := by
  obtain ⟨hi, hd⟩ := result_facts h hs hx
  have hr := result_reads h hs hx
  have hkn : KnownConstants (GenC.constants (ds.map (Ana.result s))) := fun k v hc =>
    hk k v ((C.hasConst_iff _ _ _).1 (constants_mem hc))
  intro d' hd'
  obtain ⟨d, hdm, rfl⟩ := List.mem_map.1 hd'
  obtain ⟨ha, hf⟩ := hd d hdm
  cases d with
  | const_ k cv x t e =>
    obtain ⟨v, hv, -⟩ := ha
    intro _
    simp only [Ana.result, hv, Option.bind_some] at hd' ⊢
    have := hk k v (.global hd')
    obtain ⟨t, y⟩ := v
    cases y with
    | none => exact absurd rfl this
    | some y => exact ⟨t, y, rfl⟩
  | staticAssert k cv e => trivial
  | function f =>
    obtain ⟨f', h1, h2, h3⟩ := hf f rfl
    simp only [Ana.result, h1, Option.getD_some] at hd' ⊢
    intro hg
    have hp := (hi.fn _ _ h1).plain hg
    have hl : f'.level ≠ .unanalyzed := by
      rw [Level.ne_unanalyzed]
      exact Nat.le_of_succ_le (h3 hg)
    obtain ⟨t, ht⟩ := hp.sigRet hl
    refine ⟨⟨t, typeOf_erase ht.2.1⟩, fun p hpm => ?_, ?_⟩
    · obtain ⟨t, ht⟩ := hp.sigParams hl p hpm
      exact ⟨t, typeOf_erase ht.2.1⟩
    · refine readySs_of hr hkn (hp.typed (h3 hg)).1 ?_ fun x hx v hv => ?_
      · have h4 : BlocksD (plainD (.function f')) := by
          simp only [plainD, h2]
          exact (blocksD_plain (.function f)).2 (hb _ hdm)
        exact (blocksD_plain _).1 h4
      · refine hk x.1 v (.inFunction hd' ((C.hasConstSs_iff _ _ _).1 ?_))
        rw [← hv]
        exact hx

/-- **C82** (partial). C or C++ code is generated for an accepted program if the types in it have names in
the language, and otherwise the error is that they have none. -/
theorem C82_generates_partial {n : Nat} {ds : List ADecl} {next : Nat} {s : ASt} (h : RawProgram ds next)
    (hs : NoSelfReference ds) (hb : ∀ d ∈ ds, BlocksD d) (hx : Ana.program n ds next = .ok () s)
    (hk : ∀ k v, HasConst (ds.map (Ana.result s)) k (some v) → v.val ≠ none) (l : GenC.Language)
    (o : GenC.Options) :
    ((∃ t, GenC.program l o (ds.map (Ana.result s)) = .ok t) ↔
      ∀ d ∈ ds.map (Ana.result s), TypesD (Named l o.c23) o.c23 d) ∧
    (GenC.program l o (ds.map (Ana.result s)) = .err .unsupported_integer_width ↔
      ¬ ∀ d ∈ ds.map (Ana.result s), TypesD (Named l o.c23) o.c23 d) :=
  C71_types (C82_ready_partial h hs hb hx hk o.c23)

/-- **C82** (partial). Even if there are constants without values, the generator has no undefined behaviour,
and throws only if there are. -/
theorem C82_safe_partial {n : Nat} {ds : List ADecl} {next : Nat} {s : ASt} (h : RawProgram ds next)
    (hs : NoSelfReference ds) (hb : ∀ d ∈ ds, BlocksD d) (hx : Ana.program n ds next = .ok () s)
    (l : GenC.Language) (o : GenC.Options) :
    GenC.program l o (ds.map (Ana.result s)) ≠ .ub ∧
    (GenC.program l o (ds.map (Ana.result s)) = .throws →
      ∃ k t, HasConst (ds.map (Ana.result s)) k (some ⟨t, none⟩)) := by
  obtain ⟨hi, hd⟩ := result_facts h hs hx
  have hr := result_reads h hs hx
  refine ⟨decls_safe (fun d' hd' sol => ?_) _, fun ht => ?_⟩
  · obtain ⟨d, hdm, rfl⟩ := List.mem_map.1 hd'
    obtain ⟨ha, hf⟩ := hd d hdm
    cases d with
    | const_ k cv x t e =>
      obtain ⟨v, hv, -⟩ := ha
      simp only [Ana.result, hv, Option.bind_some, GenC.decl]
      exact bind_safe (constant_safe _ _ _ _ (by simp) _) fun _ => ok_safe _
    | staticAssert k cv e => simp [Ana.result, GenC.decl]
    | function f =>
      obtain ⟨f', h1, h2, h3⟩ := hf f rfl
      simp only [Ana.result, h1, Option.getD_some, GenC.decl, GenC.function]
      split
      · simp
      · rename_i hg
        have hp := (hi.fn _ _ h1).plain (by simpa using hg)
        refine bind_safe (type_safe _ _ _) fun _ => bind_safe (parameters_safe _ _) fun _ =>
          bind_safe ?_ fun _ => ok_safe _
        simp only [GenC.stmt]
        exact bind_safe (stmts_safe hr (hp.typed (h3 (by simpa using hg))).1 _) fun _ => ok_safe _
  · by_cases hn : ∃ k t, HasConst (ds.map (Ana.result s)) k (some ⟨t, none⟩)
    · exact hn
    · have hk : ∀ k v, HasConst (ds.map (Ana.result s)) k (some v) → v.val ≠ none := by
        rintro k ⟨t, y⟩ hc hy
        simp only at hy
        subst hy
        exact hn ⟨k, t, hc⟩
      obtain ⟨h1, h2⟩ := C82_generates_partial h hs hb hx hk l o
      by_cases hT : ∀ d ∈ ds.map (Ana.result s), TypesD (Named l o.c23) o.c23 d
      · obtain ⟨t, h3⟩ := h1.2 hT
        rw [ht] at h3
        cases h3
      · have h3 := h2.2 hT
        rw [ht] at h3
        cases h3

/-- **C82.** BMS code is generated for every accepted program, and it is the same as before analysis. -/
theorem C82_bms {n : Nat} {ds : List ADecl} {next : Nat} {s : ASt} (hk : ((functionsOf ds).map AFn.k).Nodup)
    (hf : ∀ f ∈ functionsOf ds, f.k < next ∧ f.instances = []) (hx : Ana.program n ds next = .ok () s)
    (o : GenBms.Options) :
    GenBms.program o (ds.map (Ana.result s)) = GenBms.program o ds ∧
    ((∀ d ∈ ds, BlocksD d) → ∃ t, GenBms.program o ds = .ok t) := by
  refine ⟨?_, bms_program_ok o⟩
  obtain ⟨ds', hn, he, hs⟩ := C55_shape hk hf hx
  rw [← program_plain, ← program_plain o ds]
  congr 1
  rw [List.map_map]
  refine List.map_congr_left fun d hd => ?_
  cases d with
  | const_ k cv x t e => rfl
  | staticAssert k cv e => rfl
  | function f =>
    have hm : stripD (.function f) ∈ ds'.map stripD := by rw [he]; exact List.mem_map_of_mem hd
    obtain ⟨d', hd', e⟩ := List.mem_map.1 hm
    cases d' with
    | function f' =>
      simp only [stripD, ADecl.function.injEq] at e
      have hkk : f'.k = f.k := show (stripF f').k = (stripF f).k from congrArg AFn.k e
      obtain ⟨f'', h6, h7⟩ := hs f' hd'
      rw [hkk] at h6
      have h8 : plainD (.function f') = plainD (.function f) := by
        rw [← plainD_strip, ← plainD_strip (.function f)]
        simp only [stripD, e]
      simp only [plainD, ADecl.function.injEq] at h8
      simp only [Function.comp_apply, Ana.result, h6, Option.getD_some, plainD, plainF_same h7, h8]
    | _ => simp [stripD] at e

/-- **C82 for texts** (partial in the ways of `C82_generates_partial`): code is
generated for every text that is accepted, or an integer type has a width for which there is no type in C. -/
theorem C82_text_partial {n : Nat} {src : List Char} {ds : List ADecl} {s : ASt}
    (hx : compile n src = .analyzed ds (.ok () s)) (hp : PlainSignatures ds) (hs : NoSelfReference ds)
    (hk : ∀ k v, HasConst (ds.map (Ana.result s)) k (some v) → v.val ≠ none) (o : GenC.Options) :
    (∃ t, Gen.generate o .bms (ds.map (Ana.result s)) = .ok t) ∧
    ∀ l lang, (lang, l) ∈ [(Gen.Lang.c, GenC.Language.c), (.cpp, .cpp)] →
      ((∃ t, Gen.generate o lang (ds.map (Ana.result s)) = .ok t) ↔
        ∀ d ∈ ds.map (Ana.result s), TypesD (Named l o.c23) o.c23 d) ∧
      (Gen.generate o lang (ds.map (Ana.result s)) = .err .unsupported_integer_width ↔
        ¬ ∀ d ∈ ds.map (Ana.result s), TypesD (Named l o.c23) o.c23 d) := by
  obtain ⟨ts, t, next, h1, -, h2, h3, h4, h6⟩ := C60_analyzed hx
  · have hraw := h4 hp
    have hb := Gen.blocks_of_text h2 h3
    refine ⟨?_, fun l lang hl => ?_⟩
    · have hkeys : ((functionsOf ds).map AFn.k).Nodup ∧ ∀ f ∈ functionsOf ds, f.k < next ∧ f.instances = [] := by
        refine ⟨?_, fun f hf => ?_⟩
        · have := hraw.nodup
          clear hk hb h3 hx h6 hs hp h4 hraw
          induction ds with
          | nil => simp [functionsOf]
          | cons d ds ih =>
            rw [List.flatMap_cons, List.nodup_append] at this
            obtain ⟨-, h2, h3⟩ := this
            cases d with
            | function f =>
              have e : functionsOf (.function f :: ds) = f :: functionsOf ds := by simp [functionsOf]
              rw [e, List.map_cons, List.nodup_cons]
              refine ⟨fun hm => ?_, ih h2⟩
              obtain ⟨g, hg, hgk⟩ := List.mem_map.1 hm
              refine h3 f.k (by simp [nodeKeys, Inst.keys]) g.k ?_ hgk.symm
              exact List.mem_flatMap.2 ⟨_, mem_functionsOf.1 hg, by simp [nodeKeys, Inst.keys]⟩
            | const_ k cv x t e => simpa [functionsOf] using ih h2
            | staticAssert k cv e => simpa [functionsOf] using ih h2
        · have hm := mem_functionsOf.1 hf
          exact ⟨(hraw.keys f.k (List.mem_flatMap.2 ⟨_, hm, by simp [nodeKeys, Inst.keys]⟩)).1,
            (hraw.raw _ hm).instances⟩
      obtain ⟨a1, a2⟩ := C82_bms hkeys.1 hkeys.2 h6.symm o.toOptions
      obtain ⟨t, ht⟩ := a2 hb
      exact ⟨t, by simp only [Gen.generate, a1, ht, Gen.noError]⟩
    · have := C82_generates_partial hraw hs hb h6.symm hk l o
      simp only [List.mem_cons, Prod.mk.injEq, List.not_mem_nil, or_false] at hl
      rcases hl with ⟨rfl, rfl⟩ | ⟨rfl, rfl⟩ <;> exact this

/-- **C82 is violated** for the other languages: their names are known, but nothing is generated. -/
theorem C82_language_violation (o : GenC.Options) (ds : List ADecl) :
    (∀ l, Gen.generate o l ds = .throws ∨ l ∈ [.bms, .c, .cpp]) ∧
    ∀ x ∈ ["rust", "java", "kotlin", "javascript", "ts"], ∃ l, Gen.languageByName x.toList = some l ∧
      Gen.generate o l ds = .throws := by
  refine ⟨fun l => by cases l <;> simp [Gen.generate], fun x hx => ?_⟩
  simp only [List.mem_cons, List.not_mem_nil, or_false] at hx
  rcases hx with rfl | rfl | rfl | rfl | rfl
  · exact ⟨.rust, by decide +kernel, rfl⟩
  · exact ⟨.java, by decide +kernel, rfl⟩
  · exact ⟨.kotlin, by decide +kernel, rfl⟩
  · exact ⟨.javascript, by decide +kernel, rfl⟩
  · exact ⟨.typescript, by decide +kernel, rfl⟩

/-! ## Texts -/

namespace Gen

/-- What remains of a compilation and generation for comparison. -/
def generated (o : GenC.Options) (l : Lang) (n : Nat) (src : List Char) : Option (Outcome GenC.GenError (List Char)) :=
  match compile n src with
  | .analyzed ds (.ok () s) => some (generate o l (ds.map (Ana.result s)))
  | _ => none

end Gen

/-- All constants have values. -/
def Gen.allKnown (ds : List ADecl) : Bool :=
  (GenC.constantNodes ds).all fun x => (x.2.map fun v => v.val.isSome).getD true

theorem Gen.known_of_all {ds : List ADecl} (h : Gen.allKnown ds = true) (k : Key) (v : Value)
    (hc : HasConst ds k (some v)) : v.val ≠ none := by
  have h3 := List.all_eq_true.1 h _ ((C.hasConst_iff _ _ _).2 hc)
  simp only [Option.map_some, Option.getD_some] at h3
  intro h4
  rw [h4] at h3
  cases h3

/-- The hypotheses are met by a program with a generic function and a constant that is computed by a call. -/
theorem C82_hypotheses : RawProgram Programs.sample 50 ∧ NoSelfReference Programs.sample ∧ (∀ d ∈ Programs.sample, BlocksD d) ∧
    Ana.program 100 Programs.sample 50 = .ok () sampleState ∧
    (∀ k v, HasConst (Programs.sample.map (Ana.result sampleState)) k (some v) → v.val ≠ none) := by
  have h2 : Gen.allKnown (Programs.sample.map (Ana.result sampleState)) = true := by decide +kernel
  refine ⟨sample_raw, sample_noSelf, ?_, sample_accepted, fun k v h => ?_⟩
  · simp [Programs.sample, Programs.const_, Programs.fn, Programs.let_, Programs.return_, BlocksD, BlocksSs, BlocksS, IsBlock]
  · exact Gen.known_of_all h2 k v h

/-- A text, and the code for it. -/
theorem C82_sample :
    Gen.generated {} .c 100 "const w = 32; function f() -> Uint(w) { let x: Uint(w) = 5; return x * w; }".toList =
      some (.ok "uint32_t f(void) {\n    uint32_t x = 5;\n    return x * 32;\n}\n".toList) := by
  decide +kernel

/-- **C82 is violated** for constants without values: the text is accepted, but the generator throws. -/
theorem C82_unknown_violation :
    Gen.generated {} .c 100 "const x: Uint(8) = -1 as Uint(8); function f() -> Uint(8) { return x; }".toList = some .throws := by
  decide +kernel

/-- A width that has no type in C. -/
theorem C82_width_sample :
    Gen.generated {} .c 100 "function f() -> Uint(7) { return 1; }".toList =
      some (.err .unsupported_integer_width) := by
  decide +kernel

end Bms
