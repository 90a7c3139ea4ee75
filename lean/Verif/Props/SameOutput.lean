import Verif.Lemmas.RenumberC
import Verif.Props.Addresses
import Verif.Props.Cli

/-!
# Property C92: texts of the same program give the same code in other languages
-/

namespace Bms

open Spec Parse
open GenBms (Options)

namespace Renumber

theorem generated_le {n : Nat} {ds ds' : List ADecl} {next next' : Nat} {s s' : ASt} (hs : SameSource ds ds')
    (hu : Untouched ds) (hu' : Untouched ds') (hk : (ds.flatMap nodeKeys).Nodup) (hk' : (ds'.flatMap nodeKeys).Nodup)
    (hb : ∀ x ∈ ds.flatMap nodeKeys, x < next ∧ x ≠ 0) (hb' : ∀ x ∈ ds'.flatMap nodeKeys, x < next' ∧ x ≠ 0)
    (h0 : 0 < next) (hl : next ≤ next') (hx : Ana.program n ds next = .ok () s)
    (hx' : Ana.program n ds' next' = .ok () s') (o : GenC.Options) (l : Gen.Lang) :
    Gen.generate o l (ds'.map (Ana.result s')) = Gen.generate o l (ds.map (Ana.result s)) := by
  obtain ⟨τ, hi, hm, hn⟩ := exists_shift (lengthDs _ _ hs.symm) hk hk' hb hb' h0 hl
  have e := eqDs ds ds' hs hu' hu hm
  have h := program_ren hi hn n ds
  rw [← e, hx, hx'] at h
  rw [e, results_ren h.2, generate_ren hi]

end Renumber

/-- **C92.** The code that is generated for two accepted programs that are written in the same way is the same, in
every language and with all options, wherever the nodes of the programs are. -/
theorem C92_programs {n : Nat} {ds ds' : List ADecl} {next next' : Nat} {s s' : ASt} (hs : SameSource ds ds')
    (hu : Untouched ds) (hu' : Untouched ds') (hk : (ds.flatMap nodeKeys).Nodup) (hk' : (ds'.flatMap nodeKeys).Nodup)
    (hb : ∀ x ∈ ds.flatMap nodeKeys, x < next ∧ x ≠ sentinelKey)
    (hb' : ∀ x ∈ ds'.flatMap nodeKeys, x < next' ∧ x ≠ sentinelKey) (h0 : 0 < next) (h0' : 0 < next')
    (hx : Ana.program n ds next = .ok () s) (hx' : Ana.program n ds' next' = .ok () s') (o : GenC.Options)
    (l : Gen.Lang) : Gen.generate o l (ds'.map (Ana.result s')) = Gen.generate o l (ds.map (Ana.result s)) := by
  rcases Nat.le_total next next' with hl | hl
  · exact Renumber.generated_le hs hu hu' hk hk' hb hb' h0 hl hx hx' o l
  · exact (Renumber.generated_le hs.symm hu' hu hk' hk hb' hb h0' hl hx' hx o l).symm

/-- **C92, texts.** If one of two texts of the same program is accepted, so is the other, and the code that is
generated for them is the same. -/
theorem C92_texts {n : Nat} {src src' : List Char} {ds ds' : List ADecl} {r' : ARes Unit} {s : ASt}
    (hx : compile n src = .analyzed ds (.ok () s)) (hx' : compile n src' = .analyzed ds' r') (hs : SameSource ds ds') :
    ∃ s', r' = .ok () s' ∧
      ∀ o l, Gen.generate o l (ds'.map (Ana.result s')) = Gen.generate o l (ds.map (Ana.result s)) := by
  have hv := C91_texts hx hx' hs
  obtain ⟨next, h1, h2, h3, e⟩ := C91_nodes hx
  obtain ⟨next', h1', h2', h3', e'⟩ := C91_nodes hx'
  have hu := C90_untouched hx
  have hu' := C90_untouched hx'
  generalize hr : (ARes.ok () s : ARes Unit) = r at hv
  cases hv with
  | ok =>
    cases hr
    exact ⟨_, rfl, C92_programs hs hu hu' h2 h2' h3 h3' h1 h1' e.symm e'.symm⟩
  | err => cases hr
  | throws => cases hr
  | ub => cases hr
  | timeout => cases hr

/-- **C92, commands.** `generate` does the same for two files with texts of the same program that `verify` accepts:
it shows the same, and ends in the same way. -/
theorem C92_command {w : Cli.World} {program file file' language src src' : List Char} {rest : List (List Char)}
    {ds ds' : List ADecl} {s s' : ASt} (hf : Suffix ".bms" file) (hf' : Suffix ".bms" file')
    (hl : (Gen.languageByName language).isSome) (h1 : w.file file = .content src) (h1' : w.file file' = .content src')
    (h2 : Enough w.fuel src) (h2' : Enough w.fuel src') (h3 : Verified w.fuel src ds s)
    (h3' : Verified w.fuel src' ds' s') (hs : SameSource ds ds') :
    Cli.main w (program :: "generate".toList :: file' :: language :: rest) =
      Cli.main w (program :: "generate".toList :: file :: language :: rest) := by
  obtain ⟨l, hl⟩ := Option.isSome_iff_exists.mp hl
  have key : ∀ file src ds s, Suffix ".bms" file → w.file file = .content src → Enough w.fuel src →
      Verified w.fuel src ds s →
      Cli.generate w file language = Cli.showCode (Gen.generate {} l (ds.map (Ana.result s))) := by
    intro file src ds s h1 h2 h3 h4
    obtain ⟨ts, nodes, root, rs, ht, hp, hb, hr, ha⟩ := Cli.verified_iff.1 h4
    rw [Cli.generate_steps h1 hl ⟨h2, h3, ht, hp⟩, Cli.step_ok (Cli.analyze_iff.2 ⟨ds, rs, s, hb, hr, ha, rfl⟩)]
    rfl
  obtain ⟨s1, e, hg⟩ := C92_texts h3.1 h3'.1 hs
  cases e
  simp only [Cli.main_generate, key _ _ _ _ hf h1 h2 h3, key _ _ _ _ hf' h1' h2' h3', hg]

/-- The annotations in a text are allowed. -/
def Spec.AnnotationsAllowed (src : List Char) : Prop :=
  ∀ ts nodes root, tokenize src = some (ts, .ok ()) → Parse.parse src ts = .ok nodes root →
    ∃ rs, Annot.resolve nodes root = .ok rs

/-- **C92, verdict of the command.** For two files with texts of the same program, in which annotations are allowed,
`verify` accepts both or none. -/
theorem C92_verify {w : Cli.World} {program file file' src src' : List Char} {rest : List (List Char)}
    {ds ds' : List ADecl} {r r' : ARes Unit} (hf : Suffix ".bms" file) (hf' : Suffix ".bms" file')
    (h1 : w.file file = .content src) (h1' : w.file file' = .content src') (h2 : Enough w.fuel src)
    (h2' : Enough w.fuel src') (hx : compile w.fuel src = .analyzed ds r) (hx' : compile w.fuel src' = .analyzed ds' r')
    (ha : AnnotationsAllowed src) (ha' : AnnotationsAllowed src') (hs : SameSource ds ds') :
    (Cli.main w (program :: "verify".toList :: file :: rest)).ending = .exit 0 ↔
      (Cli.main w (program :: "verify".toList :: file' :: rest)).ending = .exit 0 := by
  have key : ∀ {file file' src src' : List Char} {ds ds' : List ADecl} {r r' : ARes Unit}, Suffix ".bms" file' →
      w.file file = .content src → w.file file' = .content src' → Enough w.fuel src' →
      compile w.fuel src = .analyzed ds r → compile w.fuel src' = .analyzed ds' r' → AnnotationsAllowed src' →
      SameSource ds ds' → (Cli.main w (program :: "verify".toList :: file :: rest)).ending = .exit 0 →
      (Cli.main w (program :: "verify".toList :: file' :: rest)).ending = .exit 0 := by
    intro file file' src src' ds ds' r r' hf' h1 h1' h2' hx hx' ha' hs h
    obtain ⟨-, src1, ds1, s, e1, -, hv⟩ := (C83_verify w program file rest).2.1.1 h
    rw [h1] at e1
    have e := Cli.File.content.inj e1
    subst e
    have hc := hv.accepted
    rw [hx] at hc
    cases hc
    obtain ⟨s', e, -⟩ := C92_texts hx hx' hs
    rw [e] at hx'
    exact (C83_verify w program file' rest).2.1.2 ⟨hf', src', ds', s', h1', h2', ⟨hx', ha'⟩⟩
  exact ⟨key hf' h1 h1' h2' hx hx' ha' hs, key hf h1' h1 h2 hx' hx ha hs.symm⟩

/-- **C92, partial: BMS code in between.** If BMS code is generated for an accepted program, then it is accepted, the
code in other languages that is generated from it is the same as that which is generated from the program, and
generating BMS code from it again does not change it. The restrictions are those of `C65_again_partial`. -/
theorem C92_between_partial {o : Options} {n : Nat} {ds : List ADecl} {next : Nat} {s : ASt} {text : List Char}
    {ts : List Token} (hu : Untouched ds) (hk : (ds.flatMap nodeKeys).Nodup)
    (hb : ∀ x ∈ ds.flatMap nodeKeys, x < next ∧ x ≠ sentinelKey) (h0 : 0 < next)
    (hx : Ana.program n ds next = .ok () s) (hw : White o.indentChar) (hne : ds ≠ [])
    (h : ∀ d ∈ ds, PrintableD o.alwaysParenthesize d) (ho : GenBms.program o ds = .ok text)
    (hts : tokenize text = some (ts, .ok ())) (hob : Unobstructed ts) (hl : ts.length < 2 ^ 64)
    (hg : ∀ t ∈ ts, t.type ≠ .greater_or_equal) :
    ∃ ds' s', compile n text = .analyzed ds' (.ok () s') ∧ GenBms.program o ds' = .ok text ∧
      ∀ o' l, Gen.generate o' l (ds'.map (Ana.result s')) = Gen.generate o' l (ds.map (Ana.result s)) := by
  obtain ⟨ds', r', h4, h5, hv⟩ := C91_again_partial (n := n) hu hk hb h0 hw hne h ho hts hob hl hg
  obtain ⟨next', h1', h2', h3', e'⟩ := C91_nodes h4
  generalize hr : Ana.program n ds next = r at hv
  rw [hx] at hr
  cases hv with
  | ok =>
    cases hr
    refine ⟨ds', _, h4, ?_, C92_programs h5 hu (C90_untouched h4) hk h2' hb h3' h0 h1' hx e'.symm⟩
    rw [← Gen.program_plain, h5, Gen.program_plain, ho]
  | err => cases hr
  | throws => cases hr
  | ub => cases hr
  | timeout => cases hr

/-! ## Samples -/

open Programs Written

namespace Twice

/-- A program in a file. -/
def three : String :=
  "const c = 3 + 5; function f(x: Uint(c), y: Uint(32)) -> Uint(32) { return y * ((1 + 2) as Uint(32)); }"

/-- The same program in another file. -/
def four : String :=
  "/* the same */ const c = (3 + (5)); @c_equivalent(\"f\") function f(x: Uint((c)), y: Uint(32)) -> Uint(32)\n{\n return (y) * ((1 + (2)) as Uint(32)); }"

/-- Two files. -/
def world : Cli.World :=
  { Cli.sampleWorld with file := fun f => if f = "a.bms".toList then .content three.toList else .content four.toList }

end Twice

/-- The hypotheses of `C92_texts` and `C92_command` are met by two files that differ in parentheses, layout, comments
and annotations; C code is shown for both. -/
theorem C92_sample : ∃ ds s ds' s', Verified 60 Twice.three.toList ds s ∧ Verified 60 Twice.four.toList ds' s' ∧
    SameSource ds ds' ∧ Enough 60 Twice.three.toList ∧ Enough 60 Twice.four.toList ∧
    Twice.world.file "a.bms".toList = .content Twice.three.toList ∧
    Twice.world.file "b.bms".toList = .content Twice.four.toList ∧ Twice.three ≠ Twice.four ∧
    Diag.bytes (Cli.main Twice.world ["p".toList, "generate".toList, "a.bms".toList, "c".toList]).shown =
      "uint32_t f(x: uint8_t, y: uint32_t) {\n    return y * (uint32_t)(1 + 2);\n}\n".toList := by
  obtain ⟨-, src, ds, s, h1, h2, h3⟩ := (C83_verify Twice.world "p".toList "a.bms".toList []).2.1.1 (by decide +kernel)
  obtain ⟨-, src', ds', s', h1', h2', h3'⟩ :=
    (C83_verify Twice.world "p".toList "b.bms".toList []).2.1.1 (by decide +kernel)
  have e : src = Twice.three.toList := by
    have : Twice.world.file "a.bms".toList = .content Twice.three.toList := by decide +kernel
    exact (Cli.File.content.inj (this.symm.trans h1)).symm
  have e' : src' = Twice.four.toList := by
    have : Twice.world.file "b.bms".toList = .content Twice.four.toList := by decide +kernel
    exact (Cli.File.content.inj (this.symm.trans h1')).symm
  rw [e] at h1 h2 h3
  rw [e'] at h1' h2' h3'
  obtain ⟨d1, r1, d2, r2, a1, a2, a3, -⟩ :=
    Twice.check_sound (n := 60) (a := Twice.three) (b := Twice.four) (p := fun _ _ => true) (by decide +kernel)
  rw [show compile 60 _ = _ from h3.1] at a1
  rw [show compile 60 _ = _ from h3'.1] at a2
  cases a1
  cases a2
  exact ⟨ds, s, ds', s', h3, h3', a3, h2, h2', h1, h1', by decide +kernel, by decide +kernel⟩

/-- The hypotheses of `C92_verify` are met by the same files. -/
theorem C92_verify_sample : (Cli.main Twice.world ["p".toList, "verify".toList, "a.bms".toList]).ending = .exit 0 ∧
    (Cli.main Twice.world ["p".toList, "verify".toList, "b.bms".toList]).ending = .exit 0 := by
  obtain ⟨ds, s, ds', s', h, h', hs, h2, h2', h1, h1', -, -⟩ := C92_sample
  have k : (Cli.main Twice.world ["p".toList, "verify".toList, "a.bms".toList]).ending = .exit 0 := by decide +kernel
  exact ⟨k, (C92_verify (w := Twice.world) ⟨"a".toList, by decide⟩ ⟨"b".toList, by decide⟩ h1 h1' h2 h2' h.accepted h'.accepted
    h.annotations h'.annotations hs).1 k⟩

/-- The hypotheses of `C92_between_partial` are met by the program of `C80_sample`. -/
theorem C92_between_sample : ∃ s ds' s', Ana.program 60 calm_ 50 = .ok () s ∧
    compile 60 calmText = .analyzed ds' (.ok () s') ∧
    ∀ o' l, Gen.generate o' l (ds'.map (Ana.result s')) = Gen.generate o' l (calm_.map (Ana.result s)) := by
  have hs : ∃ s, Ana.program 60 calm_ 50 = .ok () s := by
    have h : (match Ana.program 60 calm_ 50 with | .ok _ _ => true | _ => false) = true := by decide +kernel
    cases hr : Ana.program 60 calm_ 50 with
    | ok a s => exact ⟨s, rfl⟩
    | _ => rw [hr] at h; cases h
  obtain ⟨s, hs⟩ := hs
  obtain ⟨ds', s', h1, -, h2⟩ := C92_between_partial (o := {}) (n := 60) (next := 50) (ts := tokensOf calmText)
    (ds := calm_) (text := calmText) rfl (by decide +kernel) (by decide +kernel) (by decide) hs (by decide)
    (by simp [calm_]) Written.printable_calm (Written.text_ok (by decide +kernel)) (by decide +kernel)
    (by unfold Unobstructed; decide +kernel) (by decide +kernel) (by decide +kernel)
  exact ⟨s, ds', s', hs, h1, h2⟩

end Bms
