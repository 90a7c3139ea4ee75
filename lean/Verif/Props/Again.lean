import Verif.Lemmas.RenumberNew
import Verif.Props.Order
import Verif.Props.GenBms

/-!
# Property C90: only what is written matters
-/

namespace Bms

open Spec Parse
open GenBms (program Options)

/-- Nothing has been found out about the program yet: without the addresses of nodes, it is what is written in
the source. -/
def Spec.Untouched (ds : List ADecl) : Prop := ds.map (Renumber.decl fun _ => 0) = ds.map plainD

/-- The same text, apart from layout: the same declarations with the same parts, in the same order. Addresses of
nodes and results of analysis are ignored. -/
def Spec.SameSource (ds ds' : List ADecl) : Prop := ds'.map plainD = ds.map plainD

/-- A program that is made from a text is untouched. -/
theorem C90_untouched {n : Nat} {src : List Char} {ds : List ADecl} {r : ARes Unit}
    (hx : compile n src = .analyzed ds r) : Untouched ds := by
  obtain ⟨ts, t, next, -, -, -, h, -, -⟩ := C60_analyzed hx
  exact Renumber.newProgram h

/-- **C90, name lookup.** Two programs that are written in the same way are treated in the same way by name
lookup: the names of both can be resolved, or there is the same error. -/
theorem C90_names {ds ds' : List ADecl} (hs : SameSource ds ds') (h : Untouched ds) (h' : Untouched ds')
    (hk : (ds.flatMap nodeKeys).Nodup) (hk' : (ds'.flatMap nodeKeys).Nodup) :
    (∀ ds1, Names.program ds = .ok ds1 → ∃ ds1', Names.program ds' = .ok ds1' ∧ SameSource ds1 ds1' ∧
      (CalmProgram ds1 → CalmProgram ds1') ∧ (WellTyped ds1 → WellTyped ds1')) ∧
    ∀ e, Names.program ds = .err e → ∃ e', Names.program ds' = .err e' ∧ e'.code = e.code := by
  obtain ⟨τ, hi, rfl⟩ := Renumber.exists_eq hs.symm h h' hk hk'
  have hn := Renumber.names_ren hi ds'
  refine ⟨fun ds1 h1 => ?_, fun e h1 => ?_⟩
  · rw [h1] at hn
    cases hp : Names.program ds' with
    | ok ds1' =>
      rw [hp] at hn
      simp only [Renumber.outcome, Outcome.map_ok, Outcome.mapErr_ok, Outcome.ok.injEq] at hn
      subst hn
      refine ⟨ds1', rfl, ?_, Renumber.calmProgram_ren hi, Renumber.wellTyped_ren hi⟩
      show ds1'.map plainD = (ds1'.map (Renumber.decl τ)).map plainD
      rw [List.map_map]
      exact List.map_congr_left fun d _ => (Renumber.plainD_ren τ d).symm
    | err e => rw [hp] at hn; cases hn
    | throws => rw [hp] at hn; cases hn
    | ub => rw [hp] at hn; cases hn
  · rw [h1] at hn
    cases hp : Names.program ds' with
    | ok ds1' => rw [hp] at hn; cases hn
    | err e' =>
      rw [hp] at hn
      simp only [Renumber.outcome, Outcome.map_err, Outcome.mapErr_err, Outcome.err.injEq] at hn
      exact ⟨e', rfl, by rw [hn]; rfl⟩
    | throws => rw [hp] at hn; cases hn
    | ub => rw [hp] at hn; cases hn

theorem plainSignatures_same {ds ds' : List ADecl} (hs : SameSource ds ds') (h : PlainSignatures ds) :
    PlainSignatures ds' := by
  intro f hf
  have h1 : plainD (.function f) ∈ ds.map plainD := by
    rw [← hs]
    exact List.mem_map_of_mem hf
  obtain ⟨d, hd, e⟩ := List.mem_map.mp h1
  cases d with
  | const_ => simp only [plainD, reduceCtorEq] at e
  | staticAssert => simp only [plainD, reduceCtorEq] at e
  | function g =>
    simp only [plainD, ADecl.function.injEq, plainF, AFn.mk.injEq] at e
    obtain ⟨-, -, -, ep, er, -⟩ := e
    obtain ⟨c1, c2⟩ := h g hd
    refine ⟨fun p hp => ?_, ?_⟩
    · have : plainP p ∈ g.params.map plainP := by
        rw [ep]
        exact List.mem_map_of_mem hp
      obtain ⟨q, hq, eq⟩ := List.mem_map.mp this
      simp only [plainP, AParam.mk.injEq] at eq
      rw [← Renumber.callFreeT_plain, ← eq.2.2, Renumber.callFreeT_plain]
      exact c1 q hq
    · rw [← Renumber.callFreeT_plain, ← er, Renumber.callFreeT_plain]
      exact c2

theorem Spec.RawProgram.plainSignatures {ds : List ADecl} {next : Nat} (h : RawProgram ds next) : PlainSignatures ds := by
  intro f hf
  have := h.raw _ hf
  exact ⟨fun p hp => (this.params p hp).2, this.ret.2⟩

/-- **C90, partial.** If a calm program follows the rules, then a text with the same program is accepted,
wherever its nodes are. Missing: programs that are not calm or do not follow the rules. -/
theorem C90_accepted_partial {n : Nat} {ds ds1 ds' : List ADecl} {next : Nat} {src : List Char} {r : ARes Unit}
    (hr : RawProgram ds next) (hu : Untouched ds) (hp : Names.program ds = .ok ds1) (hc : CalmProgram ds1)
    (ht : WellTyped ds1) (hn : 2 ≤ n) (hx : compile n src = .analyzed ds' r) (hs : SameSource ds ds') :
    ∃ s, r = .ok () s := by
  obtain ⟨ts, t, next', -, -, -, h1, h2, rfl⟩ := C60_analyzed hx
  have h3 := h2 (plainSignatures_same hs hr.plainSignatures)
  obtain ⟨ds1', h4, -, h5, h6⟩ := (C90_names hs hu (Renumber.newProgram h1) hr.nodup h3.nodup).1 ds1 hp
  exact C80_accepted_partial h3 h4 (h5 hc) (h6 ht) hn

/-- **C90, partial: generated BMS code is accepted.** The text that is written for a calm program that follows
the rules is compiled again, and it is the same program. The restrictions are those of `C65_again_partial` and
`C80_accepted_partial`. -/
theorem C90_again_partial {o : Options} {n : Nat} {ds ds1 : List ADecl} {next : Nat} {text : List Char} {ts : List Token}
    (hr : RawProgram ds next) (hu : Untouched ds) (hp : Names.program ds = .ok ds1) (hc : CalmProgram ds1)
    (ht : WellTyped ds1) (hn : 2 ≤ n) (hw : White o.indentChar) (hne : ds ≠ [])
    (h : ∀ d ∈ ds, PrintableD o.alwaysParenthesize d) (hx : program o ds = .ok text)
    (hts : tokenize text = some (ts, .ok ())) (hob : Unobstructed ts) (hl : ts.length < 2 ^ 64)
    (hg : ∀ t ∈ ts, t.type ≠ .greater_or_equal) :
    ∃ ds' s, compile n text = .analyzed ds' (.ok () s) ∧ SameSource ds ds' := by
  obtain ⟨nodes, root, ds', h1, h2, h3⟩ := C65_again_partial hw hne h hx hts hob hl hg
  have hcomp : compile n text = .analyzed ds' (Ana.program n ds' (nodes.length + 1)) := by
    simp only [compile, hts, h1, h2]
  obtain ⟨s, hs⟩ := C90_accepted_partial hr hu hp hc ht hn hcomp h3
  exact ⟨ds', s, by rw [hcomp, hs], h3⟩

/-! ## The order of functions -/

/-- Moving functions of what is written moves functions of the program. -/
theorem moved_plain {a b : List ADecl} (h : MovedFunctions a b) : ∀ {ds : List ADecl}, a = ds.map plainD →
    ∃ ds', MovedFunctions ds ds' ∧ b = ds'.map plainD ∧ ds.Perm ds' := by
  induction h with
  | refl a => exact fun e => ⟨_, .refl _, e, .refl _⟩
  | @step l r ds' f d _ ih =>
    intro ds e
    obtain ⟨l', x, rfl, rfl, h1⟩ := List.map_eq_append_iff.mp e.symm
    obtain ⟨y, x', rfl, hy, h2⟩ := List.map_eq_cons_iff.mp h1
    obtain ⟨z, r', rfl, rfl, rfl⟩ := List.map_eq_cons_iff.mp h2
    cases y with
    | const_ => simp only [plainD, reduceCtorEq] at hy
    | staticAssert => simp only [plainD, reduceCtorEq] at hy
    | function g =>
      obtain ⟨ds2, h3, h4, h5⟩ := ih (ds := l' ++ z :: .function g :: r') (by
        rw [← hy]
        simp only [List.map_append, List.map_cons])
      exact ⟨ds2, .step h3, h4, ((List.Perm.swap _ _ _).append_left l').trans h5⟩

/-- **C90, partial: the order of functions in texts.** If the program of a text is calm and follows the rules,
then so does every text in which functions have been moved towards the end: it is accepted. -/
theorem C90_moved_partial {n m : Nat} {src src' : List Char} {ds ds1 ds' : List ADecl} {r r' : ARes Unit}
    (hx : compile n src = .analyzed ds r) (hx' : compile m src' = .analyzed ds' r') (hps : PlainSignatures ds)
    (hp : Names.program ds = .ok ds1) (hc : CalmProgram ds1) (ht : WellTyped ds1) (hm : 2 ≤ m)
    (hmv : MovedFunctions (ds.map plainD) (ds'.map plainD)) : ∃ s, r' = .ok () s := by
  have hu := C90_untouched hx
  obtain ⟨ts, t, next, -, -, -, -, h2, -⟩ := C60_analyzed hx
  have hr := h2 hps
  obtain ⟨ds2, h3, h4, h5⟩ := moved_plain hmv rfl
  obtain ⟨h6, ds3, h7, h8, h9⟩ := moved_keeps h3 hr hp ht
  have hu2 : Untouched ds2 := by
    refine List.map_congr_left fun d hd => ?_
    exact List.map_inj_left.mp hu d (h5.mem_iff.mpr hd)
  exact C90_accepted_partial h6 hu2 h7 (calmProgram_perm h9 hc) h8 hm hx' h4

/-! ## Samples -/

open Programs Written

namespace Written

/-- The text of the program of `C80_sample`. -/
def calmText : List Char :=
  "const c = 3 + 4;\n\nfunction f(x: Uint(c)) -> Uint(c) {\n    let y = x;\n    while y > x {\n        y = g(y) + x;\n    }\n    return y;\n}\n\nfunction g(x: Uint(c)) -> Uint(c) {\n    static_assert(c == 7);\n    return f(x) * x;\n}\n".toList

/-- The same program, with the functions in the other order. -/
def swapped : List ADecl := calm_.filter noFunction ++ (functionsIn calm_).reverse.map .function

/-- Its text. -/
def swappedText : List Char :=
  "const c = 3 + 4;\n\nfunction g(x: Uint(c)) -> Uint(c) {\n    static_assert(c == 7);\n    return f(x) * x;\n}\n\nfunction f(x: Uint(c)) -> Uint(c) {\n    let y = x;\n    while y > x {\n        y = g(y) + x;\n    }\n    return y;\n}\n".toList

theorem printable_calm : ∀ d ∈ calm_, PrintableD false d := by
  have hc : IsName ['c'] := isName_of ⟨by decide, by decide⟩ (by decide)
  have hf : IsName ['f'] := isName_of ⟨by decide, by decide⟩ (by decide)
  have hx : IsName ['x'] := isName_of ⟨by decide, by decide⟩ (by decide)
  have hy : IsName ['y'] := isName_of ⟨by decide, by decide⟩ (by decide)
  have hg : IsName ['g'] := isName_of ⟨by decide, by decide⟩ (by decide)
  have h3 : Literal .decimal ['3'] 3 := .decimal (by decide) ⟨[3], by decide, by decide, by decide⟩
  have h4 : Literal .decimal ['4'] 4 := .decimal (by decide) ⟨[4], by decide, by decide, by decide⟩
  have h7 : Literal .decimal ['7'] 7 := .decimal (by decide) ⟨[7], by decide, by decide, by decide⟩
  intro d hd
  simp only [calm_, List.mem_cons, List.not_mem_nil, or_false] at hd
  rcases hd with rfl | rfl | rfl
  · simp [const_, binary, lit, PrintableD, PrintableE, IfAny, IsBinary, hc]
    exact ⟨⟨_, _, h3⟩, _, _, h4⟩
  · simp [fn, param, uint, name, let_, return_, call, binary, PrintableD, PrintableSs, PrintableS, PrintableE,
      PrintableEs, PrintableT, IfAny, IsBlock, IsBinary, hf, hx, hc, hy, hg]
  · simp [fn, param, uint, name, lit, return_, call, binary, PrintableD, PrintableSs, PrintableS, PrintableE,
      PrintableEs, PrintableT, IfAny, IsBinary, hf, hx, hc, hg]
    exact ⟨_, _, h7⟩

theorem text_ok {o : Options} {ds : List ADecl} {text : List Char} (h : textOf o ds = some text) :
    program o ds = .ok text := by
  unfold textOf at h
  cases hp : program o ds <;> rw [hp] at h <;> cases h
  rfl

theorem _root_.Bms.Spec.MovedFunctions.perm {a b : List ADecl} (h : MovedFunctions a b) : a.Perm b := by
  induction h with
  | refl => exact .refl _
  | step _ ih => exact ((List.Perm.swap _ _ _).append_left _).trans ih

theorem moved_swapped : MovedFunctions calm_ swapped := .step (l := [_]) (r := []) (.refl _)

end Written

/-- The hypotheses of `C90_again_partial` are met by the program of `C80_sample`: a text is written, and it is
compiled. -/
theorem C90_sample {n : Nat} (hn : 2 ≤ n) :
    ∃ ds ds1 s, program {} calm_ = .ok calmText ∧ compile n calmText = .analyzed ds (.ok () s) ∧
      SameSource calm_ ds ∧ PlainSignatures ds ∧ Names.program ds = .ok ds1 ∧ CalmProgram ds1 ∧ WellTyped ds1 := by
  obtain ⟨hr, ds1, hp, hc, ht⟩ := C80_sample
  have hu : Untouched calm_ := rfl
  have hx : program {} calm_ = .ok calmText := text_ok (by decide +kernel)
  have hts : tokenize calmText = some (tokensOf calmText, .ok ()) := by decide +kernel
  obtain ⟨ds, s, h1, h2⟩ := C90_again_partial (o := {}) hr hu hp hc ht hn (by decide) (by simp [calm_]) printable_calm hx hts
    (by unfold Unobstructed; decide +kernel) (by decide +kernel) (by decide +kernel)
  obtain ⟨_, _, next, -, -, -, h3, h4, -⟩ := C60_analyzed h1
  have h5 := plainSignatures_same h2 hr.plainSignatures
  obtain ⟨ds2, h6, -, h7, h8⟩ := (C90_names h2 hu (Renumber.newProgram h3) hr.nodup (h4 h5).nodup).1 ds1 hp
  exact ⟨ds, ds2, s, hx, h1, h2, h5, h6, h7 hc, h8 ht⟩

/-- The hypotheses of `C90_moved_partial` are met by the two texts above. -/
theorem C90_moved_sample {n : Nat} (hn : 2 ≤ n) :
    ∃ ds s ds' s', compile n calmText = .analyzed ds (.ok () s) ∧ compile n swappedText = .analyzed ds' (.ok () s') ∧
      MovedFunctions (ds.map plainD) (ds'.map plainD) ∧ ds.map plainD ≠ ds'.map plainD := by
  obtain ⟨ds, -, s, -, h1, h2, -⟩ := C90_sample hn
  obtain ⟨hr, ds1, hp, hc, ht⟩ := C80_sample
  obtain ⟨h6, ds3, h7, h8, h9⟩ := moved_keeps moved_swapped hr hp ht
  have hx : program {} swapped = .ok swappedText := text_ok (by decide +kernel)
  have hts : tokenize swappedText = some (tokensOf swappedText, .ok ()) := by decide +kernel
  obtain ⟨ds', s', h3, h4⟩ := C90_again_partial (o := {}) h6 rfl h7 (calmProgram_perm h9 hc) h8 hn (by decide)
    (fun e => absurd (congrArg List.length e) (by decide))
    (fun d hd => printable_calm d (moved_swapped.perm.mem_iff.mpr hd)) hx hts
    (by unfold Unobstructed; decide +kernel) (by decide +kernel) (by decide +kernel)
  refine ⟨ds, s, ds', s', h1, h3, ?_, ?_⟩
  · rw [h2, h4]
    exact .step (l := [_]) (r := []) (.refl _)
  · rw [h2, h4]
    intro e
    have := congrArg (fun ds => (functionsIn ds).map AFn.name) e
    exact absurd this (by decide +kernel)

end Bms
