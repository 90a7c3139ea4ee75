import Verif.Lemmas.Placed
import Verif.Props.AnalysisReport
import Verif.Props.AnalysisFinite
import Verif.Props.Blame
import Verif.Props.Cli
import Verif.Props.Scopes

/-!
# C87: what a person reads about a rejected program is true
-/

namespace Bms

open Spec Parse Report Placed

/-! ## Specification -/

/-- The program misuses a name, with this error at the node with this key. -/
def Spec.Misuses (ds : List ADecl) (code : ACode) (k : Key) : Prop :=
  ∃ i ∈ items ds, ¬ i.Good ∧ i.fault = .err ⟨code, k⟩

/-- The program is wrong in the way that the code tells, at the node with this key: it misuses a name, or all names are
fine and it breaks a rule. -/
def Spec.Wrong (ds : List ADecl) (code : ACode) (k : Key) : Prop :=
  Misuses ds code k ∨ ((∀ i ∈ items ds, i.Good) ∧ ∃ ds', ds'.map stripD = ds.map stripD ∧
    (∀ i ∈ itemsDs (globals predefined ds) ds', i.Bound) ∧ Breaks ds' code k)

/-- Errors that have a message of their own (widths), that the model of analysis places at the function instead of the
call in it, or that cannot be reported at all (`C81_execution`). -/
def Spec.Unexplained : ACode → Prop
  | .width_invalid => True
  | .codegen_call_to_unanalyzed => True
  | .execution (.evaluation _) => False
  | .execution _ => True
  | _ => False

/-- The error is about the type of a result. -/
def Spec.WrongResult (code : ACode) (n : Parse.Node) : Prop :=
  code = .check .incompatible_types ∧ n.kind = .return_statement

/-- Errors are made by places that can make them, at the node where analysis fails. -/
def Spec.MakesErrors (w : Cli.World) : Prop :=
  ∀ nodes e h, e.fail % (nodes.length + 1) = Build.key h → (∃ s : Site, Report.FailsAt nodes e.code h s.error) →
    Report.FailsAt nodes e.code h (w.site nodes (.check e)).error

/-! ## Proofs -/

namespace Placed

theorem thingOf_return {k : Kind} (h : thingOf k = some .return_statement) : k = .return_statement := by
  cases k <;> simp [thingOf] at h
  rfl

theorem reportable_of {nodes : List Parse.Node} {code : ACode} {h : Nat} {n : Parse.Node} {s : Site}
    (hf : Report.FailsAt nodes code h s.error) (hn : nodes[h]? = some n) (hc : ¬ Unexplained code)
    (hr : ¬ WrongResult code n) : Reportable s := by
  obtain ⟨m, hm, -, ht⟩ := hf.node
  rw [hn] at hm
  cases hm
  have hcode := hf.code
  cases s with
  | returnMismatch a b =>
    refine absurd ⟨?_, thingOf_return ht⟩ hr
    simp only [Site.error] at hcode
    cases code with
    | check x => cases x <;> simp [codeOf, checkCode] at hcode; rfl
    | execution x => cases x <;> simp [codeOf] at hcode
    | _ => simp [codeOf] at hcode
  | widthInvalid a b =>
    simp only [Site.error] at hcode
    cases code with
    | check x => cases x <;> simp [codeOf, checkCode] at hcode
    | execution x => cases x <;> simp [codeOf] at hcode
    | width_invalid => exact absurd trivial hc
    | _ => simp [codeOf] at hcode
  | execution x c a b =>
    cases x with
    | evaluation => trivial
    | _ =>
      simp only [Site.error, executionData] at hcode
      cases code with
      | check x => cases x <;> simp [codeOf, checkCode] at hcode
      | execution x => cases x <;> first | exact absurd trivial hc | simp [codeOf] at hcode
      | _ => simp [codeOf] at hcode
  | missingParameter a b =>
    simp only [Site.error] at hcode
    cases code with
    | check x => cases x <;> simp [codeOf, checkCode] at hcode
    | execution x => cases x <;> simp [codeOf] at hcode
    | _ => simp [codeOf] at hcode
  | _ => trivial

/-- What is known about a rejected text. -/
theorem rejected {n : Nat} {src : List Char} {ds : List ADecl} {e : AErr}
    (hx : compile n src = .analyzed ds (.err e)) (hp : PlainSignatures ds) (hc : e.code ≠ .codegen_call_to_unanalyzed) :
    ∃ ts nodes root h node, tokenize src = some (ts, .ok ()) ∧ parse src ts = .ok nodes root ∧
      Build.program nodes root = .ok ds ∧ nodes[h]? = some node ∧ e.fail % (nodes.length + 1) = Build.key h ∧
      Wrong ds e.code (Build.key h) ∧ ∃ s : Site, Report.FailsAt nodes e.code h s.error := by
  cases hk : tokenize src with
  | none => simp [compile, hk] at hx
  | some p =>
    obtain ⟨ts, r'⟩ := p
    cases r' with
    | ok u =>
      cases hq : parse src ts with
      | ok nodes root =>
        have hv := C60_violation hq
        have hg : ∀ k ∈ ts, k.type ≠ .greater_or_equal := by
          intro k hm e
          have := hv.1.2 ⟨k, hm, e⟩
          simp [compile, hk, hq, this] at hx
        obtain ⟨t, ds', h1, -, h3, h4, -, h6⟩ := C60_tree_partial hq hg
        simp only [compile, hk, hq, h3, CompileResult.analyzed.injEq] at hx
        obtain ⟨rfl, hx⟩ := hx
        have hraw := h6 hp
        have hfr : FreshParams ds' := by
          cases h4 with | mk h => exact freshDecls _ h
        have hat := program_at root ds' h3
        have fin : ∀ k, Placed.Names (ds'.flatMap thingsD) e.code k → ∃ h node, nodes[h]? = some node ∧ k = Build.key h ∧
            ∃ s : Site, Report.FailsAt nodes e.code h s.error := by
          intro k hk
          obtain ⟨t, hm, hmade⟩ := hk
          obtain ⟨h, node, e1, e2, e3⟩ := hat _ hm
          obtain ⟨s, s1, s2, s3, s4⟩ := hmade node.pos.pos
          refine ⟨h, node, e2, e1, s, s1, ⟨node, e2, s2, by rw [s3]; exact e3⟩, ?_⟩
          intro c q hc hq
          exact ⟨node, List.mem_of_getElem? e2, s4 c hc q hq⟩
        rcases C85_blame_partial hraw hfr hx with hn | ⟨ds1, hn, hb⟩
        · obtain ⟨before, i, after, hi, -, hbad, hfault⟩ := (C35_error ds' e).1 hn
          have him : i ∈ items ds' := by rw [hi]; simp
          obtain ⟨h, node, e1, e2, e3⟩ := fin _ ((items_names ds' i him).fault hfault)
          have hlt : h < nodes.length := (List.getElem?_eq_some_iff.1 e1).1
          refine ⟨ts, nodes, root, h, node, rfl, hq, h3, e1, ?_, .inl ⟨i, him, hbad, ?_⟩, e3⟩
          · rw [e2]; exact Nat.mod_eq_of_lt (by simp only [Build.key]; omega)
          · rw [hfault, ← e2]
        · have hs := lookup_strip hn
          obtain ⟨h, node, e1, e2, e3⟩ := fin _ (things_strip hs ▸ breaks_names hb hc)
          refine ⟨ts, nodes, root, h, node, rfl, hq, h3, e1, e2, .inr ⟨?_, ds1, hs, (C35_bound ds' ds1 hn).1, ?_⟩, e3⟩
          · have := C35_verdict ds'
            rw [hn] at this
            exact Scopes.verdict_ok this.symm
          · rw [← e2]; exact hb
      | err e => simp [compile, hk, hq] at hx
      | throws => simp [compile, hk, hq] at hx
      | diverge => simp [compile, hk, hq] at hx
    | err e => simp [compile, hk] at hx
    | throws => simp [compile, hk] at hx
    | ub => simp [compile, hk] at hx

theorem result_throws {nodes : List Parse.Node} {code : ACode} {h : Nat} {n : Parse.Node} {s : Site}
    (hf : Report.FailsAt nodes code h s.error) (hn : nodes[h]? = some n) (hr : WrongResult code n)
    (file src : List Char) (colors : Bool) : printAnalysisError file src s.error colors = .throws := by
  obtain ⟨m, hm, -, ht⟩ := hf.node
  rw [hn] at hm
  cases hm
  rw [hr.2] at ht
  have hcode := hf.code
  rw [hr.1] at hcode
  obtain ⟨a, t, rfl⟩ := C81_return_only hcode (by simpa [thingOf] using ht.symm)
  exact C81_return ..

end Placed

/-- **C87, partial** (`Unexplained` and `WrongResult` are missing; what C85 leaves open is open here, too). If analysis
rejects a text, then there is a token of the text that introduces a node, the program is wrong at this node in the way
that the code of the error tells, and the error can be made by a place in the code; and whichever place makes it, the
report begins with the message for this code and only this code, with the position of the token, and with its line. If it is the type of a
result that is wrong, then nothing is reported. -/
theorem C87_report_partial :
    ∃ w : Words, w.Distinct ∧
      ∀ {n : Nat} {src : List Char} {ds : List ADecl} {e : AErr}, compile n src = .analyzed ds (.err e) →
        PlainSignatures ds → ¬ Unexplained e.code →
        ∃ ts nodes root h node t, tokenize src = some (ts, .ok ()) ∧ parse src ts = .ok nodes root ∧
          Build.program nodes root = .ok ds ∧ nodes[h]? = some node ∧ t ∈ ts ∧ IntroducedBy src nodes node t ∧
          e.fail % (nodes.length + 1) = Build.key h ∧ Wrong ds e.code (Build.key h) ∧
          (∃ s : Site, Report.FailsAt nodes e.code h s.error) ∧
          (¬ WrongResult e.code node → ∀ s : Site, Report.FailsAt nodes e.code h s.error → ∀ file colors,
            ∃ out first rest, printAnalysisError file src s.error colors = .ok out ∧ Diag.seen out = first ++ rest ∧
              ErrorAt src file t.pos (w.message (codeOf e.code)) first) ∧
          (WrongResult e.code node → ∀ s : Site, Report.FailsAt nodes e.code h s.error → ∀ file colors,
            printAnalysisError file src s.error colors = .throws) := by
  obtain ⟨w, hw, h81⟩ := C81_text_partial
  refine ⟨w, hw, ?_⟩
  intro n src ds e hx hp hu
  have hc : e.code ≠ .codegen_call_to_unanalyzed := fun h => hu (by rw [h]; trivial)
  obtain ⟨ts, nodes, root, h, node, a1, a2, a3, a4, a5, a6, a7⟩ := rejected hx hp hc
  obtain ⟨⟨t, hm, hs, hi⟩, -⟩ := C78_places_partial a2 node (List.mem_of_getElem? a4)
  refine ⟨ts, nodes, root, h, node, t, a1, a2, a3, a4, hm, hi, a5, a6, a7, ?_,
    fun hr s hf file colors => result_throws hf a4 hr file src colors⟩
  intro hr s hf file colors
  obtain ⟨m, t', out, first, rest, b1, -, -, b2, b4, b5, b6⟩ :=
    h81 file colors a1 a2 hf (reportable_of hf a4 hu hr)
  rw [a4] at b1
  cases b1
  refine ⟨out, first, rest, b4, b5, ?_⟩
  rw [hs] at b2
  rw [show t.pos = t'.pos from b2]
  exact b6

/-- **C87 on the terminal, partial** (like `C87_report_partial`). If `verify` or `generate` is used with a file whose
program analysis rejects, and whose annotations are allowed, then the program is wrong at a node that a token introduces,
in the way that the code of the error tells; the status is 1, and what is shown begins with the name of the file, the
place of this token, the message for the code, and the line of the token. If it is the type of a result that is wrong,
then an exception is caught instead. -/
theorem C87_terminal_partial :
    ∃ words : Words, words.Distinct ∧
      ∀ (w : Cli.World) (args : List (List Char)) (file src : List Char), MakesErrors w → LooksAt .checks args file →
        Suffix ".bms" file → w.file file = .content src → Enough w.fuel src →
        ∀ (ds : List ADecl) (e : AErr), compile w.fuel src = .analyzed ds (.err e) → PlainSignatures ds →
        ¬ Unexplained e.code →
        (∀ ts nodes root, tokenize src = some (ts, .ok ()) → parse src ts = .ok nodes root →
          ∃ rs, Annot.resolve nodes root = .ok rs) →
        ∃ ts nodes root h node t, tokenize src = some (ts, .ok ()) ∧ parse src ts = .ok nodes root ∧
          Build.program nodes root = .ok ds ∧ nodes[h]? = some node ∧ t ∈ ts ∧ IntroducedBy src nodes node t ∧
          Wrong ds e.code (Build.key h) ∧
          (¬ WrongResult e.code node → (Cli.main w args).ending = .exit 1 ∧ ∃ first rest,
            Diag.seen (Cli.main w args).shown = first ++ rest ∧
            ErrorAt src file t.pos (words.message (codeOf e.code)) first) ∧
          (WrongResult e.code node → (Cli.main w args).ending = .internal) := by
  obtain ⟨words, hw, h87⟩ := C87_report_partial
  refine ⟨words, hw, ?_⟩
  intro w args file src hm hl hs h1 h2 ds e hx hp hu ha
  obtain ⟨ts, nodes, root, h, node, t, a1, a2, a3, a4, a5, a6, a7, a8, a9, a10, a11⟩ := h87 hx hp hu
  obtain ⟨rs, hr⟩ := ha ts nodes root a1 a2
  have he : Ana.program w.fuel ds (nodes.length + 1) = .err e := by
    simp only [compile, a1, a2, a3, CompileResult.analyzed.injEq, true_and] at hx
    exact hx
  obtain ⟨f, hff⟩ := Cli.looks_checks (w := w) hl hs ⟨h1, h2, a1, a2⟩
  have hf := hm nodes e h a7 a9
  refine ⟨ts, nodes, root, h, node, t, a1, a2, a3, a4, a5, a6, a8, ?_, ?_⟩
  · intro hn
    obtain ⟨out, first, rest, b1, b2, b3⟩ := a10 hn _ hf file true
    rw [hff, Cli.step_error (r := .exit 1 out) (by
      rw [Cli.analyzeParsed.eq_def]; simp only [a3, hr, he, b1]; rfl)]
    exact ⟨rfl, first, rest, b2, b3⟩
  · intro hn
    have hth := a11 hn _ hf file true
    rw [hff, Cli.step_error (r := .internal) (by
      rw [Cli.analyzeParsed.eq_def]; simp only [a3, hr, he, hth]; rfl)]
    rfl

/-! ## Cases -/

namespace Placed

/-- The text is rejected with this error, and its signatures are plain. -/
def rejects (n : Nat) (src : String) (e : AErr) : Bool :=
  match compile n src.toList with
  | .analyzed ds (.err e') => plainB ds && decide (e' = e)
  | _ => false

theorem rejects_sound {n : Nat} {src : String} {e : AErr} (h : rejects n src e = true) :
    ∃ ds, compile n src.toList = .analyzed ds (.err e) ∧ PlainSignatures ds := by
  unfold rejects at h
  cases hc : compile n src.toList with
  | analyzed ds r =>
    rw [hc] at h
    cases r with
    | err e' =>
      simp only [Bool.and_eq_true, decide_eq_true_eq] at h
      exact ⟨ds, by rw [h.2], plainB_sound h.1⟩
    | _ => simp at h
  | _ => rw [hc] at h; simp at h

end Placed

/-- Texts that are rejected: for an initializer, for a name, in an instance of a generic function (the key is that of a
copy, and the node is that of the generic function), and for a result. -/
theorem C87_sample :
    (∃ ds, compile 50 "const a = 1;\nconst b: Bool = a;\n".toList =
        .analyzed ds (.err ⟨.check .incompatible_types, Build.key 4⟩) ∧ PlainSignatures ds) ∧
    (∃ ds, compile 50 "const a = b;".toList =
        .analyzed ds (.err ⟨.reference_to_undefined_variable, Build.key 0⟩) ∧ PlainSignatures ds) ∧
    (∃ ds, compile 50
        "function h(x: Uint(8)) -> Uint(8) { return g(x); }\nfunction g(x: Uint(N)) -> Uint(N) { while x { } return x; }".toList =
        .analyzed ds (.err ⟨.check .condition_not_bool, 45⟩) ∧ PlainSignatures ds) ∧
    (∃ ds, compile 50 returnSource = .analyzed ds (.err ⟨.check .incompatible_types, Build.key 1⟩) ∧
        PlainSignatures ds) ∧
    ¬ Unexplained (.check .incompatible_types) ∧ ¬ Unexplained .reference_to_undefined_variable :=
  ⟨rejects_sound (n := 50) (by decide +kernel), rejects_sound (n := 50) (by decide +kernel),
    rejects_sound (n := 50) (by decide +kernel),
    rejects_sound (n := 50) (src := "function f() -> Bool { return 0; }") (by decide +kernel), fun h => h, fun h => h⟩

open Classical in
/-- There are worlds that make errors as they should. -/
theorem C87_world (w : Cli.World) : ∃ site, MakesErrors { w with site := site } := by
  refine ⟨fun nodes f => match f with
    | .check e =>
      if hx : ∃ s : Site, ∃ h, e.fail % (nodes.length + 1) = Build.key h ∧ Report.FailsAt nodes e.code h s.error then
        hx.choose
      else .literal ⟨⟨0, 0, 0⟩, []⟩
    | .annotation _ => .literal ⟨⟨0, 0, 0⟩, []⟩, ?_⟩
  intro nodes e h hk hs
  have hx : ∃ s : Site, ∃ h, e.fail % (nodes.length + 1) = Build.key h ∧ Report.FailsAt nodes e.code h s.error := by
    obtain ⟨s, hs⟩ := hs
    exact ⟨s, h, hk, hs⟩
  simp only [dif_pos hx]
  obtain ⟨h', h1, h2⟩ := hx.choose_spec
  rw [hk] at h1
  have : h = h' := Nat.succ.inj h1
  rw [this]
  exact h2

end Bms
