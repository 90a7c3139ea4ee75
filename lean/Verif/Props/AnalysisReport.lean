import Verif.Spec.AnalysisReport
import Verif.Lemmas.Diagnostics
import Verif.Props.Diagnostics
import Verif.Props.ToString
import Verif.Props.Dump
import Verif.Props.Compile

/-!
# C81: reports of errors of analysis
-/

namespace Bms

open Diag

namespace Report

/-! ## Words -/

/-- The words that are used. -/
def words : Words where
  message c := (prose c).toList
  cause c := (causeProse c).toList
  evaluation e := (evaluationProse e).toList
  thing := thingWords
  type := typeWords

/-- All codes. -/
def codes : List Code := [.failed_to_define_global_const, .failed_to_define_function,
  .failed_to_define_parameter, .failed_to_define_variable, .reference_to_undefined_variable,
  .assignment_of_undefined_variable, .call_to_undefined_function, .width_not_integer, .width_invalid,
  .expected_constant_expression, .let_variable_in_constant_expression, .parameter_in_constant_expression,
  .function_in_expression, .execution_error, .evaluation_error, .condition_not_bool,
  .invalid_integer_literal, .assigning_parameter, .assigning_function, .assigning_const,
  .call_non_function, .wrong_number_of_arguments, .codegen_call_to_unanalyzed,
  .width_deduction_from_non_uint, .static_assert_expression_not_bool, .static_assertion_failed,
  .requires_clause_not_bool, .requires_clause_not_satisfied, .use_of_undefined_variable,
  .use_of_undefined_constant, .empty_return_in_non_void_function, .invalid_operator, .void_operation,
  .bool_arithmetic, .bool_bitwise, .bool_relational_comparison, .int_bitwise, .int_logical, .uint_logical,
  .non_bool_logical, .incompatible_types, .incompatible_widths, .wrong_argument_type, .break_outside_loop,
  .continue_outside_loop, .annotation_unknown, .annotation_not_applicable, .annotation_too_many_arguments,
  .annotation_unknown_parameter, .annotation_argument_duplicate, .annotation_argument_wrong_type,
  .annotation_argument_wrong_value, .annotation_missing_argument]

theorem prose_injective {a b : Code} (h : prose a = prose b) : a = b := by
  have key : ∀ c, codes.find? (fun d => prose d == prose c) = some c := by
    intro c; cases c <;> decide
  have := key b
  rw [← h, key a] at this
  exact Option.some.inj this

theorem thingWords_injective {a b : Thing} (h : thingWords a = thingWords b) : a = b := by
  have key : ∀ c, [Thing.program, .function, .parameter, .type, .constant, .variable, .static_assertion,
      .if_statement, .while_statement, .break_statement, .continue_statement, .return_statement, .assignment,
      .block_statement, .conversion_expression, .if_expression, .binary_expression, .prefix_expression,
      .function_call_expression, .id_expression, .literal, .builtin_function, .annotation,
      .annotation_argument, .annotation_parameter].find? (fun d => thingWords d == thingWords c)
      = some c := by
    intro c; cases c <;> decide
  have := key b
  rw [← h, key a] at this
  exact Option.some.inj this

theorem words_distinct : words.Distinct where
  message a b h := prose_injective (String.toList_injective h)
  evaluation a b h := by
    have h := String.toList_injective h
    cases a <;> cases b <;> first | rfl | exact absurd h (by decide)
  thing a b h := thingWords_injective h
  type a b h := by
    have h : typeWords a = typeWords b := h
    cases a <;> cases b <;> first | rfl | exact absurd h (by decide)

/-! ## Lines -/

theorem quote_eq {src : List Char} {p : Position} (h : Begins src p) (colors : Bool) :
    ∃ before line after offset q, LineAt src before line after p.start offset ∧ offset < line.length ∧
      printAffectedLine src p colors = .ok q ∧ seen q = quotation (p.line + 1) line p.column := by
  obtain ⟨c, cs, hd, hc⟩ := h
  obtain ⟨before, line, after, offset, hl, ho⟩ := lineAt_of_char hd hc
  obtain ⟨q, hq1, hq2⟩ := affectedLine_eq colors (findLine_eq hl ho)
  exact ⟨before, line, after, offset, q, hl, ho, hq1, hq2⟩

theorem seen_prefix (b : Bool) : seen (if b then errorPrefix else notePrefix) =
    if b then "error: ".toList else "note: ".toList := by
  cases b <;> rfl

theorem seen_comparison (colors : Bool) (l op r : List Char) :
    seen (printComparison colors (some (l, op, r))) = l ++ ' ' :: op ++ ' ' :: r := by
  simp only [printComparison, seen_append, ansiHMagenta, ansiReset, seen_color, seen, lit]
  simp

theorem seen_text (s : List Char) : seen [.text s] = s := by simp [seen]

theorem seen_line {file src : List Char} {colors : Bool} {l : Line} {out : Out}
    (h : printLine file src colors l = .ok out) :
    ∃ quote, seen out = seen (printSourcePosition file l.pos colors) ++ ": ".toList ++
      (if l.isError then "error: ".toList else "note: ".toList) ++ l.message ++
      seen (printComparison colors l.comparison) ++ "\n".toList ++ seen quote ∧
      (∀ p, l.pos = some p → l.omitLine = false → printAffectedLine src p colors = .ok quote) ∧
      (l.pos = none ∨ l.omitLine = true → quote = []) := by
  unfold printLine at h
  obtain ⟨q, hq, h⟩ := Outcome.bind_eq_ok.1 h
  cases h
  refine ⟨q, ?_, fun p hp ho => ?_, fun ho => ?_⟩
  · simp only [seen_append, seen_prefix, seen_text, lit]
  · rw [printQuote, hp, ho] at hq
    exact hq
  · rw [printQuote] at hq
    cases hp : l.pos with
    | none => rw [hp] at hq; cases hq; rfl
    | some p =>
      rw [hp] at ho hq
      rw [ho.resolve_left (by simp)] at hq
      cases hq; rfl

theorem printLine_ok {file src : List Char} {colors : Bool} {l : Line}
    (h : ∀ p, l.pos = some p → l.omitLine = false → Begins src p) :
    ∃ out, printLine file src colors l = .ok out := by
  have hq : ∃ q, printQuote src colors l = .ok q := by
    unfold printQuote
    cases hp : l.pos with
    | none => exact ⟨_, rfl⟩
    | some p =>
      cases ho : l.omitLine with
      | true => exact ⟨_, rfl⟩
      | false =>
        obtain ⟨-, -, -, -, q, -, -, hq, -⟩ := quote_eq (h p hp ho) colors
        exact ⟨q, hq⟩
  obtain ⟨q, hq⟩ := hq
  rw [printLine, hq]
  exact ⟨_, rfl⟩

theorem errorLine_eq {src : List Char} {p : Position} (h : Begins src p) (file message : List Char)
    (colors : Bool) :
    ∃ out, printLine file src colors ⟨true, some p, message, none, false⟩ = .ok out ∧
      ErrorAt src file p message (seen out) := by
  obtain ⟨before, line, after, offset, q, hl, ho, hq1, hq2⟩ := quote_eq h colors
  obtain ⟨out, hout⟩ := printLine_ok (file := file) (src := src) (colors := colors)
    (l := ⟨true, some p, message, none, false⟩) (by intro p' hp _; cases hp; exact h)
  obtain ⟨q', hs, h1, -⟩ := seen_line hout
  rw [h1 p rfl rfl] at hq1
  cases hq1
  refine ⟨out, hout, before, line, after, offset, hl, ho, ?_⟩
  rw [hs, hq2]
  simp [printSourcePosition, seen_position, printComparison, seen, report]

theorem noteLine_eq {src : List Char} {p : Position} (h : Begins src p) (file message : List Char)
    (comparison : Option (List Char × List Char × List Char)) (colors : Bool) :
    ∃ out, printLine file src colors ⟨false, some p, message, comparison, false⟩ = .ok out ∧
      NoteAt src file p (message ++ seen (printComparison colors comparison)) (seen out) := by
  obtain ⟨before, line, after, offset, q, hl, ho, hq1, hq2⟩ := quote_eq h colors
  obtain ⟨out, hout⟩ := printLine_ok (file := file) (src := src) (colors := colors)
    (l := ⟨false, some p, message, comparison, false⟩) (by intro p' hp _; cases hp; exact h)
  obtain ⟨q', hs, h1, -⟩ := seen_line hout
  rw [h1 p rfl rfl] at hq1
  cases hq1
  refine ⟨out, hout, before, line, after, offset, hl, ho, ?_⟩
  rw [hs, hq2]
  simp [printSourcePosition, seen_position]

theorem bareLine_eq (src file : List Char) (p : Position) (message : List Char) (colors : Bool) :
    ∃ out, printLine file src colors ⟨false, some p, message, none, true⟩ = .ok out ∧
      seen out = bareNote file p message := by
  obtain ⟨out, hout⟩ := printLine_ok (file := file) (src := src) (colors := colors)
    (l := ⟨false, some p, message, none, true⟩) (by intro p' _ h; cases h)
  obtain ⟨q', hs, -, h1⟩ := seen_line hout
  refine ⟨out, hout, ?_⟩
  rw [hs, h1 (.inr rfl)]
  simp [printSourcePosition, seen_position, printComparison, seen, bareNote]

theorem seen_internal (file : List Char) (colors : Bool) :
    seen (printSourcePosition file none colors) = "(internal)".toList := by
  unfold printSourcePosition
  simp only
  rw [seen_append, seen_append, ansiBlack, ansiReset, seen_color, seen_color, lit, seen_text,
    List.nil_append, List.append_nil]

theorem internal_assoc {x a b c m d w e n f W I F : List Char}
    (hs : x = a ++ b ++ c ++ (m ++ W) ++ [] ++ f ++ []) (hw : W = d ++ w ++ (e ++ n ++ ['\'']) ++ [')'])
    (hi : I = a ++ b ++ c) (hf : F = '\'' :: ')' :: f) :
    x = I ++ m ++ d ++ w ++ e ++ n ++ F := by
  subst hs hw hi hf
  simp

theorem internalLine_eq (src file message : List Char) (c : Info) (hp : c.pos = none) (hn : c.name ≠ [])
    (colors : Bool) :
    ∃ out, printLine file src colors ⟨false, c.pos, message ++ internalWords c, none, false⟩ = .ok out ∧
      seen out = internalNote message (thingWords c.thing) c.name := by
  rw [hp]
  obtain ⟨out, hout⟩ := printLine_ok (file := file) (src := src) (colors := colors)
    (l := ⟨false, none, message ++ internalWords c, none, false⟩) (by intro p' h; cases h)
  obtain ⟨q', hs, -, h1⟩ := seen_line hout
  refine ⟨out, hout, ?_⟩
  have he : c.name.isEmpty = false := by
    cases h : c.name with
    | nil => exact absurd h hn
    | cons _ _ => rfl
  have hw : internalWords c = " (".toList ++ (thingWords c.thing).toList ++
      (" '".toList ++ c.name ++ ['\'']) ++ [')'] := by
    unfold internalWords
    rw [hp, he]
    rfl
  have h2 : "(internal): note: ".toList = "(internal)".toList ++ ": ".toList ++ "note: ".toList := by
    decide
  have h3 : "')\n".toList = '\'' :: ')' :: "\n".toList := by decide
  rw [h1 (.inl rfl), seen_internal] at hs
  exact internal_assoc hs hw h2 h3

theorem seen_notice (colors : Bool) : seen (internalNotice colors) = notice := by
  unfold internalNotice notice
  rw [seen_append, seen_append, ansiHYellow, ansiReset, seen_color, seen_color]
  simp only [lit, seen, List.append_nil, List.nil_append]

/-! ## Notes -/

theorem valueText_ok (v : CVal) : ∃ s, valueText v = .ok s := by
  unfold valueText
  cases v.type <;> exact ⟨_, rfl⟩

/-- What holds for the data of errors that can be reported. -/
structure Good (e : Data) : Prop where
  notReturn : ¬ (e.code = .incompatible_types ∧ e.fail.thing = .return_statement)
  notWidth : e.code ≠ .width_invalid
  notExecution : e.code ≠ .execution_error
  evaluation : e.code = .evaluation_error ↔ e.evaluation ≠ none
  fail : ∃ p, e.fail.pos = some p
  extras : ∀ d, e.extras = .comparison d → ∃ q, e.causePos = some q
  argument : ∀ a, e.extras = .argument a →
    (e.code = .annotation_argument_wrong_type ∨
      (e.code = .annotation_argument_wrong_value ∧ a.constraints = [])) ∧ ∃ q, e.causePos = some q
  name : ∀ c, e.cause = some c → c.pos = none → c.name ≠ []

theorem checkCode_ne (e : CheckErr) : checkCode e ≠ .width_invalid ∧ checkCode e ≠ .execution_error ∧
    checkCode e ≠ .evaluation_error := by
  cases e <;> decide

theorem site_good {s : Site} (h : Reportable s) : Good s.error := by
  cases s with
  | ifExpr e a => have := checkCode_ne e; constructor <;> simp_all [Site.error, Place.info]
  | binaryTypes e a => have := checkCode_ne e; constructor <;> simp_all [Site.error, Place.info]
  | prefixType e a => have := checkCode_ne e; constructor <;> simp_all [Site.error, Place.info]
  | builtinTypes e a =>
    have := checkCode_ne e; constructor <;> simp_all [Site.error, Place.info, builtinInfo]
  | assertFalse c a b =>
    cases c <;> constructor <;> simp_all [Site.error, Place.info, Node.info, extrasOf, Data.causePos]
  | execution e c a b =>
    cases e <;> first
      | exact h.elim
      | cases c <;> constructor <;>
          simp_all [Site.error, Place.info, Node.info, extrasOf, Data.causePos, executionData]
  | defineConst a o =>
    cases o <;> constructor <;> simp_all [Site.error, Place.info, Node.info, Entity.info, builtinInfo]
  | defineFunction a o =>
    cases o <;> constructor <;> simp_all [Site.error, Place.info, Node.info, Entity.info, builtinInfo]
  | defineParameter a o =>
    cases o <;> constructor <;> simp_all [Site.error, Place.info, Node.info, Entity.info, builtinInfo]
  | defineLocalConst a o =>
    cases o <;> constructor <;> simp_all [Site.error, Place.info, Node.info, Entity.info, builtinInfo]
  | defineVariable a o =>
    cases o <;> constructor <;> simp_all [Site.error, Place.info, Node.info, Entity.info, builtinInfo]
  | returnMismatch => exact h.elim
  | missingParameter a n =>
    have h : n ≠ [] := h
    constructor <;> simp_all [Site.error, Place.info]
  | widthInvalid => exact h.elim
  | _ =>
    constructor <;> simp_all [Site.error, Place.info, Node.info, builtinInfo, Data.causePos, wrongArgument]

theorem evaluationError_eq {e : Data} (g : Good e) {x : EvalErr} (h : e.evaluation = some x) :
    e.evaluationError = .ok x := by
  unfold Data.evaluationError
  rw [if_pos (g.evaluation.2 (by simp [h])), h]

theorem causeMessage_eq {e : Data} (g : Good e) : causeMessage e = .ok (words.causeOf e) := by
  unfold causeMessage Words.causeOf
  cases h : e.evaluation with
  | some x =>
    rw [if_pos (g.evaluation.2 (by simp [h])), evaluationError_eq g h]
    rfl
  | none =>
    rw [if_neg (fun hc => g.evaluation.1 hc h)]
    rfl

theorem isInternal_eq {e : Data} (g : Good e) :
    isInternal e = .ok (decide (e.evaluation = some .type_error)) := by
  unfold isInternal
  rw [if_neg g.notExecution]
  cases h : e.evaluation with
  | some x =>
    rw [if_pos (g.evaluation.2 (by simp [h])), evaluationError_eq g h]
    simp [Pure.pure, Outcome.ok_bind]
  | none =>
    rw [if_neg (fun hc => g.evaluation.1 hc h)]
    rfl

/-- The notes for the argument and the cause. -/
theorem notes_eq {src : List Char} {e : Data} (g : Good e) (ht : InText src e) (file : List Char)
    (colors : Bool) :
    ∃ a b out, argumentLines e = .ok a ∧ causeLines e = .ok b ∧
      printLines file src colors (a ++ b) = .ok out ∧ Notes words src file e (seen out) := by
  cases hx : e.extras with
  | none =>
    cases hc : e.cause with
    | none =>
      refine ⟨[], [], [], by rw [argumentLines, hx], by rw [causeLines, hx, hc], rfl, .nothing hc hx⟩
    | some c =>
      refine ⟨[], [⟨false, c.pos, words.causeOf e ++ internalWords c, none, false⟩], ?_⟩
      have hb : causeLines e = .ok [⟨false, c.pos, words.causeOf e ++ internalWords c, none, false⟩] := by
        simp only [causeLines, hx, hc, causeMessage_eq g]
        rfl
      cases hp : c.pos with
      | some q =>
        have hw : internalWords c = [] := by rw [internalWords, hp]
        obtain ⟨out, h1, h2⟩ := noteLine_eq (ht.cause c q hc hp) file (words.causeOf e) none colors
        rw [hp, hw, List.append_nil] at hb
        refine ⟨out ++ [], by rw [argumentLines, hx], by rw [hw, List.append_nil]; exact hb, ?_, ?_⟩
        · rw [hw, List.append_nil]
          simp only [List.nil_append, printLines, h1]
          rfl
        · rw [List.append_nil]
          refine .cause hc hp hx ?_
          simpa [printComparison, seen] using h2
      | none =>
        obtain ⟨out, h1, h2⟩ := internalLine_eq src file (words.causeOf e) c hp (g.name c hc hp) colors
        rw [hp] at hb h1
        refine ⟨out ++ [], by rw [argumentLines, hx], hb, ?_, ?_⟩
        · simp only [List.nil_append, printLines, h1]
          rfl
        · rw [List.append_nil, h2]
          exact .internal hc hp hx (g.name c hc hp)
  | comparison d =>
    obtain ⟨l, hl⟩ := valueText_ok d.left
    obtain ⟨r, hr⟩ := valueText_ok d.right
    obtain ⟨q, hq⟩ := g.extras d hx
    have hq' := hq
    rw [Data.causePos] at hq'
    obtain ⟨c, hc, hcq⟩ := Option.bind_eq_some_iff.1 hq'
    obtain ⟨out, h1, h2⟩ := noteLine_eq (ht.cause c q hc hcq) file "Comparison evaluated to ".toList
      (some (l, d.op.token.codeName.toList, r)) colors
    refine ⟨[], _, out ++ [], by rw [argumentLines, hx], by simp only [causeLines, hx, hl, hr]; rfl, ?_, ?_⟩
    · rw [hq]
      simp only [List.nil_append, printLines, h1]
      rfl
    · rw [List.append_nil]
      refine .comparison hx hc hcq hl hr ?_
      rw [seen_comparison] at h2
      simpa using h2
  | argument a =>
    obtain ⟨h0, q, hq⟩ := g.argument a hx
    obtain ⟨p, hp⟩ := g.fail
    have hq' := hq
    rw [Data.causePos] at hq'
    obtain ⟨c, hc, hcq⟩ := Option.bind_eq_some_iff.1 hq'
    obtain ⟨out, h1, h2⟩ := noteLine_eq (ht.cause c q hc hcq) file (words.causeOf e) none colors
    have hw : internalWords c = [] := by rw [internalWords, hcq]
    have hb : causeLines e = .ok [⟨false, some q, words.causeOf e, none, false⟩] := by
      simp only [causeLines, hx, hc, causeMessage_eq g, hw, hcq, List.append_nil]
      rfl
    have hn : NoteAt src file q (words.causeOf e) (seen out) := by
      simpa [printComparison, seen] using h2
    rcases h0 with h0 | ⟨h0, he⟩
    · obtain ⟨o, h3, h4⟩ := bareLine_eq src file p ("Parameter '".toList ++ a.name ++ "' must be ".toList ++
        (typeWords a.expected).toList) colors
      refine ⟨_, _, o ++ (out ++ []), by simp only [argumentLines, hx, h0, hp]; rfl, hb, ?_, ?_⟩
      · simp only [List.cons_append, List.nil_append, printLines, h1, h3]
        rfl
      · rw [seen_append, List.append_nil, h4]
        exact .argument hx h0 hp hc hcq hn
    · obtain ⟨o, h3, h4⟩ := bareLine_eq src file p ("Parameter '".toList ++ a.name ++ "' must be ".toList)
        colors
      refine ⟨[⟨false, some p, "Parameter '".toList ++ a.name ++ "' must be ".toList, none, true⟩], _,
        o ++ (out ++ []), by simp only [argumentLines, hx, h0, hp, he, List.append_nil], hb, ?_, ?_⟩
      · simp only [List.cons_append, List.nil_append, printLines, h1, h3]
        rfl
      · rw [seen_append, List.append_nil, h4]
        exact .value hx h0 hp hc hcq hn

theorem good_report {src : List Char} {e : Data} (g : Good e) (ht : InText src e) (file : List Char)
    (colors : Bool) :
    ∃ p out first rest, e.fail.pos = some p ∧ printAnalysisError file src e colors = .ok out ∧
      seen out = first ++ rest ++ (if e.evaluation = some .type_error then notice else []) ∧
      ErrorAt src file p (words.message e.code) first ∧ Notes words src file e rest := by
  obtain ⟨p, hp⟩ := g.fail
  obtain ⟨a, b, notes, ha, hb, hn, hnotes⟩ := notes_eq g ht file colors
  obtain ⟨first, h1, h2⟩ := errorLine_eq (ht.fail p hp) file (prose e.code).toList colors
  refine ⟨p, first ++ notes ++ (if e.evaluation = some .type_error then internalNotice colors else []),
    seen first, seen notes, hp, ?_, ?_, h2, hnotes⟩
  · have hm : makePrintable e = .ok ⟨⟨true, some p, (prose e.code).toList, none, false⟩ :: (a ++ b),
        decide (e.evaluation = some .type_error)⟩ := by
      unfold makePrintable
      rw [if_neg g.notReturn, if_neg g.notWidth, executionLines, if_neg g.notExecution, ha, hb,
        isInternal_eq g, hp]
      rfl
    rw [printAnalysisError, hm]
    simp only [Outcome.ok_bind, printPrintable, printLines, h1, hn]
    by_cases hi : e.evaluation = some .type_error <;> simp [hi, Pure.pure, Outcome.ok_bind]
  · rw [seen_append, seen_append]
    by_cases hi : e.evaluation = some .type_error <;> simp [hi, seen, seen_notice]

end Report

open Report

/-- **C81, partial: what is reported.** For every place where analysis makes an error, with the exceptions
below, the report begins with a message that belongs to the error, the place of the node or argument at
which analysis failed and the line that contains it; notes follow that quote the cause and say what went
wrong in an evaluation, which values a false comparison has, and which type an argument should have. Not
so: return statements whose expression has a wrong type (`C81_return`), errors of execution
(`C81_execution`), errors of operators (`C81_hidden`), wrong values of arguments (`Notes.value`); invalid
widths have `C81_width`. -/
theorem C81_report_partial :
    ∃ w : Words, w.Distinct ∧
      ∀ (s : Site) (file src : List Char) (colors : Bool), Reportable s → InText src s.error →
        ∃ p out first rest, s.error.fail.pos = some p ∧
          printAnalysisError file src s.error colors = .ok out ∧
          seen out = first ++ rest ++ (if s.error.evaluation = some .type_error then notice else []) ∧
          ErrorAt src file p (w.message s.error.code) first ∧ Notes w src file s.error rest :=
  ⟨words, words_distinct, fun _ file _ colors h ht => good_report (site_good h) ht file colors⟩

/-- Parameters of annotations have names. -/
theorem C81_parameter_names (t : Annot.AnnotationType) : ∀ p ∈ Annot.parametersOf t, p.name ≠ "" := by
  cases t <;> decide

/-- **C81: values.** The values in notes about comparisons are shown as numbers if they have at most 64
bits (for larger ones see C68), and as `true` or `false`. -/
theorem C81_values {v : CVal} (hb : v.type = .bool → v.int = 0 ∨ v.int = 1)
    (hi : v.type = .int → v.int.natAbs < 2 ^ 64) (hu : ∀ w, v.type = .uint w → 0 ≤ v.int ∧ v.int < 2 ^ 64) :
    ∃ s, valueText v = .ok s ∧ ValueText v s := by
  obtain ⟨t, i⟩ := v
  cases t with
  | void => exact ⟨_, rfl, .void i⟩
  | bool =>
    rcases hb rfl with h | h
    · simp only at h; subst h; exact ⟨_, rfl, .false_⟩
    · simp only at h; subst h; exact ⟨_, rfl, .true_⟩
  | int =>
    have h := hi rfl
    simp only at h
    have hr : InI128 i := by constructor <;> omega
    by_cases hn : 0 ≤ i
    · refine ⟨_, rfl, ?_⟩
      have := C68_nonnegative hr hn
      rw [this]
      have he : i = (i.natAbs : Int) := by omega
      conv => arg 1; rw [he]
      exact .int (C68_small h)
    · refine ⟨_, rfl, ?_⟩
      rw [C68_negative hr (by omega)]
      have he : i = -(i.natAbs : Int) := by omega
      conv => arg 1; rw [he]
      exact .negative (C68_small h) (by omega)
  | uint w =>
    obtain ⟨h1, h2⟩ := hu w rfl
    simp only at h1 h2
    refine ⟨_, rfl, ?_⟩
    have he : i = (toU128 i : Int) := by unfold toU128; omega
    have hs : toU128 i < 2 ^ 64 := by unfold toU128; omega
    conv => arg 1; rw [he]
    exact .uint (C68_small hs)

/-- **C81: widths.** The report of an invalid width shows the width and says what is wrong with it. -/
theorem C81_width {n : Report.Node} {w : Int} {src : List Char} (hw : w ≤ 0 ∨ 128 < w)
    (hb : Begins src n.pos) (file : List Char) (colors : Bool) :
    ∃ reason out, printAnalysisError file src (Site.widthInvalid n w).error colors = .ok out ∧
      ErrorAt src file n.pos ("The width evaluated to ".toList ++ toStringInt w ++ reason) (seen out) ∧
      (w < 0 → reason = ", but widths must be positive.".toList) ∧
      (w = 0 → reason = ", but widths shall not be zero.".toList) ∧
      (128 < w → reason = ", but the maximum allowed is 128.".toList) := by
  have key : ∃ reason, makePrintable (Site.widthInvalid n w).error =
      .ok ⟨[⟨true, some n.pos, "The width evaluated to ".toList ++ toStringInt w ++ reason, none, false⟩],
        false⟩ ∧ (w < 0 → reason = ", but widths must be positive.".toList) ∧
      (w = 0 → reason = ", but widths shall not be zero.".toList) ∧
      (128 < w → reason = ", but the maximum allowed is 128.".toList) := by
    by_cases h1 : w < 0
    · refine ⟨_, ?_, fun _ => rfl, fun h => by omega, fun h => by omega⟩
      simp only [makePrintable, Site.error, widthLines, if_pos h1]
      rfl
    · by_cases h2 : w = 0
      · refine ⟨_, ?_, fun h => by omega, fun _ => rfl, fun h => by omega⟩
        simp only [makePrintable, Site.error, widthLines, if_neg h1, if_pos h2]
        rfl
      · have h3 : w > 128 := by omega
        refine ⟨_, ?_, fun h => by omega, fun h => by omega, fun _ => rfl⟩
        simp only [makePrintable, Site.error, widthLines, if_neg h1, if_neg h2, if_pos h3]
        rfl
  obtain ⟨reason, hm, h1, h2, h3⟩ := key
  obtain ⟨out, ho, he⟩ := errorLine_eq hb file ("The width evaluated to ".toList ++ toStringInt w ++ reason)
    colors
  refine ⟨reason, out ++ [] ++ [], ?_, by simpa using he, h1, h2, h3⟩
  rw [printAnalysisError, hm]
  simp only [Outcome.ok_bind, printPrintable, printLines, ho]
  rfl

/-- **C81, violated: return statements.** If the expression of a return statement has a wrong type, then
nothing is reported: an assertion fails while the report is made. -/
theorem C81_return (a t : Place) (file src : List Char) (colors : Bool) :
    printAnalysisError file src (Site.returnMismatch a t).error colors = .throws := by
  rw [printAnalysisError, makePrintable, if_pos ⟨rfl, rfl⟩]
  rfl

/-- These are the only errors of this kind at return statements. -/
theorem C81_return_only {s : Site} (hc : s.error.code = .incompatible_types)
    (ht : s.error.fail.thing = .return_statement) : ∃ a t, s = .returnMismatch a t := by
  cases s with
  | returnMismatch a t => exact ⟨a, t, rfl⟩
  | execution e c a b => cases e <;> simp [Site.error, executionData] at hc
  | requiresNotBool | requiresFalse | widthNotInteger | widthInvalid | deduction =>
    simp [Site.error] at hc
  | _ => simp_all [Site.error, Place.info]

/-- **C81, violated: errors of execution.** If the evaluation of a call fails for another reason than an
error of evaluation, then the report reads a value that has not been written. -/
theorem C81_execution {e : ExecErr} (he : ∀ x, e ≠ .evaluation x) (c : Option Comparison) (a : Place)
    (b : Report.Node) (file src : List Char) (colors : Bool) :
    printAnalysisError file src (Site.execution e c a b).error colors = .ub := by
  cases e with
  | evaluation x => exact absurd rfl (he x)
  | _ => rfl

/-- **C81, violated: operators.** Reports of errors of operators do not say what went wrong. -/
theorem C81_hidden (x y : EvalErr) (hx : x ≠ .type_error) (hy : y ≠ .type_error) (a : Place)
    (file src : List Char) (colors : Bool) :
    printAnalysisError file src (Site.binaryValue x a).error colors =
      printAnalysisError file src (Site.binaryValue y a).error colors ∧
    printAnalysisError file src (Site.prefixValue x a).error colors =
      printAnalysisError file src (Site.prefixValue y a).error colors := by
  cases x <;> cases y <;> first | exact absurd rfl hx | exact absurd rfl hy | exact ⟨rfl, rfl⟩

/-- **C81 for programs, partial.** The errors at nodes of a parsed text are reported with the position of a
token that introduces the node, and with the line of this token. -/
theorem C81_text_partial :
    ∃ w : Words, w.Distinct ∧
      ∀ {src : List Char} {ts : List Token} {nodes : List Parse.Node} {root h : Nat} {code : ACode}
        {s : Site} (file : List Char) (colors : Bool),
        tokenize src = some (ts, .ok ()) → Parse.parse src ts = .ok nodes root →
        Report.FailsAt nodes code h s.error → Reportable s →
        ∃ n t out first rest, nodes[h]? = some n ∧ t ∈ ts ∧ Spec.IntroducedBy src nodes n t ∧ n.pos.pos = t.pos ∧
          printAnalysisError file src s.error colors = .ok out ∧ seen out = first ++ rest ∧
          ErrorAt src file t.pos (w.message (codeOf code)) first := by
  refine ⟨words, words_distinct, ?_⟩
  intro src ts nodes root h code s file colors ht hp hf hr
  have begins : ∀ n ∈ nodes, ∃ t ∈ ts, n.pos.pos = t.pos ∧ Spec.IntroducedBy src nodes n t ∧
      Begins src n.pos.pos := by
    intro n hn
    obtain ⟨⟨t, hm, hs, hi⟩, -⟩ := C78_places_partial hp n hn
    have : n.pos.pos = t.pos := by rw [hs]; rfl
    exact ⟨t, hm, this, hi, by rw [this]; exact token_char ht hm⟩
  obtain ⟨n, hn, hpos, -⟩ := hf.node
  obtain ⟨t, hm, hs, hi, hb⟩ := begins n (List.mem_of_getElem? hn)
  have hin : InText src s.error := by
    refine ⟨fun p h => ?_, fun c q hc hq => ?_⟩
    · rw [hpos] at h
      cases h
      exact hb
    · obtain ⟨m, hm, rfl⟩ := hf.cause c q hc hq
      exact (begins m hm).choose_spec.2.2.2
  obtain ⟨p, out, first, rest, h1, h2, h3, h4, -⟩ := good_report (site_good hr) hin file colors
  rw [hpos] at h1
  cases h1
  refine ⟨n, t, out, first, _, hn, hm, hi, hs, h2, by rw [h3, List.append_assoc], ?_⟩
  rw [← hs, ← hf.code]
  exact h4

/-! ## Cases -/

namespace Report

/-- The error with which the analysis of a text ends. -/
def rejection (n : Nat) (src : List Char) : Option AErr :=
  match compile n src with
  | .analyzed _ (.err e) => some e
  | _ => none

def returnSource : List Char := "function f() -> Bool { return 0; }".toList

def loadSource : List Char :=
  "function f() -> Int { let x: Int; return x; }\nconst y = f();".toList

end Report

/-- A program for which `C81_return` applies: nothing that can be made of the error is reported. -/
theorem C81_return_program :
    rejection 50 returnSource = some ⟨.check .incompatible_types, Build.key 1⟩ ∧
    (nodesOf returnSource)[1]?.map (·.kind) = some .return_statement ∧
    ∀ s : Site, Report.FailsAt (nodesOf returnSource) (.check .incompatible_types) 1 s.error →
      ∀ file colors, printAnalysisError file returnSource s.error colors = .throws := by
  have hk : (nodesOf returnSource)[1]?.map (·.kind) = some .return_statement := by decide +kernel
  refine ⟨by decide +kernel, hk, ?_⟩
  intro s hf file colors
  obtain ⟨n, hn, -, ht⟩ := hf.node
  rw [hn] at hk
  have hk : n.kind = .return_statement := by simpa using hk
  rw [hk] at ht
  obtain ⟨a, t, rfl⟩ := C81_return_only hf.code (by simpa [thingOf] using ht.symm)
  exact C81_return ..

/-- A program for which `C81_execution` applies: the analysis fails with an error of execution, and only
`Site.execution` makes such errors. -/
theorem C81_execution_program :
    rejection 50 loadSource = some ⟨.execution .load_uninitialized, Build.key 7⟩ ∧
    ∀ s : Site, s.error.code = .execution_error → ∀ file colors,
      printAnalysisError file loadSource s.error colors = .ub := by
  refine ⟨by decide +kernel, ?_⟩
  intro s hs file colors
  cases s with
  | execution e c a b =>
    refine C81_execution (fun x hx => ?_) c a b file _ colors
    subst hx
    simp [Site.error, executionData] at hs
  | ifExpr e a => exact absurd hs (checkCode_ne e).2.1
  | binaryTypes e a => exact absurd hs (checkCode_ne e).2.1
  | prefixType e a => exact absurd hs (checkCode_ne e).2.1
  | builtinTypes e a => exact absurd hs (checkCode_ne e).2.1
  | _ => simp [Site.error] at hs

/-- A whole report. -/
theorem C81_sample :
    rejection 50 "const a = 1;\nconst b: Bool = a;\n".toList =
      some ⟨.check .incompatible_types, Build.key 4⟩ ∧
    ∃ out, printAnalysisError "f.bms".toList "const a = 1;\nconst b: Bool = a;\n".toList
        (Site.constMismatch ⟨⟨1, 0, 13⟩, "b".toList⟩ ⟨.id_expression, ⟨1, 16, 29⟩, "a".toList⟩).error false
        = .ok out ∧
      String.ofList (seen out) = "f.bms:2:1: error: Incompatible types for operation or conversion.\n    2 | const b: Bool = a;\n      | ^\nf.bms:2:17: note: Caused by:\n    2 | const b: Bool = a;\n      |                 ^\n" := by
  refine ⟨by decide +kernel, _, rfl, by decide +kernel⟩

/-- **C81, violated: widths that cannot be deduced.** The note says that the expression that it quotes is
not of type `Uint`, but it quotes the width of the parameter. -/
theorem C81_deduction :
    ∃ out, printAnalysisError "f.bms".toList "function f(x: Uint(N)) { }\nconst y = f(true);\n".toList
        (Site.deduction ⟨.literal, ⟨1, 12, 39⟩, []⟩ ⟨.id_expression, ⟨0, 19, 19⟩, "N".toList⟩).error false
        = .ok out ∧
      String.ofList (seen out) = "f.bms:2:13: error: Cannot deduce the width of Uint from a type that is not Uint.\n    2 | const y = f(true);\n      |             ^\nf.bms:1:20: note: The following expression is not of type 'Uint':\n    1 | function f(x: Uint(N)) { }\n      |                    ^\n" := by
  refine ⟨_, rfl, by decide +kernel⟩

/-- **C81, violated: values of arguments.** The note does not say which values are allowed. -/
theorem C81_argument_value :
    ∃ out, printAnalysisError "f.bms".toList "@unroll(0) while true { }".toList
        (Site.argumentValue "limit".toList .integer ⟨⟨0, 8, 8⟩, []⟩ ⟨⟨0, 0, 0⟩, "unroll".toList⟩).error false
        = .ok out ∧
      String.ofList (seen out) = "f.bms:1:9: error: This argument value is not allowed.\n    1 | @unroll(0) while true { }\n      |         ^\nf.bms:1:9: note: Parameter 'limit' must be \nf.bms:1:1: note: In this annotation:\n    1 | @unroll(0) while true { }\n      | ^\n" := by
  refine ⟨_, rfl, by decide +kernel⟩

/-- Values for which `C81_values` speaks. -/
example : ∃ s, valueText ⟨.int, -42⟩ = .ok s ∧ ValueText ⟨.int, -42⟩ s :=
  C81_values (by simp) (by intro _; decide) (by simp)

end Bms
