import Verif.Lemmas.DocErrors
import Verif.Props.Diagnostics

/-!
# C75 and C76: reports of errors in documents
-/

namespace Bms

open Spec Diag Bmd

namespace Diag

theorem after_eq (t : List Char) : after ⟨0, 0, 0⟩ t = positionAfterText t := by
  have key : ∀ r : List Char, after ⟨0, 0, 0⟩ r.reverse = positionAfterText r.reverse := by
    intro r
    induction r with
    | nil => rfl
    | cons c r ih =>
      rw [List.reverse_cons, after_append', ih]
      show stepPos c (positionAfterText r.reverse) = _
      unfold positionAfterText columnAfter stepPos
      rw [List.reverse_append, List.count_append, List.length_append]
      simp only [List.reverse_cons, List.reverse_nil, List.nil_append, List.singleton_append,
        List.takeWhile_cons, List.length_cons, List.length_nil, Nat.zero_add, List.reverse_reverse]
      by_cases h1 : c = '\n'
      · subst h1; simp
      by_cases h2 : c = '\r'
      · subst h2; simp
      by_cases h3 : c = '\t'
      · subst h3; simp; omega
      · split
        · exact absurd rfl h1
        · exact absurd rfl h2
        · exact absurd rfl h3
        · have h1' : ¬ '\n' = c := fun h => h1 h.symm
          simp [h1, h2, h3]; omega
  have := key t.reverse
  rwa [List.reverse_reverse] at this

/-- All codes. -/
def allCodes : List Code :=
  [.unexpected_character, .unexpected_eof, .unterminated_comment, .invalid_integer_literal,
   .integer_suffix, .invalid_directive, .duplicate_argument, .directive_must_be_empty,
   .paragraph_break_in_span, .directive_in_text_span, .text_in_directive_list,
   .directive_not_allowed]

theorem mem_allCodes (c : Code) : c ∈ allCodes := by cases c <;> decide

/-- The message for a code. -/
def documentText (c : Code) : List Char := seen [documentProse c]

theorem documentText_injective {a b : Code} (h : documentText a = documentText b) : a = b := by
  have key : ∀ a ∈ allCodes, ∀ b ∈ allCodes, documentText a = documentText b → a = b := by
    decide +kernel
  exact key a (mem_allCodes a) b (mem_allCodes b) h

/-- All rules for documents. -/
def allDocumentRules : List Bmd.Rule :=
  [.document, .content, .paragraph, .paragraph_break, .text, .directive, .arguments, .block,
   .raw_content, .argument, .value, .binary_literal, .octal_literal, .decimal_literal,
   .hexadecimal_literal, .identifier, .blank]

theorem mem_allDocumentRules (r : Bmd.Rule) : r ∈ allDocumentRules := by cases r <;> decide

theorem documentRuleName_injective {a b : Bmd.Rule} (h : documentRuleName a = documentRuleName b) :
    a = b := by
  have key : ∀ a ∈ allDocumentRules, ∀ b ∈ allDocumentRules,
      documentRuleName a = documentRuleName b → a = b := by
    decide +kernel
  exact key a (mem_allDocumentRules a) b (mem_allDocumentRules b) h

/-- All codes of the conversion. -/
def allDocCodes : List DocCode :=
  [.writer_misuse, .directive_not_allowed, .meta_not_at_start_of_file, .duplicate_meta_entry,
   .invalid_language, .invalid_architecture, .number_attribute_not_allowed,
   .code_tokenization_failure]

theorem mem_allDocCodes (c : DocCode) : c ∈ allDocCodes := by cases c <;> decide

/-- The message for a code of the conversion. -/
def conversionText (c : DocCode) : List Char := seen [conversionProse c]

theorem conversionText_injective {a b : DocCode} (h : conversionText a = conversionText b) : a = b := by
  have key : ∀ a ∈ allDocCodes, ∀ b ∈ allDocCodes, conversionText a = conversionText b → a = b := by
    decide +kernel
  exact key a (mem_allDocCodes a) b (mem_allDocCodes b) h

/-- The message for an error at a character. -/
def charMessage (describe : Code → List Char) (name : Bmd.Rule → List Char) (code : Code)
    (rule : Bmd.Rule) (c : Char) : List Char :=
  if code = .unexpected_character then
    "unexpected character '".toList ++ c :: "' while matching '".toList ++ name rule ++ "'".toList
  else describe code

theorem documentError_seen {file source line : List Char} {code : Code} {rule : Bmd.Rule}
    {pos : Position} {c : Char} (colors : Bool) (hc : source[pos.start]? = some c)
    (h : findLine source pos.start = .ok line) :
    ∃ out, printDocumentParseError file source code rule pos colors = .ok out ∧
      seen out = report file (pos.line + 1) (pos.column + 1)
        (charMessage documentText documentRuleName code rule c) line pos.column := by
  obtain ⟨q, hq1, hq2⟩ := affectedLine_eq colors h
  have hs : source.isEmpty = false := by
    cases source with
    | nil => simp at hc
    | cons => rfl
  have hm : ∃ m, documentMessage source code rule pos = .ok m ∧
      seen m = charMessage documentText documentRuleName code rule c ++ ['\n'] := by
    unfold documentMessage charMessage
    by_cases hu : code = .unexpected_character
    · rw [if_pos hu, if_pos hu, hc]
      refine ⟨_, rfl, ?_⟩
      simp only [seen, lit]
      simp
    · rw [if_neg hu, if_neg hu]
      refine ⟨_, rfl, ?_⟩
      cases hp : documentProse code with
      | ansi s => cases code <;> cases hp
      | text s => simp only [seen, lit, documentText, hp]; simp
  obtain ⟨m, hm1, hm2⟩ := hm
  refine ⟨_, by rw [printDocumentParseError, hm1]; simp only [Outcome.ok_bind, hs, hq1]; rfl, ?_⟩
  simp only [seen_append, seen_position, hq2, hm2, errorPrefix, ansiHRed, ansiReset, seen, lit, report]
  simp

end Diag

/-- **C75, partial: what is reported.** An error of the parser for documents at a character that is not a
line feed is reported with a message that belongs to the error and, where it is about the character, to the
character and the rule; with the right number of the line and with the right column; and with the line of
the document that contains the error. -/
theorem C75_report_partial :
    ∃ (describe : Code → List Char) (name : Bmd.Rule → List Char),
      (∀ a b, describe a = describe b → a = b) ∧ (∀ a b, name a = name b → a = b) ∧
      ∀ (file source : List Char) (n : Nat) (code : Code) (rule : Bmd.Rule) (q : Position) (c : Char)
        (colors : Bool), Bmd.parse n source = .err code rule q → source[q.start]? = some c → c ≠ '\n' →
        ∃ before line after offset out, LineAt source before line after q.start offset ∧
          line[offset]? = some c ∧ printDocumentParseError file source code rule q colors = .ok out ∧
          seen out = report file (before.count '\n' + 1) (columnAfter (line.take offset) + 1)
            (if code = .unexpected_character then
              "unexpected character '".toList ++ c :: "' while matching '".toList ++ name rule ++
                "'".toList
            else describe code) line (columnAfter (line.take offset)) ∧
          ((∀ c ∈ line.take offset, ¬ Special c) → columnAfter (line.take offset) = offset) := by
  refine ⟨documentText, documentRuleName, fun _ _ => documentText_injective,
    fun _ _ => documentRuleName_injective, ?_⟩
  intro file source n code rule q c colors h hc hn
  obtain ⟨t, u, h1, rfl⟩ := C61_located h
  have hstart : (Bmd.after ⟨0, 0, 0⟩ t).start = t.length := by rw [after_eq]; rfl
  have hd : ∃ cs, source.drop (Bmd.after ⟨0, 0, 0⟩ t).start = c :: cs := by
    rw [hstart] at hc ⊢
    rw [h1, List.getElem?_append_right (Nat.le_refl _), Nat.sub_self] at hc
    rw [h1, List.drop_left]
    cases u with
    | nil => simp at hc
    | cons d u => exact ⟨u, by simpa using hc⟩
  obtain ⟨cs, hd⟩ := hd
  obtain ⟨before, line, after, offset, hl, ho⟩ := lineAt_of_char hd hn
  obtain ⟨out, ho1, ho2⟩ := documentError_seen (file := file) (code := code) (rule := rule) colors hc
    (findLine_eq hl ho)
  have hpos := position_in_line hl
  rw [hstart, h1, List.take_left, ← after_eq] at hpos
  refine ⟨before, line, after, offset, out, hl, ?_, ho1, ho2.trans ?_, fun hn => ?_⟩
  · rw [hl.split, hl.index, List.append_assoc, List.getElem?_append_right (by omega),
      Nat.add_sub_cancel_left, List.getElem?_append_left ho] at hc
    exact hc
  · rw [hpos]; rfl
  · rw [columnAfter_plain hn, List.length_take, Nat.min_eq_left (by omega)]

/-- **C75, violated: at the end.** An error at the end of the document is not reported: there is an
exception instead. For errors at other places there is a report. -/
theorem C75_throws {file source : List Char} {n : Nat} {code : Code} {rule : Bmd.Rule} {q : Position}
    {colors : Bool} (h : Bmd.parse n source = .err code rule q) (hs : source ≠ []) :
    (q.start = source.length → printDocumentParseError file source code rule q colors = .throws) ∧
    (q.start ≠ source.length → ∃ out,
      printDocumentParseError file source code rule q colors = .ok out) := by
  have hsound := parse_sound n source
  rw [h] at hsound
  obtain ⟨t, u, h1, rfl, h3⟩ := hsound
  simp only at h1
  have hstart : (Bmd.after ⟨0, 0, 0⟩ t).start = t.length := by rw [after_eq]; rfl
  rw [hstart]
  have hlen := congrArg List.length h1
  simp only [List.length_append] at hlen
  constructor
  · intro he
    have hu : u = [] := List.length_eq_zero_iff.1 (by omega)
    have hc : code ≠ .unexpected_character := fun hc => h3 hc hu
    have hne : source.isEmpty = false := by
      cases source with
      | nil => exact absurd rfl hs
      | cons => rfl
    have hl : printAffectedLine source (Bmd.after ⟨0, 0, 0⟩ t) colors = .throws := by
      unfold printAffectedLine findLine
      rw [if_neg (by rw [hstart]; omega)]
      rfl
    rw [printDocumentParseError, documentMessage, if_neg hc]
    simp only [Outcome.ok_bind, hne, hl]
    rfl
  · intro he
    have hlt : t.length < source.length := by omega
    have hf : ∃ line, findLine source (Bmd.after ⟨0, 0, 0⟩ t).start = .ok line := by
      rw [findLine, if_pos (by rw [hstart]; exact hlt)]
      exact ⟨_, rfl⟩
    obtain ⟨line, hf⟩ := hf
    obtain ⟨out, ho, -⟩ := documentError_seen (file := file) (code := code) (rule := rule)
      (c := source[t.length]) colors (by rw [hstart]; exact List.getElem?_eq_getElem hlt) hf
    exact ⟨out, ho⟩

/-- **C75, violated: at the end of a line.** An error at a line feed is reported with the number of its
line, but with the contents of the line behind it. -/
theorem C75_newline {file before line after : List Char} {n : Nat} {code : Code} {rule : Bmd.Rule}
    {q : Position} {colors : Bool}
    (h : Bmd.parse n (before ++ '\n' :: line ++ after) = .err code rule q)
    (hq : q.start = before.length) (hl : '\n' ∉ line) (ha : after = [] ∨ after.head? = some '\n') :
    ∃ out message,
      printDocumentParseError file (before ++ '\n' :: line ++ after) code rule q colors = .ok out ∧
      seen out = report file (before.count '\n' + 1) (columnAfter before + 1) message line
        (columnAfter before) := by
  obtain ⟨t, u, h1, rfl⟩ := C61_located h
  have hstart : (Bmd.after ⟨0, 0, 0⟩ t).start = t.length := by rw [after_eq]; rfl
  rw [hstart] at hq
  rw [List.append_assoc] at h1
  obtain ⟨rfl, -⟩ := List.append_inj h1.symm hq
  have hf := findLine_newline (before := t) hl ha
  rw [← hstart] at hf
  obtain ⟨out, ho1, ho2⟩ := documentError_seen (file := file) (code := code) (rule := rule)
    (c := '\n') colors (by rw [hstart]; simp) hf
  refine ⟨out, charMessage documentText documentRuleName code rule '\n', ho1, ho2.trans ?_⟩
  rw [after_eq]
  rfl

/-- Whether a result is this error. -/
def Diag.errIs (code : Code) (rule : Bmd.Rule) (q : Position) : Bmd.Res (Option Bmd.Node) → Bool
  | .err code' rule' q' => code' = code && rule' = rule && q' = q
  | _ => false

theorem Diag.errIs_sound {code : Code} {rule : Bmd.Rule} {q : Position} {r : Bmd.Res (Option Bmd.Node)}
    (h : errIs code rule q r = true) : r = .err code rule q := by
  cases r with
  | err code' rule' q' =>
    simp only [errIs, Bool.and_eq_true, decide_eq_true_eq] at h
    obtain ⟨⟨rfl, rfl⟩, rfl⟩ := h
    rfl
  | _ => cases h

/-- Errors occur at characters, at the end and at line feeds. -/
theorem C75_samples :
    Bmd.parse 60 "x\n\n \\nope{a}\n".toList = .err .invalid_directive .directive ⟨2, 2, 5⟩ ∧
    Bmd.parse 60 "x \\b[a=?]{c}".toList = .err .unexpected_character .identifier ⟨0, 7, 7⟩ ∧
    Bmd.parse 60 "\\b{abc".toList = .err .unexpected_eof .raw_content ⟨0, 6, 6⟩ ∧
    Bmd.parse 60 "\\b{a\n\nb}".toList = .err .paragraph_break_in_span .block ⟨0, 4, 4⟩ := by
  refine ⟨errIs_sound ?_, errIs_sound ?_, errIs_sound ?_, errIs_sound ?_⟩ <;> decide +kernel

/-- A report, and one with the wrong line. -/
theorem C75_sample_reports :
    (∃ out, printDocumentParseError "f.bmd".toList "x \\b[a=?]{c}".toList .unexpected_character
        .identifier ⟨0, 7, 7⟩ true = .ok out ∧
      String.ofList (seen out) = "f.bmd:1:8: error: unexpected character '?' while matching 'identifier'\n    1 | x \\b[a=?]{c}\n      |        ^\n") ∧
    ∃ out, printDocumentParseError "f.bmd".toList "\\b{a\n\nb}".toList .paragraph_break_in_span
        .block ⟨0, 4, 4⟩ true = .ok out ∧
      String.ofList (seen out) = "f.bmd:1:5: error: Paragraph breaks (blank lines) are not allowed in this directive.\n    1 | \n      |     ^\n" := by
  refine ⟨⟨_, rfl, by decide +kernel⟩, ⟨_, rfl, by decide +kernel⟩⟩

/-! ## C76: errors of the conversion of documents -/

/-- **C76: where errors are.** An error of the conversion of a document is at a character of the document,
and this is not a line feed unless the error is about code; or the writer of HTML was misused. -/
theorem C76_place {order : List (List Char × Bmd.Value) → List (List Char × Bmd.Value)}
    {options : DocOptions} {n : Nat} {source : List Char} {root : Option Bmd.Node} {s : St} {e : DocError}
    (h : Bmd.parse n source = .ok root s) (he : docToHtml order options root = .err e) :
    e = ⟨.writer_misuse, ⟨0, 0, 0⟩⟩ ∨
      ∃ t c u, source = t ++ c :: u ∧ e.pos = positionAfterText t ∧
        (e.code ≠ .code_tokenization_failure → c ≠ '\n') := by
  rcases doc_errs (document_placed (C61_sound h).1) he with h | ⟨t, c, u, h1, h2, h3⟩
  · exact .inl h
  · exact .inr ⟨t, c, u, h1, h2.trans (after_eq t), fun hc => h3 (by simpa using hc)⟩

/-- **C76, partial: what is reported.** Such an error is reported, with a message that belongs to it, with
the right number of the line and with the right column; and the line is the one that contains the error,
unless code begins with a line feed (see `C76_code`). -/
theorem C76_report_partial :
    ∃ describe : DocCode → List Char,
      (∀ a b, describe a = describe b → a = b) ∧
      ∀ (order : List (List Char × Bmd.Value) → List (List Char × Bmd.Value)) (options : DocOptions)
        (file source : List Char) (n : Nat) (root : Option Bmd.Node) (s : St) (e : DocError) (colors : Bool),
        Bmd.parse n source = .ok root s → docToHtml order options root = .err e →
        e.code ≠ .writer_misuse →
        ∃ out line, printDocumentError file source e colors = .ok out ∧
          seen out = report file (e.pos.line + 1) (e.pos.column + 1) (describe e.code) line e.pos.column ∧
          (source[e.pos.start]? ≠ some '\n' → ∃ before after offset,
            LineAt source before line after e.pos.start offset ∧ offset < line.length ∧
            e.pos.line = before.count '\n' ∧ e.pos.column = columnAfter (line.take offset) ∧
            ((∀ c ∈ line.take offset, ¬ Special c) → e.pos.column = offset)) ∧
          (e.code ≠ .code_tokenization_failure → source[e.pos.start]? ≠ some '\n') := by
  refine ⟨conversionText, fun _ _ => conversionText_injective, ?_⟩
  intro order options file source n root s e colors h he hm
  obtain ⟨t, c, u, h1, h2, h3⟩ := (C76_place h he).resolve_left fun h => hm (by rw [h])
  have hstart : e.pos.start = t.length := by rw [h2]; rfl
  have hc : source[e.pos.start]? = some c := by rw [hstart, h1]; simp
  have hlt : e.pos.start < source.length := by rw [hstart, h1]; simp
  have hf : ∃ line, findLine source e.pos.start = .ok line := by
    rw [findLine, if_pos hlt]
    exact ⟨_, rfl⟩
  obtain ⟨line, hf⟩ := hf
  have hp : ∃ out, printDocumentError file source e colors = .ok out ∧
      seen out = report file (e.pos.line + 1) (e.pos.column + 1) (conversionText e.code) line
        e.pos.column := by
    obtain ⟨q, hq1, hq2⟩ := affectedLine_eq colors hf
    refine ⟨_, by rw [printDocumentError, hq1]; rfl, ?_⟩
    rw [if_neg hm]
    have hd : ∀ rest, seen (conversionProse e.code :: rest) = conversionText e.code ++ seen rest := by
      intro rest
      rw [show conversionProse e.code :: rest = [conversionProse e.code] ++ rest from rfl, seen_append]
      rfl
    simp only [seen_append, seen_position, hq2, errorPrefix, ansiHRed, ansiReset, hd, seen, lit, report]
    simp
  obtain ⟨out, hp1, hp2⟩ := hp
  refine ⟨out, line, hp1, hp2, fun hn => ?_, fun hcode hn => ?_⟩
  · rw [hc] at hn
    have hd : source.drop e.pos.start = c :: u := by rw [hstart, h1, List.drop_left]
    obtain ⟨before, line', after, offset, hl, ho⟩ := lineAt_of_char hd fun h => hn (by rw [h])
    rw [findLine_eq hl ho] at hf
    cases hf
    have hpos := position_in_line hl
    have htake : source.take e.pos.start = t := by rw [hstart, h1, List.take_left]
    rw [htake, ← h2] at hpos
    refine ⟨before, after, offset, hl, ho, by rw [hpos], by rw [hpos], fun hs => ?_⟩
    rw [hpos]
    show columnAfter (line.take offset) = offset
    rw [columnAfter_plain hs, List.length_take, Nat.min_eq_left (by omega)]
  · rw [hc] at hn
    exact h3 hcode (by simpa using hn)

/-- Errors of the conversion occur. -/
theorem C76_samples :
    (∃ root s, Bmd.parse 100 "x\n\n\\codeblock[lang=foo]{x}\n".toList = .ok root s ∧
      docToHtml id ⟨2, []⟩ root = .err ⟨.invalid_language, ⟨2, 16, 19⟩⟩) ∧
    ∃ root s, Bmd.parse 100 "x\n\n\\meta{\\title{a}}\n".toList = .ok root s ∧
      docToHtml id ⟨2, []⟩ root = .err ⟨.meta_not_at_start_of_file, ⟨2, 0, 3⟩⟩ := by
  constructor
  · have h : (match Bmd.parse 100 "x\n\n\\codeblock[lang=foo]{x}\n".toList with
      | .ok root _ => decide (docToHtml id ⟨2, []⟩ root = .err ⟨.invalid_language, ⟨2, 16, 19⟩⟩)
      | _ => false) = true := by decide +kernel
    cases hp : Bmd.parse 100 "x\n\n\\codeblock[lang=foo]{x}\n".toList with
    | ok root s => rw [hp] at h; exact ⟨root, s, rfl, of_decide_eq_true h⟩
    | _ => rw [hp] at h; cases h
  · have h : (match Bmd.parse 100 "x\n\n\\meta{\\title{a}}\n".toList with
      | .ok root _ => decide (docToHtml id ⟨2, []⟩ root = .err ⟨.meta_not_at_start_of_file, ⟨2, 0, 3⟩⟩)
      | _ => false) = true := by decide +kernel
    cases hp : Bmd.parse 100 "x\n\n\\meta{\\title{a}}\n".toList with
    | ok root s => rw [hp] at h; exact ⟨root, s, rfl, of_decide_eq_true h⟩
    | _ => rw [hp] at h; cases h

/-- **C76, violated: code.** If code begins with a line feed, then an error in it is reported with the
number of the line in front of the one that is quoted, and not with the place of the error in the code. -/
theorem C76_code :
    (∃ root s, Bmd.parse 100 "\\codeblock{\n  x;\n  #\n}\n".toList = .ok root s ∧
      docToHtml id ⟨2, []⟩ root = .err ⟨.code_tokenization_failure, ⟨0, 11, 11⟩⟩) ∧
    ∃ out, printDocumentError "f.bmd".toList "\\codeblock{\n  x;\n  #\n}\n".toList
        ⟨.code_tokenization_failure, ⟨0, 11, 11⟩⟩ false = .ok out ∧
      String.ofList (seen out) = "f.bmd:1:12: error: Syntax highlighting for this code snipped failed. Is it ill-formed? Consider using 'text' language or '\\tt' (teletype), not '\\c'.\n    1 |   x;\n      |            ^\n" := by
  constructor
  · have h : (match Bmd.parse 100 "\\codeblock{\n  x;\n  #\n}\n".toList with
      | .ok root _ => decide (docToHtml id ⟨2, []⟩ root =
          .err ⟨.code_tokenization_failure, ⟨0, 11, 11⟩⟩)
      | _ => false) = true := by decide +kernel
    cases hp : Bmd.parse 100 "\\codeblock{\n  x;\n  #\n}\n".toList with
    | ok root s => rw [hp] at h; exact ⟨root, s, rfl, of_decide_eq_true h⟩
    | _ => rw [hp] at h; cases h
  · exact ⟨_, rfl, by decide +kernel⟩

end Bms
