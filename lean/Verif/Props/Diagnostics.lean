import Verif.Lemmas.Diagnostics
import Verif.Lemmas.ParseBlame
import Verif.Props.Tokens
import Verif.Props.Bmd

/-!
# C73-C76: reports of errors
-/

namespace Bms

open Spec Diag

/-! ## C73: errors of the tokenizer -/

namespace Diag

/-- The character at which the tokenizer reports an error is not a line feed. -/
theorem tokenize_error_char {src : List Char} {ts : List Token} {e : TokenizeError}
    (h : tokenize src = some (ts, .err e)) (hc : e.code ≠ .no_digits_following_integer_prefix) :
    ∃ c cs, src.drop e.pos.start = c :: cs ∧ c ≠ '\n' := by
  obtain ⟨-, off, h1, h2⟩ := C22_error h
  have hd : src.drop e.pos.start = (src.drop (e.pos.start - off)).drop off := by
    rw [List.drop_drop]; congr 1; omega
  rw [hd]
  clear hd
  revert h2 hc
  generalize src.drop (e.pos.start - off) = s
  generalize e.code = code
  intro hc h2
  cases h2 with
  | noDigits => exact absurd rfl hc
  | suffix _ hd =>
    refine ⟨_, _, List.drop_left, ?_⟩
    rintro rfl
    exact absurd hd (by decide)
  | illegal hw =>
    refine ⟨_, _, rfl, ?_⟩
    rintro rfl
    exact hw (by decide)
  | comment => exact ⟨_, _, rfl, by decide⟩
  | string => exact ⟨_, _, rfl, by decide⟩

/-- A place that is not at a line feed is in a line. -/
theorem lineAt_of_char {source : List Char} {i : Nat} {c : Char} {cs : List Char}
    (h : source.drop i = c :: cs) (hc : c ≠ '\n') :
    ∃ before line after offset, LineAt source before line after i offset ∧ offset < line.length := by
  have hi : i ≤ source.length := by
    refine Nat.le_of_lt (Nat.lt_of_not_le fun hle => ?_)
    rw [List.drop_of_length_le hle] at h
    cases h
  obtain ⟨before, line, after, offset, h1, -, h3⟩ := lineAt_exists (source.take i) (source.drop i)
  rw [List.take_append_drop, List.length_take, Nat.min_eq_left hi] at h1
  refine ⟨before, line, after, offset, h1, Nat.lt_of_not_le fun hle => ?_⟩
  rw [List.drop_of_length_le hle, List.nil_append, h] at h3
  rcases h1.last with h2 | h2
  · rw [h2] at h3; cases h3
  · rw [← h3] at h2
    exact hc (by simpa using h2)

/-- The message for a code, or nothing. -/
def tokenizeMessage (code : TokenizeErrorCode) : List Char :=
  match tokenizeProse code with
  | .ok p => seen [p]
  | _ => []

theorem tokenizeProse_ok {code : TokenizeErrorCode} (h1 : code ≠ .unterminated_string)
    (h2 : code ≠ .no_digits_following_integer_prefix) :
    tokenizeProse code = .ok (.text (tokenizeMessage code)) := by
  cases code with
  | unterminated_string => exact absurd rfl h1
  | no_digits_following_integer_prefix => exact absurd rfl h2
  | illegal_character => simp [tokenizeProse, tokenizeMessage, lit, seen]
  | integer_suffix => simp [tokenizeProse, tokenizeMessage, lit, seen]
  | unterminated_comment => simp [tokenizeProse, tokenizeMessage, lit, seen]

theorem tokenizeMessage_injective {a b : TokenizeErrorCode}
    (ha : a ≠ .unterminated_string ∧ a ≠ .no_digits_following_integer_prefix)
    (hb : b ≠ .unterminated_string ∧ b ≠ .no_digits_following_integer_prefix)
    (h : tokenizeMessage a = tokenizeMessage b) : a = b := by
  cases a <;> cases b <;> first
    | rfl
    | exact absurd rfl ha.1
    | exact absurd rfl ha.2
    | exact absurd rfl hb.1
    | exact absurd rfl hb.2
    | exact absurd h (by decide)

end Diag

/-- **C73, partial: what is reported.** An error of the tokenizer other than the two for which
`C73_throws` holds is reported with a message that belongs to the error, and with the line of the source
that contains the error. -/
theorem C73_report_partial :
    ∃ message : TokenizeErrorCode → List Char,
      (∀ a b, (a ≠ .unterminated_string ∧ a ≠ .no_digits_following_integer_prefix) →
        (b ≠ .unterminated_string ∧ b ≠ .no_digits_following_integer_prefix) →
        message a = message b → a = b) ∧
      ∀ (file src : List Char) (ts : List Token) (e : TokenizeError) (colors : Bool),
        tokenize src = some (ts, .err e) →
        e.code ≠ .unterminated_string → e.code ≠ .no_digits_following_integer_prefix →
        ∃ before line after offset out, LineAt src before line after e.pos.start offset ∧
          offset < line.length ∧ printTokenizeError file src e colors = .ok out ∧
          seen out = report file (e.pos.line + 1) (e.pos.column + 1) (message e.code) line
            e.pos.column := by
  refine ⟨tokenizeMessage, fun a b => tokenizeMessage_injective, ?_⟩
  intro file src ts e colors h h1 h2
  obtain ⟨c, cs, hd, hc⟩ := tokenize_error_char h h2
  obtain ⟨before, line, after, offset, hl, ho⟩ := lineAt_of_char hd hc
  obtain ⟨q, hq1, hq2⟩ := affectedLine_eq colors (findLine_eq hl ho)
  have hp : ∃ out, printTokenizeError file src e colors = .ok out ∧
      seen out = report file (e.pos.line + 1) (e.pos.column + 1) (tokenizeMessage e.code) line
        e.pos.column := by
    refine ⟨_, by rw [printTokenizeError, tokenizeProse_ok h1 h2, hq1]; rfl, ?_⟩
    simp only [seen_append, seen_position, hq2, errorPrefix, ansiHRed, ansiReset, seen, lit, report]
    simp
  obtain ⟨out, hp1, hp2⟩ := hp
  exact ⟨before, line, after, offset, out, hl, ho, hp1, hp2⟩

/-- **C73, partial: numbers.** The line has the right number, and the column is the one of the error, if
there is no string over several lines and none of the tokens that have a wrong length (C21) includes a
line feed or tab. In lines without tabs the mark is below the character at which the error is. -/
theorem C73_numbers_partial {file src : List Char} {ts : List Token} {e : TokenizeError} {colors : Bool}
    (h : tokenize src = some (ts, .err e))
    (hs : ∀ t ∈ ts, t.type = .string_literal ∨ t.type = .logical_and ∨ t.type = .logical_not →
      ∀ c ∈ textOf src t, ¬ Special c)
    (h1 : e.code ≠ .unterminated_string) (h2 : e.code ≠ .no_digits_following_integer_prefix) :
    ∃ before line after offset out message, LineAt src before line after e.pos.start offset ∧
      offset < line.length ∧ printTokenizeError file src e colors = .ok out ∧
      seen out = report file (before.count '\n' + 1) (columnAfter (line.take offset) + 1) message line
        (columnAfter (line.take offset)) ∧
      ((∀ c ∈ line.take offset, ¬ Special c) → columnAfter (line.take offset) = offset) := by
  obtain ⟨message, -, hm⟩ := C73_report_partial
  obtain ⟨before, line, after, offset, out, hl, ho, hp, ht⟩ := hm file src ts e colors h h1 h2
  have hpos := C21_error_position_partial h hs
  rw [position_in_line hl] at hpos
  refine ⟨before, line, after, offset, out, message e.code, hl, ho, hp, ?_, fun hn => ?_⟩
  · rw [ht, hpos]
  · rw [columnAfter_plain hn, List.length_take, Nat.min_eq_left (by omega)]

/-- **C73, violated: errors without a report.** Strings without an end and prefixes without digits are not
reported: there is an exception instead. -/
theorem C73_throws {file src : List Char} {ts : List Token} {e : TokenizeError} {colors : Bool}
    (h : tokenize src = some (ts, .err e)) :
    printTokenizeError file src e colors = .throws ↔
      e.code = .unterminated_string ∨ e.code = .no_digits_following_integer_prefix := by
  constructor
  · intro ht
    by_cases h1 : e.code = .unterminated_string
    · exact .inl h1
    by_cases h2 : e.code = .no_digits_following_integer_prefix
    · exact .inr h2
    obtain ⟨message, -, hm⟩ := C73_report_partial
    obtain ⟨-, -, -, -, out, -, -, hp, -⟩ := hm file src ts e colors h h1 h2
    rw [hp] at ht
    cases ht
  · rintro (hc | hc) <;> rw [printTokenizeError, hc] <;> rfl

/-- **C73, violated: colours.** There are escape sequences in every report, also without colours. -/
theorem C73_colours {file src : List Char} {e : TokenizeError} {colors : Bool} {out : Out}
    (h : printTokenizeError file src e colors = .ok out) : ¬ Plain out := by
  rw [printTokenizeError] at h
  cases hp : tokenizeProse e.code with
  | ok p =>
    cases hl : printAffectedLine src e.pos colors with
    | ok q =>
      rw [hp, hl] at h
      cases h
      intro hpl
      obtain ⟨s, hs⟩ := hpl ansiHRed (by simp [errorPrefix])
      cases hs
    | err e => exact e.elim
    | throws => rw [hp, hl] at h; cases h
    | ub => rw [hp, hl] at h; cases h
  | err e => exact e.elim
  | throws => rw [hp] at h; cases h
  | ub => rw [hp] at h; cases h

/-- The conditions of `C73_numbers_partial` can be met, and this is a report. -/
theorem C73_sample :
    tokenize "let a = 1;\nlet b = 2 # 3;\n".toList = some
      ([⟨⟨0, 0, 0⟩, 3, .keyword_let⟩, ⟨⟨0, 4, 4⟩, 1, .identifier⟩, ⟨⟨0, 6, 6⟩, 1, .assign⟩,
        ⟨⟨0, 8, 8⟩, 1, .decimal_literal⟩, ⟨⟨0, 9, 9⟩, 1, .semicolon⟩, ⟨⟨1, 0, 11⟩, 3, .keyword_let⟩,
        ⟨⟨1, 4, 15⟩, 1, .identifier⟩, ⟨⟨1, 6, 17⟩, 1, .assign⟩, ⟨⟨1, 8, 19⟩, 1, .decimal_literal⟩],
        .err ⟨.illegal_character, ⟨1, 10, 21⟩⟩) ∧
    ∃ out, printTokenizeError "f.bms".toList "let a = 1;\nlet b = 2 # 3;\n".toList
        ⟨.illegal_character, ⟨1, 10, 21⟩⟩ false = .ok out ∧
      String.ofList (seen out) = "f.bms:2:11: error: Illegal character encountered.\n    2 | let b = 2 # 3;\n      |           ^\n" := by
  refine ⟨by decide +kernel, _, rfl, by decide +kernel⟩

/-- Strings without an end occur. -/
theorem C73_unterminated_string :
    tokenize "\"a".toList = some ([], .err ⟨.unterminated_string, ⟨0, 0, 0⟩⟩) ∧
    printTokenizeError "f.bms".toList "\"a".toList ⟨.unterminated_string, ⟨0, 0, 0⟩⟩ true = .throws := by
  decide

/-! ## C74: errors of the parser for programs -/

namespace Diag

/-- Tokens do not begin with line feeds. -/
theorem token_char {src : List Char} {ts : List Token} {res : Outcome TokenizeError Unit}
    (h : tokenize src = some (ts, res)) {t : Token} (ht : t ∈ ts) :
    ∃ c cs, src.drop t.pos.start = c :: cs ∧ c ≠ '\n' := by
  obtain ⟨c, cs, h1, h2⟩ := run_mem h ht
  refine ⟨c, cs, h1, ?_⟩
  rintro rfl
  rw [tryMatch] at h2
  simp only [show isSpace '\n' = true by decide, if_true] at h2
  cases h2

/-- A token of the source is not the one that stands for the end of the tokens. -/
theorem default_not_token {src : List Char} {ts : List Token}
    (h : tokenize src = some (ts, .ok ())) : Token.default ∉ ts :=
  fun hm => absurd ((C19_tokens_ordered h).1 _ hm).1 (by decide)

theorem alternatives_seen (ts : List TokenType) :
    seen (printExpected ts) = alternatives (ts.map readableName) := by
  have go : ∀ (ts : List TokenType) (first : Bool), ts ≠ [] → 2 ≤ ts.length ∨ first = false →
      seen (printExpected.go ts first) =
        (if first ∨ ts.length = 1 then [] else ", ".toList) ++
          List.intercalate ", ".toList (ts.map readableName).dropLast ++ ", or ".toList ++
          (ts.map readableName).getLast?.getD [] := by
    intro ts
    induction ts with
    | nil => intro _ h; exact absurd rfl h
    | cons t ts ih =>
      intro first _ hf
      cases ts with
      | nil => simp [printExpected.go, seen, lit]
      | cons u ts =>
        have := ih false (by simp) (.inr rfl)
        cases ts with
        | nil =>
          cases first <;>
            simp_all [printExpected.go, seen, lit, List.intercalate]
        | cons v ts =>
          cases first <;>
            simp_all [printExpected.go, seen, lit, List.intercalate]
  match ts with
  | [] => simp [printExpected, seen, lit, alternatives]
  | [t] => simp [printExpected, seen, alternatives]
  | t :: u :: ts =>
    have := go (t :: u :: ts) true (by simp) (.inl (by simp))
    simp only [printExpected, seen, lit, this, alternatives, List.map_cons]
    simp

theorem mem_all (t : TokenType) : t ∈ TokenType.all := by cases t <;> decide

theorem readableName_injective {a b : TokenType} (h : readableName a = readableName b) : a = b := by
  have key : ∀ a ∈ TokenType.all, ∀ b ∈ TokenType.all, readableName a = readableName b → a = b := by
    decide +kernel
  exact key a (mem_all a) b (mem_all b) h

theorem readableName_spelling {ty : TokenType} {sp : String} (h : spelling ty = some sp) :
    readableName ty = '\'' :: sp.toList ++ ['\''] := by
  cases ty <;> cases h <;> decide

/-- All rules. -/
def allRules : List Parse.GrammarRule :=
  [.program_declaration, .const_declaration, .let_declaration, .initializer, .function_declaration,
   .requires_clause, .parameter, .static_assertion, .annotation, .annotation_argument, .statement,
   .assignment_statement, .function_call_statement, .assignment, .break_statement,
   .continue_statement, .return_statement, .if_statement, .else_statement, .while_statement,
   .block_statement, .conversion_expression, .if_expression, .comparison_expression,
   .function_call_expression, .primary_expression, .parenthesized_expression, .type]

theorem mem_allRules (r : Parse.GrammarRule) : r ∈ allRules := by cases r <;> decide

theorem ruleName_injective {a b : Parse.GrammarRule} (h : ruleName a = ruleName b) : a = b := by
  have key : ∀ r ∈ allRules, ∀ s ∈ allRules, ruleName r = ruleName s → r = s := by
    decide +kernel
  exact key a (mem_allRules a) b (mem_allRules b) h

end Diag

namespace Diag

theorem parseError_seen {file src line : List Char} {e : Parse.ParseError} {colors : Bool}
    (h : findLine src e.token.pos.start = .ok line) :
    ∃ out, printParseError file src e colors = .ok out ∧
      seen out = reportNote file (e.token.pos.line + 1) (e.token.pos.column + 1)
        ("unexpected token ".toList ++ readableName e.token.type ++ " while matching '".toList ++
          ruleName e.rule ++ "'".toList)
        ("expected ".toList ++ alternatives (e.expected.map readableName)) line e.token.pos.column := by
  obtain ⟨q, hq1, hq2⟩ := affectedLine_eq colors h
  refine ⟨_, by rw [printParseError, hq1]; rfl, ?_⟩
  simp only [seen_append, seen_position, hq2, errorPrefix, notePrefix, ansiHRed, ansiHWhite, ansiReset,
    seen, lit, reportNote, alternatives_seen]
  simp

end Diag

/-- **C74, partial: what is reported.** An error of the parser at a token is reported with the type of the
token, with the rule, with what was expected instead and with the line of the source that contains the
token. The token is not a comment. Something is expected, and unless the rule is the one for primary
expressions (see `C74_expected_anyway`), it is not what is there. -/
theorem C74_report_partial :
    ∃ (name : TokenType → List Char) (rule : Parse.GrammarRule → List Char),
      (∀ a b, name a = name b → a = b) ∧ (∀ a b, rule a = rule b → a = b) ∧
      (∀ ty sp, spelling ty = some sp → name ty = '\'' :: sp.toList ++ ['\'']) ∧
      ∀ (file src : List Char) (ts : List Token) (e : Parse.ParseError) (colors : Bool),
        tokenize src = some (ts, .ok ()) → Parse.parse src ts = .err e → e.token ∈ ts →
        e.token.type.isComment = false ∧ e.expected ≠ [] ∧
        (e.rule ≠ .primary_expression → e.token.type ∉ e.expected) ∧
        ∃ before line after offset out, LineAt src before line after e.token.pos.start offset ∧
          offset < line.length ∧ printParseError file src e colors = .ok out ∧
          seen out = reportNote file (e.token.pos.line + 1) (e.token.pos.column + 1)
            ("unexpected token ".toList ++ name e.token.type ++ " while matching '".toList ++
              rule e.rule ++ "'".toList)
            ("expected ".toList ++ alternatives (e.expected.map name)) line e.token.pos.column := by
  refine ⟨readableName, ruleName, fun _ _ => readableName_injective, fun _ _ => ruleName_injective,
    fun _ _ => readableName_spelling, ?_⟩
  intro file src ts e colors h hp hm
  obtain ⟨hne, rest, h1, h2, h3, h4⟩ := Parse.parse_blame hp
  have hrest : ∃ r, rest = e.token :: r := by
    cases rest with
    | nil => rw [h3] at hm; exact absurd hm (default_not_token h)
    | cons t r => exact ⟨r, by rw [h3]; rfl⟩
  obtain ⟨r, hr⟩ := hrest
  have hcom : e.token.type.isComment = false := by
    rw [hr] at h2
    cases hc : e.token.type.isComment with
    | false => rfl
    | true =>
      have := congrArg List.length h2
      unfold Parse.skipComments at this
      rw [List.dropWhile_cons, if_pos hc] at this
      have hle := (List.dropWhile_suffix (fun t : Token => t.type.isComment) (l := r)).length_le
      simp only [List.length_cons] at this
      omega
  refine ⟨hcom, hne, fun hru => h4 hru _ _ hr, ?_⟩
  obtain ⟨c, cs, hd, hc⟩ := token_char h hm
  obtain ⟨before, line, after, offset, hl, ho⟩ := lineAt_of_char hd hc
  obtain ⟨out, hp1, hp2⟩ := parseError_seen (file := file) (colors := colors) (findLine_eq hl ho)
  exact ⟨before, line, after, offset, out, hl, ho, hp1, hp2⟩

/-- **C74, partial: numbers.** Under the condition of `C73_numbers_partial`, the line has the right number,
and the column is the one of the token. -/
theorem C74_numbers_partial {file src : List Char} {ts : List Token} {e : Parse.ParseError}
    {colors : Bool} (h : tokenize src = some (ts, .ok ())) (hp : Parse.parse src ts = .err e)
    (hm : e.token ∈ ts)
    (hs : ∀ t ∈ ts, t.type = .string_literal ∨ t.type = .logical_and ∨ t.type = .logical_not →
      ∀ c ∈ textOf src t, ¬ Special c) :
    ∃ before line after offset out message note,
      LineAt src before line after e.token.pos.start offset ∧
      offset < line.length ∧ printParseError file src e colors = .ok out ∧
      seen out = reportNote file (before.count '\n' + 1) (columnAfter (line.take offset) + 1) message
        note line (columnAfter (line.take offset)) ∧
      ((∀ c ∈ line.take offset, ¬ Special c) → columnAfter (line.take offset) = offset) := by
  obtain ⟨name, rule, -, -, -, hall⟩ := C74_report_partial
  obtain ⟨-, -, -, before, line, after, offset, out, hl, ho, hp, ht⟩ := hall file src ts e colors h hp hm
  have hpos := C21_positions_partial h hs _ hm
  rw [position_in_line hl] at hpos
  refine ⟨before, line, after, offset, out,
    "unexpected token ".toList ++ name e.token.type ++ " while matching '".toList ++ rule e.rule ++
      "'".toList, "expected ".toList ++ alternatives (e.expected.map name), hl, ho, hp,
    ht.trans ?_, fun hn => ?_⟩
  · rw [hpos]
  · rw [columnAfter_plain hn, List.length_take, Nat.min_eq_left (by omega)]

/-- **C74, violated: at the end.** If the tokens end too early, then an identifier at the start of the file
is reported, which is not there; or an exception is thrown if the file is empty. -/
theorem C74_end {file src : List Char} {ts : List Token} {e : Parse.ParseError} {colors : Bool}
    (hp : Parse.parse src ts = .err e) (hm : e.token ∉ ts) :
    (src = [] → printParseError file src e colors = .throws) ∧
    (src ≠ [] → ∃ line out note, findLine src 0 = .ok line ∧ printParseError file src e colors = .ok out ∧
      seen out = reportNote file 1 1
        ("unexpected token identifier while matching '".toList ++ ruleName e.rule ++ "'".toList) note line 0) := by
  obtain ⟨hne, rest, h1, h2, h3, h4⟩ := Parse.parse_blame hp
  have hd : e.token = Token.default := by
    cases rest with
    | nil => exact h3
    | cons t r =>
      have : e.token = t := h3
      exact absurd (h1.subset (by simp [this])) hm
  constructor
  · rintro rfl
    rw [printParseError, hd]
    rfl
  · intro hs
    have hf : ∃ line, findLine src 0 = .ok line := by
      rw [findLine, if_pos (List.length_pos_iff.2 hs)]
      exact ⟨_, rfl⟩
    obtain ⟨line, hf⟩ := hf
    have hf' : findLine src e.token.pos.start = .ok line := by rw [hd]; exact hf
    obtain ⟨out, hp1, hp2⟩ := parseError_seen (file := file) (colors := colors) hf'
    refine ⟨line, out, "expected ".toList ++ alternatives (e.expected.map readableName), hf, hp1,
      hp2.trans ?_⟩
    have hm : "unexpected token identifier while matching '".toList =
        "unexpected token ".toList ++ "identifier".toList ++ " while matching '".toList := by decide
    rw [hd, hm]
    rfl

/-- The tokens end too early if a semicolon is missing at the end. -/
theorem C74_missing_semicolon :
    ∃ ts e out, tokenize "const x = 1".toList = some (ts, .ok ()) ∧
      Parse.parse "const x = 1".toList ts = .err e ∧ e.token ∉ ts ∧ e.token = Token.default ∧
      printParseError "f.bms".toList "const x = 1".toList e false = .ok out ∧
      String.ofList (seen out) = "f.bms:1:1: error: unexpected token identifier while matching 'const_declaration'\nf.bms:1:1: note: expected ';'\n    1 | const x = 1\n      | ^\n" := by
  refine ⟨[⟨⟨0, 0, 0⟩, 5, .keyword_const⟩, ⟨⟨0, 6, 6⟩, 1, .identifier⟩, ⟨⟨0, 8, 8⟩, 1, .assign⟩,
    ⟨⟨0, 10, 10⟩, 1, .decimal_literal⟩], ⟨.const_declaration, [.semicolon], Token.default⟩, ?_⟩
  have h : ∃ out, printParseError "f.bms".toList "const x = 1".toList
      ⟨.const_declaration, [.semicolon], Token.default⟩ false = .ok out ∧
      String.ofList (seen out) = "f.bms:1:1: error: unexpected token identifier while matching 'const_declaration'\nf.bms:1:1: note: expected ';'\n    1 | const x = 1\n      | ^\n" :=
    ⟨_, rfl, by decide +kernel⟩
  obtain ⟨out, h1, h2⟩ := h
  exact ⟨out, by decide +kernel, by decide +kernel, by decide, rfl, h1, h2⟩

/-- **C74, violated: expected and there.** In parentheses, the token that is blamed can be one of those that
are expected. -/
theorem C74_expected_anyway :
    ∃ ts e, tokenize "const x = (1 2);".toList = some (ts, .ok ()) ∧
      Parse.parse "const x = (1 2);".toList ts = .err e ∧ e.token ∈ ts ∧
      e.token.type ∈ e.expected := by
  exact ⟨[⟨⟨0, 0, 0⟩, 5, .keyword_const⟩, ⟨⟨0, 6, 6⟩, 1, .identifier⟩, ⟨⟨0, 8, 8⟩, 1, .assign⟩,
    ⟨⟨0, 10, 10⟩, 1, .left_parenthesis⟩, ⟨⟨0, 11, 11⟩, 1, .decimal_literal⟩,
    ⟨⟨0, 13, 13⟩, 1, .decimal_literal⟩, ⟨⟨0, 14, 14⟩, 1, .right_parenthesis⟩,
    ⟨⟨0, 15, 15⟩, 1, .semicolon⟩],
    ⟨.primary_expression, Parse.primaryExpected, ⟨⟨0, 13, 13⟩, 1, .decimal_literal⟩⟩,
    by decide +kernel, by decide +kernel, by decide, by decide⟩

/-- The conditions of `C74_numbers_partial` can be met, and this is a report. -/
theorem C74_sample :
    ∃ ts out, tokenize "const x = 1;\n// y\nlet y = 2;\n".toList = some (ts, .ok ()) ∧
      Parse.parse "const x = 1;\n// y\nlet y = 2;\n".toList ts =
        .err ⟨.program_declaration, Parse.declarationExpected, ⟨⟨2, 0, 18⟩, 3, .keyword_let⟩⟩ ∧
      (⟨⟨2, 0, 18⟩, 3, .keyword_let⟩ : Token) ∈ ts ∧
      (∀ t ∈ ts, ¬ (t.type = .string_literal ∨ t.type = .logical_and ∨ t.type = .logical_not)) ∧
      printParseError "f.bms".toList "const x = 1;\n// y\nlet y = 2;\n".toList
        ⟨.program_declaration, Parse.declarationExpected, ⟨⟨2, 0, 18⟩, 3, .keyword_let⟩⟩ true = .ok out ∧
      String.ofList (seen out) = "f.bms:3:1: error: unexpected token 'let' while matching 'program_declaration'\nf.bms:3:1: note: expected one of: 'const', 'function', 'static_assert', or '@'\n    3 | let y = 2;\n      | ^\n" := by
  refine ⟨[⟨⟨0, 0, 0⟩, 5, .keyword_const⟩, ⟨⟨0, 6, 6⟩, 1, .identifier⟩, ⟨⟨0, 8, 8⟩, 1, .assign⟩,
    ⟨⟨0, 10, 10⟩, 1, .decimal_literal⟩, ⟨⟨0, 11, 11⟩, 1, .semicolon⟩, ⟨⟨1, 0, 13⟩, 4, .line_comment⟩,
    ⟨⟨2, 0, 18⟩, 3, .keyword_let⟩, ⟨⟨2, 4, 22⟩, 1, .identifier⟩, ⟨⟨2, 6, 24⟩, 1, .assign⟩,
    ⟨⟨2, 8, 26⟩, 1, .decimal_literal⟩, ⟨⟨2, 9, 27⟩, 1, .semicolon⟩], ?_⟩
  have h : ∃ out, printParseError "f.bms".toList "const x = 1;\n// y\nlet y = 2;\n".toList
      ⟨.program_declaration, Parse.declarationExpected, ⟨⟨2, 0, 18⟩, 3, .keyword_let⟩⟩ true = .ok out ∧
      String.ofList (seen out) = "f.bms:3:1: error: unexpected token 'let' while matching 'program_declaration'\nf.bms:3:1: note: expected one of: 'const', 'function', 'static_assert', or '@'\n    3 | let y = 2;\n      | ^\n" :=
    ⟨_, rfl, by decide +kernel⟩
  obtain ⟨out, h1, h2⟩ := h
  exact ⟨out, by decide +kernel, by decide +kernel, by decide, by decide, h1, h2⟩

end Bms
