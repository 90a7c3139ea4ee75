import Verif.Lemmas.Positions

/-!
# Properties C19-C22 and C46: tokenization
-/

namespace Bms

open Spec

/-! ## C19: tokens tile the source -/

/-- **C19.** After successful tokenization the source is the concatenation of whitespace and
non-empty token texts, in order, at the offsets and with the lengths that the tokens state, followed
by whitespace. -/
theorem C19_tokens_tile {src : List Char} {ts : List Token}
    (h : tokenize src = some (ts, .ok ())) :
    ∃ rest, Tiled 0 src ts rest ∧ ∀ c ∈ rest, White c := by
  obtain ⟨ts', last, q, h1, h2, h3⟩ := loop_run h
  cases h2 with
  | done hq =>
    have := steps_tiled h1 (by omega)
    simp only [List.append_nil, List.nil_append] at h3
    subst h3
    refine ⟨_, this, ?_⟩
    rw [List.drop_of_length_le (by omega)]
    simp
  | white hq hw =>
    have := steps_tiled h1 (by omega)
    simp only [List.append_nil, List.nil_append] at h3
    subst h3
    exact ⟨_, this, hw⟩

/-- **C19, failed tokenization.** The tokens that were produced before an error tile the source up
to the place of the error. -/
theorem C19_tokens_before_error {src : List Char} {ts : List Token} {e : TokenizeError}
    (h : tokenize src = some (ts, .err e)) :
    ∃ gap bad off, Tiled 0 src ts (gap ++ bad) ∧ (∀ c ∈ gap, White c) ∧
      LexicalError e.code off bad ∧ e.pos.start + bad.length = src.length + off := by
  obtain ⟨ts', last, q, h1, h2, h3⟩ := loop_run h
  cases h2 with
  | @error r gap c cs code off hq hg hl =>
    have := steps_tiled h1 (by omega)
    simp only [List.append_nil, List.nil_append] at h3
    subst h3
    rw [hg.split] at this
    refine ⟨gap, c :: cs, off, this, hg.white, hl, ?_⟩
    have h4 := congrArg List.length hg.split
    have h5 := hg.start
    simp only [List.length_drop, List.length_append] at h4
    simp only [Position.toRight]
    omega

/-- The texts of tokens are disjoint, in order and inside the source. -/
theorem tiled_bounds {offset : Nat} {s rest : List Char} {ts : List Token}
    (h : Tiled offset s ts rest) : ∀ t ∈ ts, 0 < t.length ∧ offset ≤ t.pos.start ∧
      t.pos.start + t.length ≤ offset + s.length := by
  induction h with
  | nil => simp
  | @cons offset gap text more t ts rest _ h2 h3 h4 _ ih =>
    intro t' ht'
    have : 0 < text.length := List.length_pos_iff.mpr h2
    simp only [List.length_append]
    rcases List.mem_cons.mp ht' with rfl | ht'
    · omega
    · have := ih t' ht'
      omega

theorem tiled_ordered {offset : Nat} {s rest : List Char} {ts : List Token}
    (h : Tiled offset s ts rest) :
    ts.Pairwise fun a b => a.pos.start + a.length ≤ b.pos.start := by
  induction h with
  | nil => exact .nil
  | @cons offset gap text more t ts rest _ h2 h3 h4 hr ih =>
    refine .cons (fun b hb => ?_) ih
    have := tiled_bounds hr b hb
    omega

/-- **C19, order.** Tokens are in source order and do not overlap. -/
theorem C19_tokens_ordered {src : List Char} {ts : List Token}
    (h : tokenize src = some (ts, .ok ())) :
    (∀ t ∈ ts, 0 < t.length ∧ t.pos.start + t.length ≤ src.length) ∧
    ts.Pairwise fun a b => a.pos.start + a.length ≤ b.pos.start := by
  obtain ⟨rest, ht, -⟩ := C19_tokens_tile h
  refine ⟨fun t hm => ?_, ?_⟩
  · have := tiled_bounds ht t hm
    omega
  · exact tiled_ordered ht

/-! ## C20: texts of tokens -/

/-- **C20, partial.** The text of a token is a lexeme of the token's type, except for tokens of type
`logical_and` and `logical_not`, for which this is false (see `C20_wrong_length`). -/
theorem C20_token_text_partial {src : List Char} {ts : List Token}
    {res : Outcome TokenizeError Unit} (h : tokenize src = some (ts, res)) {t : Token} (ht : t ∈ ts)
    (h1 : t.type ≠ .logical_and) (h2 : t.type ≠ .logical_not) :
    Lexeme t.type (textOf src t) := by
  obtain ⟨c, cs, hd, hm⟩ := run_mem h ht
  have := (tryMatch_ok hm).2.1 (by rintro (h | h) <;> contradiction)
  rw [textOf, hd]
  exact this.2

/-- **C20, the two exceptional types.** The source has the operator's spelling at the token's
position, but the token's length is three. -/
theorem C20_wrong_length {src : List Char} {ts : List Token}
    {res : Outcome TokenizeError Unit} (h : tokenize src = some (ts, res)) {t : Token} (ht : t ∈ ts) :
    (t.type = .logical_and → t.length = 3 ∧ ['&', '&'] <+: src.drop t.pos.start) ∧
    (t.type = .logical_not → t.length = 3 ∧ ['!'] <+: src.drop t.pos.start) := by
  obtain ⟨c, cs, hd, hm⟩ := run_mem h ht
  have := (tryMatch_ok hm).2.2
  rw [hd]
  constructor
  · intro he
    obtain ⟨h1, sp, h2, h3⟩ := this (.inl he)
    rw [he] at h2; cases h2
    exact ⟨h1, h3⟩
  · intro he
    obtain ⟨h1, sp, h2, h3⟩ := this (.inr he)
    rw [he] at h2; cases h2
    exact ⟨h1, h3⟩

/-- **C20, violation.** `a&&bc` yields the tokens `a`, `&&b`, `c`; the operand `b` is swallowed. -/
theorem C20_operand_swallowed :
    tokenize "a&&bc".toList = some
      ([⟨⟨0, 0, 0⟩, 1, .identifier⟩, ⟨⟨0, 1, 1⟩, 3, .logical_and⟩, ⟨⟨0, 4, 4⟩, 1, .identifier⟩],
       .ok ()) ∧
    ¬ ∃ ty, Lexeme ty ['&', '&', 'b'] := by
  constructor
  · decide
  · rintro ⟨ty, h⟩
    rcases lexeme_shape h with ⟨sp, hs, he, h'⟩ | h' | ⟨k, v, h'⟩ | ⟨b, -, h'⟩ | ⟨b, -, h'⟩ |
      ⟨b, -, h'⟩
    · revert h'
      cases ty <;> cases he <;> decide
    · exact absurd h'.1 (by decide)
    · obtain ⟨c, t, h1, h2⟩ := literal_shape h'
      cases h1; exact absurd h2 (by decide)
    · cases h'
    · cases h'
    · cases h'

/-- **C20, every fixed spelling.** The table of operator and keyword lengths agrees with the
spellings exactly except for `&&` and `!`. -/
theorem C20_length_table (ty : TokenType) :
    ty.length = (match spelling ty with | some sp => sp.length | none => 0) ↔
      ty ≠ .logical_and ∧ ty ≠ .logical_not := by
  cases ty <;> decide

example : (tokenize "let x = 0x1f; // c".toList).map (fun r =>
      (r.1.map fun t => (t.type, String.ofList (textOf "let x = 0x1f; // c".toList t)), r.2)) =
    some ([(.keyword_let, "let"), (.identifier, "x"), (.assign, "="), (.hexadecimal_literal, "0x1f"),
      (.semicolon, ";"), (.line_comment, "// c")], .ok ()) := by
  decide +kernel

/-! ## C21: lines and columns -/

/-- **C21, partial.** If no string literal token contains a tab or line end (and no `&&` or `!`
token swallows one, see C20), the position of every token is the position that scanning the text
before it leads to. -/
theorem C21_positions_partial {src : List Char} {ts : List Token}
    (h : tokenize src = some (ts, .ok ()))
    (hs : ∀ t ∈ ts, t.type = .string_literal ∨ t.type = .logical_and ∨ t.type = .logical_not →
      ∀ c ∈ textOf src t, ¬ Special c) :
    ∀ t ∈ ts, t.pos = positionAfterText (src.take t.pos.start) := by
  obtain ⟨ts', last, q, h1, h2, h3⟩ := loop_run h
  have hx : Loose src ⟨0, 0, 0⟩ := .inl rfl
  have hq : q.start ≤ src.length ∧ ts = ts' := by
    cases h2 with
    | done hq => exact ⟨by omega, by simpa using h3⟩
    | white hq => exact ⟨by omega, by simpa using h3⟩
  rw [hq.2] at hs ⊢
  exact (steps_exact h1 hx hq.1 hs).1

/-- **C21, errors, partial.** Under the same condition the position of a reported error is the one
that scanning leads to. -/
theorem C21_error_position_partial {src : List Char} {ts : List Token} {e : TokenizeError}
    (h : tokenize src = some (ts, .err e))
    (hs : ∀ t ∈ ts, t.type = .string_literal ∨ t.type = .logical_and ∨ t.type = .logical_not →
      ∀ c ∈ textOf src t, ¬ Special c) :
    e.pos = positionAfterText (src.take e.pos.start) := by
  obtain ⟨ts', last, q, h1, h2, h3⟩ := loop_run h
  have hx : Loose src ⟨0, 0, 0⟩ := .inl rfl
  cases h2 with
  | @error r gap c cs code off hq hg hl =>
    have h3 : ts = ts' := by simpa using h3
    rw [h3] at hs
    have := loose_token (steps_exact h1 hx (by omega) hs).2 hg
    simp only
    have hr := hg.rest
    generalize hcs : c :: cs = s at hr hl
    cases hl with
    | illegal => exact this
    | comment => exact this
    | string => exact this
    | @noDigits d t base hd _ =>
      refine exact_toRight (seg := ['0', d]) this (rest := t) hr ?_
      rcases hd with ⟨rfl, -⟩ | ⟨rfl, -⟩ <;> decide
    | suffix hk _ =>
      exact exact_toRight this hr (fun c hc => identPart_plain (literal_identPart hk c hc))

/-- **C21, violation.** After a string literal that contains a line feed, the line number is
wrong: the identifier in the second line is reported in line 0. -/
theorem C21_multiline_string :
    tokenize ['"', '\n', '"', 'a'] = some
      ([⟨⟨0, 0, 0⟩, 3, .string_literal⟩, ⟨⟨0, 3, 3⟩, 1, .identifier⟩], .ok ()) ∧
    positionAfterText ['"', '\n', '"'] = ⟨1, 1, 3⟩ := by
  decide

example : (tokenize "a /* x\n\t*/ b // c\n\td".toList).map (fun r => r.1.map (·.pos)) =
    some [⟨0, 0, 0⟩, ⟨0, 2, 2⟩, ⟨1, 7, 11⟩, ⟨1, 9, 13⟩, ⟨2, 4, 19⟩] := by
  decide +kernel

/-! ## C46: longest match -/

/-- **C46.** Where a token begins, no text that is longer than the token is a lexeme (of any type). -/
theorem C46_longest_match {src : List Char} {ts : List Token}
    {res : Outcome TokenizeError Unit} (h : tokenize src = some (ts, res)) {t : Token} (ht : t ∈ ts) :
    ∀ ty text, text <+: src.drop t.pos.start → Lexeme ty text → text.length ≤ t.length := by
  obtain ⟨c, cs, hd, hm⟩ := run_mem h ht
  rw [hd]
  exact tryMatch_longest hm

/-! ## C22: termination, errors -/

/-- The loop ends within one iteration per remaining character. -/
theorem loop_terminates (src : List Char) (fuel : Nat) (pos : Position) (out : List Token)
    (hf : src.length - pos.start + 1 ≤ fuel) : ∃ r, tokenizeLoop src fuel pos out = some r := by
  induction fuel generalizing pos out with
  | zero => omega
  | succ fuel ih =>
    unfold tokenizeLoop
    by_cases h1 : pos.start = src.length
    · rw [if_pos h1]; exact ⟨_, rfl⟩
    rw [if_neg h1]
    cases hn : nextToken src pos with
    | ok o =>
      cases o with
      | none => exact ⟨_, rfl⟩
      | some t =>
        simp only
        cases hp : positionAfter src t.pos t.length t.type with
        | ok next =>
          obtain ⟨hlt, gap, c, cs, hg, hm⟩ := nextToken_some hn
          have := positionAfter_start hp
          have := hg.start
          have := (tryMatch_ok hm).1
          exact ih next _ (by omega)
        | err e => exact ⟨_, rfl⟩
        | throws => exact ⟨_, rfl⟩
        | ub => exact ⟨_, rfl⟩
    | err e => exact ⟨_, rfl⟩
    | throws => exact ⟨_, rfl⟩
    | ub => exact ⟨_, rfl⟩

theorem loop_mono {src : List Char} {fuel : Nat} {pos : Position} {out : List Token}
    {r : List Token × Outcome TokenizeError Unit}
    (h : tokenizeLoop src fuel pos out = some r) : tokenizeLoop src (fuel + 1) pos out = some r := by
  induction fuel generalizing pos out with
  | zero => cases h
  | succ fuel ih =>
    unfold tokenizeLoop at h
    unfold tokenizeLoop
    by_cases h1 : pos.start = src.length
    · rw [if_pos h1] at h ⊢; exact h
    rw [if_neg h1] at h ⊢
    cases hn : nextToken src pos with
    | ok o =>
      rw [hn] at h
      cases o with
      | none => exact h
      | some t =>
        simp only at h ⊢
        cases hp : positionAfter src t.pos t.length t.type with
        | ok next => rw [hp] at h; exact ih h
        | err e => rw [hp] at h; exact h
        | throws => rw [hp] at h; exact h
        | ub => rw [hp] at h; exact h
    | err e => rw [hn] at h; exact h
    | throws => rw [hn] at h; exact h
    | ub => rw [hn] at h; exact h

/-- **C22, termination.** For every source text the loop ends after at most one iteration more than
there are characters, and the bound on the iterations has no influence on the result. -/
theorem C22_terminates (src : List Char) :
    ∃ r, tokenize src = some r ∧
      ∀ fuel, src.length + 1 ≤ fuel → tokenizeLoop src fuel ⟨0, 0, 0⟩ [] = some r := by
  obtain ⟨r, hr⟩ := loop_terminates src (src.length + 1) ⟨0, 0, 0⟩ [] (by simp)
  refine ⟨r, hr, fun fuel hf => ?_⟩
  induction hf with
  | refl => exact hr
  | step _ ih => exact loop_mono ih

/-- **C22, errors.** A reported error lies in the source (at most at its end), no token can be read
there, and the error code describes why (`LexicalError`). -/
theorem C22_error {src : List Char} {ts : List Token} {e : TokenizeError}
    (h : tokenize src = some (ts, .err e)) :
    e.pos.start ≤ src.length ∧
    ∃ off, off ≤ e.pos.start ∧ LexicalError e.code off (src.drop (e.pos.start - off)) := by
  obtain ⟨ts', last, q, h1, h2, h3⟩ := loop_run h
  cases h2 with
  | @error r gap c cs code off hq hg hl =>
    have hle := lexicalError_le hl
    have h5 := congrArg List.length hg.rest
    simp only [List.length_drop] at h5
    simp only [Position.toRight]
    refine ⟨?_, off, by omega, ?_⟩
    · simp only [List.length_cons] at h5 hle; omega
    · rw [Nat.add_sub_cancel, hg.rest]; exact hl

/-- An error whose code is not `no_digits_following_integer_prefix` lies strictly inside. -/
theorem C22_error_inside {src : List Char} {ts : List Token} {e : TokenizeError}
    (h : tokenize src = some (ts, .err e)) (hc : e.code ≠ .no_digits_following_integer_prefix) :
    e.pos.start < src.length := by
  obtain ⟨-, off, h1, h2⟩ := C22_error h
  have hlen : (src.drop (e.pos.start - off)).length = src.length - (e.pos.start - off) := by simp
  have : off < (src.drop (e.pos.start - off)).length := by
    revert h2 hc
    generalize src.drop (e.pos.start - off) = s
    generalize e.code = code
    intro hc h2
    cases h2 with
    | noDigits => exact absurd rfl hc
    | suffix _ _ => simp
    | illegal => simp
    | comment => simp
    | string => simp
  omega

/-- ... and the exceptional code can lie at the end of the text. -/
theorem C22_error_at_end :
    tokenize "0x".toList = some ([], .err ⟨.no_digits_following_integer_prefix, ⟨0, 2, 2⟩⟩) := by
  decide

/-- **C22, no exceptions, partial.** Tokenization throws only if the text ends with `*/`, `&&`, `!`,
or `!` and one character. There is never undefined behaviour. -/
theorem C22_no_exception_partial (src : List Char) :
    ∃ ts res, tokenize src = some (ts, res) ∧ res ≠ .ub ∧
      (res = .throws → ['*', '/'] <:+ src ∨ ['&', '&'] <:+ src ∨ ['!'] <:+ src ∨
        ∃ c, ['!', c] <:+ src) := by
  obtain ⟨⟨ts, res⟩, h, -⟩ := C22_terminates src
  refine ⟨ts, res, h, ?_⟩
  obtain ⟨ts', last, q, h1, h2, h3⟩ := loop_run h
  constructor
  · rintro rfl; cases h2
  · rintro rfl
    cases h2 with
    | beyond hq =>
      rcases steps_last h1 with ⟨-, rfl⟩ | ⟨p', t, hn, hp⟩
      · simp at hq
      · obtain ⟨hlt, gap, c, cs, hg, hm⟩ := nextToken_some hn
        have ok := tryMatch_ok hm
        have e1 := positionAfter_start hp
        have h5 := congrArg List.length hg.rest
        simp only [List.length_drop] at h5
        have suf : c :: cs <:+ src := by rw [← hg.rest]; exact List.drop_suffix _ _
        by_cases hw : WrongLength t.type
        · obtain ⟨hl, sp, hsp, hpre⟩ := ok.2.2 hw
          have hle : (c :: cs).length ≤ 2 := by omega
          rcases hw with he | he
          · rw [he] at hsp; cases hsp
            obtain ⟨r, hr⟩ := hpre
            have : r = [] := by
              rw [← hr] at hle
              simp only [List.length_append] at hle
              have : "&&".toList.length = 2 := by decide
              exact List.eq_nil_of_length_eq_zero (by omega)
            subst this
            right; left
            rw [← hr] at suf; exact suf
          · rw [he] at hsp; cases hsp
            obtain ⟨r, hr⟩ := hpre
            rw [← hr] at suf hle
            right; right
            match r with
            | [] => left; exact suf
            | [c] => right; exact ⟨c, suf⟩
            | _ :: _ :: _ => simp at hle
        · have := (ok.2.1 hw).1
          have := ok.1
          omega
    | comment hn hty hle =>
      left
      obtain ⟨hlt, gap, c, cs, hg, hm⟩ := nextToken_some hn
      have ok := tryMatch_ok hm
      obtain ⟨hle', hl⟩ := ok.2.1 (by rw [hty]; decide)
      have h5 := congrArg List.length hg.rest
      simp only [List.length_drop] at h5
      have suf : c :: cs <:+ src := by rw [← hg.rest]; exact List.drop_suffix _ _
      rw [List.take_of_length_le (by omega)] at hl
      rw [hty] at hl
      generalize c :: cs = s at hl suf
      cases hl with
      | fixed h => cases h
      | @blockComment body _ =>
        exact List.IsSuffix.trans ⟨'/' :: '*' :: body, by simp⟩ suf

/-- **C22, violations.** A block comment at the end of the text, a trailing `!`, a trailing `&&`. -/
theorem C22_exceptions :
    (tokenize "/**/".toList).map (·.2) = some .throws ∧
    (tokenize "!a".toList).map (·.2) = some .throws ∧
    (tokenize "a&&".toList).map (·.2) = some .throws := by
  decide

end Bms
