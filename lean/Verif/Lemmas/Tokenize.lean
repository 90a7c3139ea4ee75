import Verif.Spec.Tokens
import Verif.Props.Text

/-!
# Lemmas about the tokenizer
-/

namespace Bms

open Spec

/-- The two operators whose length is wrong in `token_type_length`. -/
def WrongLength (ty : TokenType) : Prop := ty = .logical_and ∨ ty = .logical_not

instance (ty : TokenType) : Decidable (WrongLength ty) := inferInstanceAs (Decidable (_ ∨ _))

theorem all_complete (ty : TokenType) : ty ∈ TokenType.all := by
  cases ty <;> decide

theorem head?_eq_some {cs : List Char} {d : Char} (h : cs.head? = some d) : ∃ r, cs = d :: r := by
  cases cs with
  | nil => cases h
  | cons x r => cases h; exact ⟨r, rfl⟩

theorem fixed_some {s : List Char} {ty : TokenType} (h : matchFixedLengthToken s = some ty) :
    ∃ sp, spelling ty = some sp ∧ sp.toList <+: s ∧
      (¬ WrongLength ty → ty.length = sp.toList.length) ∧ (WrongLength ty → ty.length = 3) := by
  cases s with
  | nil => cases h
  | cons c cs =>
    unfold matchFixedLengthToken at h
    simp only at h
    by_cases hc : c = '('
    · rw [if_pos hc] at h
      subst hc
      cases h
      exact ⟨_, rfl, ⟨cs, rfl⟩, by decide, by decide⟩
    rw [if_neg hc] at h
    clear hc
    by_cases hc : c = ')'
    · rw [if_pos hc] at h
      subst hc
      cases h
      exact ⟨_, rfl, ⟨cs, rfl⟩, by decide, by decide⟩
    rw [if_neg hc] at h
    clear hc
    by_cases hc : c = '{'
    · rw [if_pos hc] at h
      subst hc
      cases h
      exact ⟨_, rfl, ⟨cs, rfl⟩, by decide, by decide⟩
    rw [if_neg hc] at h
    clear hc
    by_cases hc : c = '}'
    · rw [if_pos hc] at h
      subst hc
      cases h
      exact ⟨_, rfl, ⟨cs, rfl⟩, by decide, by decide⟩
    rw [if_neg hc] at h
    clear hc
    by_cases hc : c = '='
    · rw [if_pos hc] at h
      subst hc
      split at h
      · rename_i hn
        cases h
        obtain ⟨r, rfl⟩ := head?_eq_some (of_decide_eq_true hn)
        exact ⟨_, rfl, ⟨r, rfl⟩, by decide, by decide⟩
      split at h
      · rename_i hn
        cases h
        obtain ⟨r, rfl⟩ := head?_eq_some (of_decide_eq_true hn)
        exact ⟨_, rfl, ⟨r, rfl⟩, by decide, by decide⟩
      cases h
      exact ⟨_, rfl, ⟨cs, rfl⟩, by decide, by decide⟩
    rw [if_neg hc] at h
    clear hc
    by_cases hc : c = '+'
    · rw [if_pos hc] at h
      subst hc
      cases h
      exact ⟨_, rfl, ⟨cs, rfl⟩, by decide, by decide⟩
    rw [if_neg hc] at h
    clear hc
    by_cases hc : c = '-'
    · rw [if_pos hc] at h
      subst hc
      split at h
      · rename_i hn
        cases h
        obtain ⟨r, rfl⟩ := head?_eq_some (of_decide_eq_true hn)
        exact ⟨_, rfl, ⟨r, rfl⟩, by decide, by decide⟩
      cases h
      exact ⟨_, rfl, ⟨cs, rfl⟩, by decide, by decide⟩
    rw [if_neg hc] at h
    clear hc
    by_cases hc : c = '*'
    · rw [if_pos hc] at h
      subst hc
      cases h
      exact ⟨_, rfl, ⟨cs, rfl⟩, by decide, by decide⟩
    rw [if_neg hc] at h
    clear hc
    by_cases hc : c = '/'
    · rw [if_pos hc] at h
      subst hc
      cases h
      exact ⟨_, rfl, ⟨cs, rfl⟩, by decide, by decide⟩
    rw [if_neg hc] at h
    clear hc
    by_cases hc : c = '%'
    · rw [if_pos hc] at h
      subst hc
      cases h
      exact ⟨_, rfl, ⟨cs, rfl⟩, by decide, by decide⟩
    rw [if_neg hc] at h
    clear hc
    by_cases hc : c = '<'
    · rw [if_pos hc] at h
      subst hc
      split at h
      · rename_i hn
        cases h
        obtain ⟨r, rfl⟩ := head?_eq_some (of_decide_eq_true hn)
        exact ⟨_, rfl, ⟨r, rfl⟩, by decide, by decide⟩
      split at h
      · rename_i hn
        cases h
        obtain ⟨r, rfl⟩ := head?_eq_some (of_decide_eq_true hn)
        exact ⟨_, rfl, ⟨r, rfl⟩, by decide, by decide⟩
      cases h
      exact ⟨_, rfl, ⟨cs, rfl⟩, by decide, by decide⟩
    rw [if_neg hc] at h
    clear hc
    by_cases hc : c = '>'
    · rw [if_pos hc] at h
      subst hc
      split at h
      · rename_i hn
        cases h
        obtain ⟨r, rfl⟩ := head?_eq_some (of_decide_eq_true hn)
        exact ⟨_, rfl, ⟨r, rfl⟩, by decide, by decide⟩
      split at h
      · rename_i hn
        cases h
        obtain ⟨r, rfl⟩ := head?_eq_some (of_decide_eq_true hn)
        exact ⟨_, rfl, ⟨r, rfl⟩, by decide, by decide⟩
      cases h
      exact ⟨_, rfl, ⟨cs, rfl⟩, by decide, by decide⟩
    rw [if_neg hc] at h
    clear hc
    by_cases hc : c = '&'
    · rw [if_pos hc] at h
      subst hc
      split at h
      · rename_i hn
        cases h
        obtain ⟨r, rfl⟩ := head?_eq_some (of_decide_eq_true hn)
        exact ⟨_, rfl, ⟨r, rfl⟩, by decide, by decide⟩
      cases h
      exact ⟨_, rfl, ⟨cs, rfl⟩, by decide, by decide⟩
    rw [if_neg hc] at h
    clear hc
    by_cases hc : c = '|'
    · rw [if_pos hc] at h
      subst hc
      split at h
      · rename_i hn
        cases h
        obtain ⟨r, rfl⟩ := head?_eq_some (of_decide_eq_true hn)
        exact ⟨_, rfl, ⟨r, rfl⟩, by decide, by decide⟩
      cases h
      exact ⟨_, rfl, ⟨cs, rfl⟩, by decide, by decide⟩
    rw [if_neg hc] at h
    clear hc
    by_cases hc : c = '^'
    · rw [if_pos hc] at h
      subst hc
      cases h
      exact ⟨_, rfl, ⟨cs, rfl⟩, by decide, by decide⟩
    rw [if_neg hc] at h
    clear hc
    by_cases hc : c = '~'
    · rw [if_pos hc] at h
      subst hc
      cases h
      exact ⟨_, rfl, ⟨cs, rfl⟩, by decide, by decide⟩
    rw [if_neg hc] at h
    clear hc
    by_cases hc : c = '!'
    · rw [if_pos hc] at h
      subst hc
      split at h
      · rename_i hn
        cases h
        obtain ⟨r, rfl⟩ := head?_eq_some (of_decide_eq_true hn)
        exact ⟨_, rfl, ⟨r, rfl⟩, by decide, by decide⟩
      cases h
      exact ⟨_, rfl, ⟨cs, rfl⟩, by decide, by decide⟩
    rw [if_neg hc] at h
    clear hc
    by_cases hc : c = ':'
    · rw [if_pos hc] at h
      subst hc
      cases h
      exact ⟨_, rfl, ⟨cs, rfl⟩, by decide, by decide⟩
    rw [if_neg hc] at h
    clear hc
    by_cases hc : c = ';'
    · rw [if_pos hc] at h
      subst hc
      cases h
      exact ⟨_, rfl, ⟨cs, rfl⟩, by decide, by decide⟩
    rw [if_neg hc] at h
    clear hc
    by_cases hc : c = '.'
    · rw [if_pos hc] at h
      subst hc
      cases h
      exact ⟨_, rfl, ⟨cs, rfl⟩, by decide, by decide⟩
    rw [if_neg hc] at h
    clear hc
    by_cases hc : c = ','
    · rw [if_pos hc] at h
      subst hc
      cases h
      exact ⟨_, rfl, ⟨cs, rfl⟩, by decide, by decide⟩
    rw [if_neg hc] at h
    clear hc
    by_cases hc : c = '@'
    · rw [if_pos hc] at h
      subst hc
      cases h
      exact ⟨_, rfl, ⟨cs, rfl⟩, by decide, by decide⟩
    rw [if_neg hc] at h
    clear hc
    cases h

/-- Whether the spelling of the token type is an operator or punctuation, as opposed to a
keyword. -/
def IsSymbol (ty : TokenType) : Prop :=
  ∃ sp, spelling ty = some sp ∧ ∀ c ∈ sp.toList, ¬ IdentPart c

theorem fixed_symbol {s : List Char} {ty : TokenType} (h : matchFixedLengthToken s = some ty) :
    ∀ c, s.head? = some c → ¬ IdentPart c := by
  obtain ⟨sp, h1, ⟨r, rfl⟩, -⟩ := fixed_some h
  revert h1 h
  cases ty <;> intro h1 h <;> cases h1 <;> intro c hc <;> cases hc <;> first
    | decide
    | (exfalso; revert h; unfold matchFixedLengthToken; exact fun h => nomatch h)

theorem fixed_longest {s r : List Char} {ty : TokenType} {sp : String} (h : spelling ty = some sp)
    (hs : IsSymbol ty) (he : s = sp.toList ++ r) :
    ∃ ty' sp', matchFixedLengthToken s = some ty' ∧ spelling ty' = some sp' ∧
      sp.toList.length ≤ sp'.toList.length := by
  subst he
  have pos : ∀ {ty sp}, spelling ty = some sp → 1 ≤ sp.toList.length := by
    intro ty sp h; revert h; cases ty <;> intro h <;> cases h <;> decide
  suffices ∃ ty', matchFixedLengthToken (sp.toList ++ r) = some ty' ∧
      (sp.toList.length ≤ 1 ∨ ty' = ty) by
    obtain ⟨ty', h1, h2⟩ := this
    obtain ⟨sp', h3, -⟩ := fixed_some h1
    refine ⟨ty', sp', h1, h3, ?_⟩
    rcases h2 with h2 | rfl
    · exact Nat.le_trans h2 (pos h3)
    · rw [h] at h3; cases h3; exact Nat.le_refl _
  revert h hs
  cases ty <;> intro h hs <;> cases h
  all_goals first
    | exact ⟨_, rfl, .inr rfl⟩
    | (obtain ⟨sp, h1, h2⟩ := hs
       cases h1
       exact absurd (h2 _ (List.mem_cons_self)) (by decide))
    | (cases r with
       | nil => exact ⟨_, rfl, .inr rfl⟩
       | cons d r =>
         by_cases h1 : d = '='
         · subst h1; exact ⟨_, rfl, .inl (by decide)⟩
         by_cases h2 : d = '>'
         · subst h2; exact ⟨_, rfl, .inl (by decide)⟩
         by_cases h3 : d = '<'
         · subst h3; exact ⟨_, rfl, .inl (by decide)⟩
         by_cases h4 : d = '&'
         · subst h4; exact ⟨_, rfl, .inl (by decide)⟩
         by_cases h5 : d = '|'
         · subst h5; exact ⟨_, rfl, .inl (by decide)⟩
         refine ⟨_, ?_, .inr rfl⟩
         simp [matchFixedLengthToken, h1, h2, h3, h4, h5])

theorem keyword_some {s : List Char} {ty : TokenType} (h : keywordByName s = some ty) :
    ∃ sp, spelling ty = some sp ∧ sp.toList = s := by
  simp only [keywordByName, Option.map_eq_some_iff] at h
  obtain ⟨⟨name, ty'⟩, h1, rfl⟩ := h
  have hm := List.mem_of_find?_eq_some h1
  have hp := List.find?_some h1
  simp only [decide_eq_true_eq] at hp
  refine ⟨name, ?_, hp⟩
  have : ∀ e ∈ keywordTable, spelling e.2 = some e.1 := by decide
  exact this _ hm

theorem keyword_complete {ty : TokenType} {sp : String} (h1 : spelling ty = some sp)
    (h2 : Ident sp.toList) : keywordByName sp.toList ≠ none := by
  cases ty <;> cases h1 <;> first
    | decide
    | exact absurd h2.1 (by decide)

theorem spelling_pos {ty : TokenType} {sp : String} (h1 : spelling ty = some sp) :
    1 ≤ sp.toList.length := by
  cases ty <;> cases h1 <;> decide

theorem keyword_none {s : List Char} (hi : Ident s) (h : keywordByName s = none) :
    ∀ ty sp, spelling ty = some sp → sp.toList ≠ s := by
  intro ty sp h1 h2
  subst h2
  exact keyword_complete h1 hi h

theorem tokenizeResult_ok {n m : Nat} {ty ty' : TokenType} :
    tokenizeResult n ty = .ok (m, ty') ↔ n ≠ 0 ∧ m = n ∧ ty' = ty := by
  unfold tokenizeResult
  by_cases h : n = 0
  · simp [h]
  · simp [h]
    constructor
    · rintro ⟨rfl, rfl⟩; exact ⟨rfl, rfl⟩
    · rintro ⟨rfl, rfl⟩; exact ⟨rfl, rfl⟩

theorem literal_lexeme {k : LiteralType} {s : List Char} {v : Nat} (h : Literal k s v) :
    Lexeme (tokenTypeOf k) s := by
  cases k
  · exact .binary h
  · exact .octal h
  · exact .decimal h
  · exact .hexadecimal h

/-- What a successful match guarantees. -/
def TokenOk (s : List Char) (n : Nat) (ty : TokenType) : Prop :=
  0 < n ∧ (¬ WrongLength ty → n ≤ s.length ∧ Lexeme ty (s.take n)) ∧
    (WrongLength ty → n = 3 ∧ ∃ sp, spelling ty = some sp ∧ sp.toList <+: s)

theorem tokenOk_fixed {s : List Char} {ty : TokenType} (h : matchFixedLengthToken s = some ty) :
    TokenOk s ty.length ty := by
  obtain ⟨sp, h1, h2, h3, h4⟩ := fixed_some h
  have pos := spelling_pos h1
  refine ⟨?_, fun hw => ?_, fun hw => ⟨h4 hw, sp, h1, h2⟩⟩
  · by_cases hw : WrongLength ty
    · rw [h4 hw]; decide
    · rw [h3 hw]; exact pos
  · rw [h3 hw]
    refine ⟨h2.length_le, ?_⟩
    rw [← List.prefix_iff_eq_take.mp h2]
    exact .fixed h1

theorem tokenOk_lexeme {s : List Char} {n : Nat} {ty : TokenType} (h0 : 0 < n)
    (hle : n ≤ s.length) (hl : Lexeme ty (s.take n)) (hw : ¬ WrongLength ty) : TokenOk s n ty :=
  ⟨h0, fun _ => ⟨hle, hl⟩, fun h => absurd h hw⟩

theorem tryMatch_ok {pos : Position} {s : List Char} {n : Nat} {ty : TokenType}
    (h : tryMatch pos s = .ok (n, ty)) : TokenOk s n ty := by
  cases s with
  | nil => cases h
  | cons c cs =>
    unfold tryMatch at h
    simp only at h
    by_cases h1 : isSpace c = true
    · rw [if_pos h1] at h; cases h
    rw [if_neg h1] at h
    by_cases h2 : c = '/'
    · rw [if_pos h2] at h
      cases hl : matchLineComment (c :: cs) with
      | some m =>
        rw [hl] at h
        obtain ⟨hn, rfl, rfl⟩ := tokenizeResult_ok.mp h
        obtain ⟨a1, a2, -⟩ := C17_line_comment (c :: cs)
        obtain ⟨len, term⟩ := m
        cases term with
        | true =>
          obtain ⟨body, rest, he, hb, rfl⟩ := (a1 _).mp hl
          rw [he]
          refine tokenOk_lexeme (by simp only; omega) (by simp; omega) ?_ (by decide)
          have : List.take (2 + body.length) ('/' :: '/' :: body ++ '\n' :: rest) =
              '/' :: '/' :: body := by
            rw [List.take_append_of_le_length (by simp; omega), List.take_of_length_le (by simp; omega)]
          rw [this]
          exact .lineComment hb
        | false =>
          obtain ⟨body, he, hb, rfl⟩ := (a2 _).mp hl
          refine tokenOk_lexeme (by simp) (Nat.le_refl _) ?_ (by decide)
          rw [List.take_length, he]
          exact .lineComment hb
      | none =>
        rw [hl] at h
        simp only at h
        cases hb : matchBlockComment (c :: cs) with
        | some m =>
          rw [hb] at h
          obtain ⟨len, term⟩ := m
          cases term with
          | false => cases h
          | true =>
            have h : tokenizeResult len .block_comment = .ok (n, ty) := h
            obtain ⟨hn, rfl, rfl⟩ := tokenizeResult_ok.mp h
            obtain ⟨body, rest, he, hb', rfl⟩ := ((C17_block_comment (c :: cs)).1 _).mp hb
            rw [he]
            refine tokenOk_lexeme (by omega) (by simp) ?_ (by decide)
            have : List.take (body.length + 4) ('/' :: '*' :: (body ++ '*' :: '/' :: rest)) =
                '/' :: '*' :: (body ++ ['*', '/']) := by
              have : '/' :: '*' :: (body ++ '*' :: '/' :: rest) =
                ('/' :: '*' :: (body ++ ['*', '/'])) ++ rest := by simp
              rw [this, List.take_append_of_le_length (by simp),
                List.take_of_length_le (by simp)]
            rw [this]
            exact .blockComment hb'
        | none =>
          rw [hb] at h
          simp only at h
          cases hf : matchFixedLengthToken (c :: cs) with
          | none => rw [hf] at h; cases h
          | some t =>
            rw [hf] at h
            obtain ⟨hn, rfl, rfl⟩ := tokenizeResult_ok.mp h
            exact tokenOk_fixed hf
    rw [if_neg h2] at h
    by_cases h3 : c = '"'
    · rw [if_pos h3] at h
      cases hl : matchStringLiteral (c :: cs) with
      | none => rw [hl] at h; cases h
      | some m =>
        rw [hl] at h
        obtain ⟨len, term⟩ := m
        cases term with
        | false => cases h
        | true =>
          have h : tokenizeResult len .string_literal = .ok (n, ty) := h
          obtain ⟨hn, rfl, rfl⟩ := tokenizeResult_ok.mp h
          obtain ⟨body, rest, he, hb, rfl⟩ := ((C17_string_literal (c :: cs)).1 _).mp hl
          rw [he]
          refine tokenOk_lexeme (by omega) (by simp) ?_ (by decide)
          have : List.take (body.length + 2) ('"' :: (body ++ '"' :: rest)) =
              '"' :: (body ++ ['"']) := by
            have : '"' :: (body ++ '"' :: rest) = ('"' :: (body ++ ['"'])) ++ rest := by simp
            rw [this, List.take_append_of_le_length (by simp), List.take_of_length_le (by simp)]
          rw [this]
          exact .string hb
    rw [if_neg h3] at h
    by_cases h4 : isDecimalDigit c = true
    · rw [if_pos h4] at h
      cases hl : matchIntegerLiteral (c :: cs) with
      | no_digits => rw [hl] at h; cases h
      | no_digits_following_prefix _ => rw [hl] at h; cases h
      | ok digits k =>
        rw [hl] at h
        simp only at h
        obtain ⟨a1, a2, ⟨v, a3⟩, -⟩ := C16_match_sound hl
        have fin : tokenizeResult digits (tokenTypeOf k) = .ok (n, ty) →
            TokenOk (c :: cs) n ty := by
          intro h
          obtain ⟨hn, rfl, rfl⟩ := tokenizeResult_ok.mp h
          exact tokenOk_lexeme a1 a2 (literal_lexeme a3) (by cases k <;> decide)
        split at h
        · split at h
          · cases h
          · exact fin h
        · exact fin h
    rw [if_neg h4] at h
    cases hf : matchFixedLengthToken (c :: cs) with
    | some t =>
      rw [hf] at h
      obtain ⟨hn, rfl, rfl⟩ := tokenizeResult_ok.mp h
      exact tokenOk_fixed hf
    | none =>
      rw [hf] at h
      simp only at h
      by_cases h5 : matchIdentifier (c :: cs) ≠ 0
      · rw [if_pos h5] at h
        rcases C18_match_identifier (c :: cs) with ⟨h0, -⟩ | ⟨h6, h7, h8, -⟩
        · exact absurd h0 h5
        cases hk : keywordByName ((c :: cs).take (matchIdentifier (c :: cs))) with
        | some k =>
          rw [hk] at h
          obtain ⟨hn, rfl, rfl⟩ := tokenizeResult_ok.mp h
          obtain ⟨sp, h9, h10⟩ := keyword_some hk
          refine tokenOk_lexeme h6 h7 ?_ ?_
          · rw [← h10]; exact .fixed h9
          · intro hw
            rw [← h10] at h8
            rcases hw with rfl | rfl <;> cases h9 <;> exact absurd h8.1 (by decide)
        | none =>
          rw [hk] at h
          obtain ⟨hn, rfl, rfl⟩ := tokenizeResult_ok.mp h
          exact tokenOk_lexeme h6 h7 (.identifier h8 (keyword_none h8 hk)) (by decide)
      · rw [if_neg h5] at h; cases h

/-! ## Shapes of lexemes -/

theorem symbol_or_ident {ty : TokenType} {sp : String} (h : spelling ty = some sp) :
    IsSymbol ty ∨ Ident sp.toList := by
  cases ty <;> cases h <;> first
    | exact .inl ⟨_, rfl, by decide⟩
    | exact .inr ⟨by decide, by decide⟩

/-- The shapes of lexemes, by their first character. -/
theorem lexeme_shape {ty : TokenType} {s : List Char} (h : Lexeme ty s) :
    (∃ sp, IsSymbol ty ∧ spelling ty = some sp ∧ s = sp.toList) ∨ Ident s ∨
    (∃ k v, Literal k s v) ∨
    (∃ body, StringBody body ∧ s = '"' :: (body ++ ['"'])) ∨
    (∃ body, '\n' ∉ body ∧ s = '/' :: '/' :: body) ∨
    (∃ body, ¬ ['*', '/'] <:+: body ++ ['*'] ∧ s = '/' :: '*' :: (body ++ ['*', '/'])) := by
  cases h with
  | @fixed _ sp h =>
    rcases symbol_or_ident h with h' | h'
    · exact .inl ⟨sp, h', h, rfl⟩
    · exact .inr (.inl h')
  | identifier h _ => exact .inr (.inl h)
  | binary h => exact .inr (.inr (.inl ⟨_, _, h⟩))
  | octal h => exact .inr (.inr (.inl ⟨_, _, h⟩))
  | decimal h => exact .inr (.inr (.inl ⟨_, _, h⟩))
  | hexadecimal h => exact .inr (.inr (.inl ⟨_, _, h⟩))
  | string h => exact .inr (.inr (.inr (.inl ⟨_, h, rfl⟩)))
  | lineComment h => exact .inr (.inr (.inr (.inr (.inl ⟨_, h, rfl⟩))))
  | blockComment h => exact .inr (.inr (.inr (.inr (.inr ⟨_, h, rfl⟩))))

theorem symbol_head {ty : TokenType} {sp : String} (hs : IsSymbol ty) (h : spelling ty = some sp) :
    ∃ c t, sp.toList = c :: t ∧ c ≠ '"' ∧ ¬ IdentPart c ∧ ¬ White c := by
  cases ty <;> cases h <;> first
    | exact ⟨_, _, rfl, by decide, by decide, by decide⟩
    | (obtain ⟨sp, h1, h2⟩ := hs
       cases h1
       exact absurd (h2 _ (List.mem_cons_self)) (by decide))

theorem isSpace_iff (c : Char) : isSpace c = true ↔ White c := by
  simp only [isSpace, White, Bool.or_eq_true, decide_eq_true_eq]
  constructor
  · rintro (((h | h) | h) | h) <;> simp [h]
  · rintro (h | h | h | h) <;> simp [h]

theorem identStart_not_digit {c : Char} (h : IdentStart c) : ¬ InRange '0' c '9' := by
  have := (ident_iff_all c []).mp ⟨h, by simp⟩
  exact this.1

theorem length_le_of_not_mem {a : Char} {x body rest : List Char} (h : x <+: body ++ a :: rest)
    (ha : a ∉ x) : x.length ≤ body.length := by
  induction body generalizing x with
  | nil =>
    cases x with
    | nil => simp
    | cons b x =>
      obtain ⟨r, hr⟩ := h
      simp at hr
      exact absurd (by simp [hr.1]) ha
  | cons b body ih =>
    cases x with
    | nil => simp
    | cons b' x =>
      obtain ⟨r, hr⟩ := h
      simp at hr
      have := ih (x := x) ⟨r, by simp [hr.2]⟩ (fun h => ha (by simp [h]))
      simp; exact this

/-! ## Longest match -/

/-- No longer lexeme begins here. -/
def Longest (s : List Char) (n : Nat) : Prop :=
  ∀ ty text, text <+: s → Lexeme ty text → text.length ≤ n

theorem ident_prefix {s text : List Char} (hp : text <+: s) (hi : Ident text) :
    text.length ≤ matchIdentifier s := by
  rw [List.prefix_iff_eq_take.mp hp] at hi
  rcases C18_match_identifier s with ⟨h0, hno⟩ | ⟨_, _, _, hmax⟩
  · exact absurd hi (hno _)
  · by_cases h : matchIdentifier s < text.length
    · exact absurd hi (hmax _ h hp.length_le)
    · omega

theorem symbol_prefix {s : List Char} {ty ty' : TokenType} {sp : String} (hs : IsSymbol ty')
    (h : spelling ty' = some sp) (hp : sp.toList <+: s) (hm : matchFixedLengthToken s = some ty) :
    sp.toList.length ≤ ty.length := by
  obtain ⟨r, hr⟩ := hp
  obtain ⟨t, sp', h1, h2, h3⟩ := fixed_longest h hs hr.symm
  rw [hm] at h1
  cases h1
  obtain ⟨sp'', h4, -, h5, h6⟩ := fixed_some hm
  obtain rfl : sp'' = sp' := Option.some.inj (h4.symm.trans h2)
  by_cases hw : WrongLength ty
  · rw [h6 hw]
    have : sp''.toList.length ≤ 3 := by
      rcases hw with rfl | rfl <;> cases h4 <;> decide
    omega
  · rw [h5 hw]; exact h3

theorem prefix_head {c d : Char} {t cs : List Char} (h : c :: t <+: d :: cs) : c = d := by
  obtain ⟨r, hr⟩ := h; simp at hr; exact hr.1

theorem tryMatch_longest {pos : Position} {s : List Char} {n : Nat} {ty : TokenType}
    (h : tryMatch pos s = .ok (n, ty)) : Longest s n := by
  cases s with
  | nil => cases h
  | cons c cs =>
    intro ty' text hp hl
    have hshape := lexeme_shape hl
    unfold tryMatch at h
    simp only at h
    by_cases h1 : isSpace c = true
    · rw [if_pos h1] at h; cases h
    rw [if_neg h1] at h
    have hdig : ∀ k v, Literal k text v → InRange '0' c '9' := by
      intro k v hv
      obtain ⟨d, t, rfl, hd⟩ := literal_shape hv
      rw [prefix_head hp] at hd; exact hd
    have hid : Ident text → IdentStart c := by
      intro hi
      cases text with
      | nil => exact hi.elim
      | cons d t => rw [← prefix_head hp]; exact hi.1
    by_cases h2 : c = '/'
    · rw [if_pos h2] at h
      have noLit : ∀ k v, ¬ Literal k text v := fun k v hv => absurd (hdig k v hv) (by subst h2; decide)
      have noId : ¬ Ident text := fun hv => absurd (hid hv) (by subst h2; decide)
      have noStr : ¬ ∃ body, StringBody body ∧ text = '"' :: (body ++ ['"']) := by
        rintro ⟨body, -, rfl⟩
        have := prefix_head hp
        rw [h2] at this; exact absurd this (by decide)
      have symOne : ∀ {sp : String}, IsSymbol ty' → spelling ty' = some sp →
          text = sp.toList → text.length ≤ 1 := by
        rintro sp hs he rfl
        have hm : matchFixedLengthToken (c :: cs) = some .division := by subst h2; rfl
        exact symbol_prefix hs he hp hm
      cases hlc : matchLineComment (c :: cs) with
      | some m =>
        rw [hlc] at h
        obtain ⟨hn, rfl, rfl⟩ := tokenizeResult_ok.mp h
        obtain ⟨a1, a2, -⟩ := C17_line_comment (c :: cs)
        obtain ⟨len, term⟩ := m
        cases term with
        | false =>
          obtain ⟨body, he, hb, rfl⟩ := (a2 _).mp hlc
          exact hp.length_le
        | true =>
          obtain ⟨body, rest, he, hb, rfl⟩ := (a1 _).mp hlc
          rw [he] at hp
          rcases hshape with ⟨sp, hs, he, ht⟩ | hs | ⟨k, v, hs⟩ | hs | ⟨b, hb', rfl⟩ | ⟨b, hb', rfl⟩
          · have := symOne hs he ht
            simp only; omega
          · exact absurd hs noId
          · exact absurd hs (noLit k v)
          · exact absurd hs noStr
          · have : b <+: body ++ '\n' :: rest := by
              obtain ⟨r, hr⟩ := hp
              exact ⟨r, by simpa using hr⟩
            have := length_le_of_not_mem this hb'
            simp; omega
          · obtain ⟨r, hr⟩ := hp
            simp at hr
      | none =>
        rw [hlc] at h
        simp only at h
        have noLine : ∀ b, text ≠ '/' :: '/' :: b := by
          rintro b rfl
          obtain ⟨r, hr⟩ := hp
          exact absurd ⟨b ++ r, by rw [← hr]; rfl⟩ ((C17_line_comment (c :: cs)).2.2.mp hlc)
        cases hbc : matchBlockComment (c :: cs) with
        | some m =>
          rw [hbc] at h
          obtain ⟨len, term⟩ := m
          cases term with
          | false => cases h
          | true =>
            have h : tokenizeResult len .block_comment = .ok (n, ty) := h
            obtain ⟨hn, rfl, rfl⟩ := tokenizeResult_ok.mp h
            rcases hshape with ⟨sp, hs, he, ht⟩ | hs | ⟨k, v, hs⟩ | hs | ⟨b, hb', ht⟩ | ⟨b, hb', rfl⟩
            · have := symOne hs he ht
              omega
            · exact absurd hs noId
            · exact absurd hs (noLit k v)
            · exact absurd hs noStr
            · exact absurd ht (noLine b)
            · obtain ⟨r, hr⟩ := hp
              have := ((C17_block_comment (c :: cs)).1 (b.length + 4)).mpr
                ⟨b, r, by rw [← hr]; simp, hb', rfl⟩
              rw [hbc] at this
              cases this
              simp
        | none =>
          rw [hbc] at h
          simp only at h
          cases hf : matchFixedLengthToken (c :: cs) with
          | none => rw [hf] at h; cases h
          | some t =>
            rw [hf] at h
            obtain ⟨hn, rfl, rfl⟩ := tokenizeResult_ok.mp h
            rcases hshape with ⟨sp, hs, he, rfl⟩ | hs | ⟨k, v, hs⟩ | hs | ⟨b, hb', ht⟩ | ⟨b, hb', rfl⟩
            · exact symbol_prefix hs he hp hf
            · exact absurd hs noId
            · exact absurd hs (noLit k v)
            · exact absurd hs noStr
            · exact absurd ht (noLine b)
            · obtain ⟨r, hr⟩ := hp
              exact absurd ⟨b ++ ['*', '/'] ++ r, by rw [← hr]; rfl⟩
                ((C17_block_comment (c :: cs)).2.2.mp hbc)
    rw [if_neg h2] at h
    have noComment : ∀ d b, text ≠ '/' :: d :: b := by
      rintro d b rfl
      exact h2 (prefix_head hp).symm
    by_cases h3 : c = '"'
    · rw [if_pos h3] at h
      cases hsl : matchStringLiteral (c :: cs) with
      | none => rw [hsl] at h; cases h
      | some m =>
        rw [hsl] at h
        obtain ⟨len, term⟩ := m
        cases term with
        | false => cases h
        | true =>
          have h : tokenizeResult len .string_literal = .ok (n, ty) := h
          obtain ⟨hn, rfl, rfl⟩ := tokenizeResult_ok.mp h
          rcases hshape with ⟨sp, hs, he, rfl⟩ | hs | ⟨k, v, hs⟩ | ⟨b, hs, rfl⟩ | ⟨b, -, hb'⟩ | ⟨b, -, hb'⟩
          · obtain ⟨d, t, hd, hd', -⟩ := symbol_head hs he
            rw [hd] at hp
            exact absurd ((prefix_head hp).trans h3) hd'
          · exact absurd (hid hs) (by subst h3; decide)
          · exact absurd (hdig k v hs) (by subst h3; decide)
          · obtain ⟨r, hr⟩ := hp
            have := ((C17_string_literal (c :: cs)).1 (b.length + 2)).mpr
                ⟨b, r, by rw [← hr]; simp, hs, rfl⟩
            rw [hsl] at this
            cases this
            simp
          · exact absurd hb' (noComment _ _)
          · exact absurd hb' (noComment _ _)
    rw [if_neg h3] at h
    have noStr : ¬ ∃ body, StringBody body ∧ text = '"' :: (body ++ ['"']) := by
      rintro ⟨body, -, rfl⟩
      exact h3 (prefix_head hp).symm
    by_cases h4 : isDecimalDigit c = true
    · rw [if_pos h4] at h
      rw [isDecimalDigit_iff] at h4
      cases hil : matchIntegerLiteral (c :: cs) with
      | no_digits => rw [hil] at h; cases h
      | no_digits_following_prefix _ => rw [hil] at h; cases h
      | ok digits k =>
        rw [hil] at h
        simp only at h
        obtain ⟨a1, a2, -, a4⟩ := C16_match_sound hil
        have fin : tokenizeResult digits (tokenTypeOf k) = .ok (n, ty) → text.length ≤ n := by
          intro h
          obtain ⟨hn, rfl, rfl⟩ := tokenizeResult_ok.mp h
          rcases hshape with ⟨sp, hs, he, rfl⟩ | hs | ⟨k', v, hs⟩ | hs | ⟨b, -, hb'⟩ | ⟨b, -, hb'⟩
          · obtain ⟨d, t, hd, -, hd', -⟩ := symbol_head hs he
            rw [hd] at hp
            exact absurd (.inr (by rw [prefix_head hp]; exact h4)) hd'
          · exact absurd h4 (identStart_not_digit (hid hs))
          · by_cases hlt : n < text.length
            · rw [List.prefix_iff_eq_take.mp hp] at hs
              exact absurd hs (a4 _ k' v hlt hp.length_le)
            · omega
          · exact absurd hs noStr
          · exact absurd hb' (noComment _ _)
          · exact absurd hb' (noComment _ _)
        split at h
        · split at h
          · cases h
          · exact fin h
        · exact fin h
    rw [if_neg h4] at h
    rw [isDecimalDigit_iff] at h4
    cases hf : matchFixedLengthToken (c :: cs) with
    | some t =>
      rw [hf] at h
      obtain ⟨hn, rfl, rfl⟩ := tokenizeResult_ok.mp h
      rcases hshape with ⟨sp, hs, he, rfl⟩ | hs | ⟨k', v, hs⟩ | hs | ⟨b, -, hb'⟩ | ⟨b, -, hb'⟩
      · exact symbol_prefix hs he hp hf
      · exact absurd (.inl (hid hs)) (fixed_symbol hf c rfl)
      · exact absurd (hdig _ _ hs) h4
      · exact absurd hs noStr
      · exact absurd hb' (noComment _ _)
      · exact absurd hb' (noComment _ _)
    | none =>
      rw [hf] at h
      simp only at h
      by_cases h5 : matchIdentifier (c :: cs) ≠ 0
      · rw [if_pos h5] at h
        have hn : n = matchIdentifier (c :: cs) := by
          split at h
          · exact (tokenizeResult_ok.mp h).2.1
          · exact (tokenizeResult_ok.mp h).2.1
        subst hn
        rcases hshape with ⟨sp, hs, he, rfl⟩ | hs | ⟨k', v, hs⟩ | hs | ⟨b, -, hb'⟩ | ⟨b, -, hb'⟩
        · obtain ⟨r, hr⟩ := hp
          obtain ⟨t, sp', h1, -⟩ := fixed_longest he hs hr.symm
          rw [hf] at h1; cases h1
        · exact ident_prefix hp hs
        · exact absurd (hdig _ _ hs) h4
        · exact absurd hs noStr
        · exact absurd hb' (noComment _ _)
        · exact absurd hb' (noComment _ _)
      · rw [if_neg h5] at h; cases h

/-! ## Errors -/

theorem tokenizeResult_total {n : Nat} (h : n ≠ 0) (ty : TokenType) :
    tokenizeResult n ty = .ok (n, ty) := by
  unfold tokenizeResult; rw [if_pos h]

theorem tokenizeResult_pos {s : List Char} {n : Nat} {ty : TokenType} (h : TokenOk s n ty) :
    n ≠ 0 := by
  have := h.1; omega

/-- At a character other than whitespace either a token is read, or an error is reported. -/
theorem tryMatch_total {pos : Position} {c : Char} {cs : List Char} (hw : ¬ White c) :
    (∃ n ty, tryMatch pos (c :: cs) = .ok (n, ty)) ∨
    (∃ code off, tryMatch pos (c :: cs) = .err ⟨code, pos.toRight off⟩ ∧
      LexicalError code off (c :: cs)) := by
  unfold tryMatch
  simp only
  rw [if_neg (by rw [isSpace_iff]; exact hw)]
  by_cases h2 : c = '/'
  · subst h2
    rw [if_pos rfl]
    cases hl : matchLineComment ('/' :: cs) with
    | some m =>
      left
      refine ⟨m.length, .line_comment, tokenizeResult_total ?_ _⟩
      obtain ⟨a1, a2, -⟩ := C17_line_comment ('/' :: cs)
      obtain ⟨len, term⟩ := m
      cases term with
      | true => obtain ⟨body, rest, he, hb, rfl⟩ := (a1 _).mp hl; simp only; omega
      | false => obtain ⟨body, he, hb, rfl⟩ := (a2 _).mp hl; simp
    | none =>
      simp only
      cases hb : matchBlockComment ('/' :: cs) with
      | some m =>
        obtain ⟨len, term⟩ := m
        cases term with
        | false =>
          right
          obtain ⟨body, he, hb, -⟩ := ((C17_block_comment ('/' :: cs)).2.1 _).mp hb
          exact ⟨_, 0, rfl, by rw [he]; exact .comment hb⟩
        | true =>
          left
          obtain ⟨body, rest, he, hb, rfl⟩ := ((C17_block_comment ('/' :: cs)).1 _).mp hb
          exact ⟨_, _, tokenizeResult_total (n := body.length + 4) (by omega) .block_comment⟩
      | none =>
        left
        exact ⟨1, .division, rfl⟩
  rw [if_neg h2]
  by_cases h3 : c = '"'
  · subst h3
    rw [if_pos rfl]
    obtain ⟨a1, a2, a3⟩ := C17_string_literal ('"' :: cs)
    cases hl : matchStringLiteral ('"' :: cs) with
    | none => exact absurd ⟨cs, rfl⟩ (a3.mp hl)
    | some m =>
      obtain ⟨len, term⟩ := m
      cases term with
      | false =>
        right
        obtain ⟨-, -, hno⟩ := (a2 _).mp hl
        refine ⟨_, 0, rfl, .string ?_⟩
        rintro body rest hb rfl
        exact hno ⟨body, rest, rfl, hb⟩
      | true =>
        left
        obtain ⟨body, rest, he, hb, rfl⟩ := (a1 _).mp hl
        exact ⟨_, _, tokenizeResult_total (n := body.length + 2) (by omega) .string_literal⟩
  rw [if_neg h3]
  by_cases h4 : isDecimalDigit c = true
  · rw [if_pos h4]
    rw [isDecimalDigit_iff] at h4
    cases hl : matchIntegerLiteral (c :: cs) with
    | no_digits =>
      exfalso
      simp only [matchIntegerLiteral, (isDecimalDigit_iff c).mpr h4, not_true_eq_false, if_false] at hl
      (repeat' split at hl) <;> cases hl
    | no_digits_following_prefix k =>
      right
      obtain ⟨hk, hno⟩ := (C16_match_complete (s := c :: cs)).2 k hl
      refine ⟨_, 2, rfl, ?_⟩
      rcases hk with ⟨rfl, t, ht⟩ | ⟨rfl, t, ht⟩
      · rw [← ht] at hno ⊢
        refine .noDigits (.inl ⟨rfl, rfl⟩) ?_
        rintro d r v rfl hd
        rcases Nat.lt_or_ge v 2 with hv | hv
        · refine absurd ?_ (hno 3 .binary v (by omega) (by simp))
          exact .binary (by simp) ⟨[v], by simp [hd], by simpa using hv, by simp [positional]⟩
        · exact hv
      · rw [← ht] at hno ⊢
        refine .noDigits (.inr ⟨rfl, rfl⟩) ?_
        rintro d r v rfl hd
        rcases Nat.lt_or_ge v 16 with hv | hv
        · refine absurd ?_ (hno 3 .hexadecimal v (by omega) (by simp))
          exact .hexadecimal (by simp) ⟨[v], by simp [hd], by simpa using hv, by simp [positional]⟩
        · exact hv
    | ok digits k =>
      simp only
      obtain ⟨a1, a2, ⟨v, a3⟩, -⟩ := C16_match_sound hl
      split
      · next d hd =>
        by_cases hi : identifierCharacters.contains d = true
        · right
          rw [if_pos hi]
          refine ⟨_, digits, rfl, ?_⟩
          obtain ⟨hlt, hget⟩ := List.getElem?_eq_some_iff.mp hd
          have hsplit : c :: cs = (c :: cs).take digits ++ d :: (c :: cs).drop (digits + 1) := by
            rw [← hget, List.getElem_cons_drop, List.take_append_drop]
          have hlen : ((c :: cs).take digits).length = digits := by
            rw [List.length_take]; omega
          have := LexicalError.suffix (rest := (c :: cs).drop (digits + 1)) a3
            ((identifierCharacters_contains d).mp hi)
          rw [hlen, ← hsplit] at this
          exact this
        · left
          rw [if_neg hi]
          exact ⟨_, _, tokenizeResult_total (by omega) _⟩
      · left
        exact ⟨_, _, tokenizeResult_total (by omega) _⟩
  rw [if_neg h4]
  rw [isDecimalDigit_iff] at h4
  cases hf : matchFixedLengthToken (c :: cs) with
  | some t =>
    left
    exact ⟨_, _, tokenizeResult_total (tokenizeResult_pos (tokenOk_fixed hf)) _⟩
  | none =>
    simp only
    by_cases h5 : matchIdentifier (c :: cs) ≠ 0
    · left
      rw [if_pos h5]
      split
      · exact ⟨_, _, tokenizeResult_total h5 _⟩
      · exact ⟨_, _, tokenizeResult_total h5 _⟩
    · right
      rw [if_neg h5]
      have h5 : matchIdentifier (c :: cs) = 0 := by omega
      have noId : ¬ IdentStart c := by
        intro hi
        have := ident_prefix (s := c :: cs) (text := [c]) ⟨cs, rfl⟩ ⟨hi, by simp⟩
        simp at this; omega
      refine ⟨_, 0, rfl, .illegal hw ?_ ⟨h2, h3, fun h => h.elim noId h4⟩⟩
      intro ty text hp hl
      rcases lexeme_shape hl with ⟨sp, hs, he, rfl⟩ | hs | ⟨k', v, hs⟩ | ⟨b, -, rfl⟩ | ⟨b, -, rfl⟩ |
        ⟨b, -, rfl⟩
      · obtain ⟨r, hr⟩ := hp
        obtain ⟨t, sp', h1, -⟩ := fixed_longest he hs hr.symm
        rw [hf] at h1; cases h1
      · have := ident_prefix hp hs
        cases text with
        | nil => exact hs
        | cons _ _ => simp at this; omega
      · obtain ⟨d, t, rfl, hd⟩ := literal_shape hs
        rw [prefix_head hp] at hd; exact h4 hd
      · exact h3 (prefix_head hp).symm
      · exact h2 (prefix_head hp).symm
      · exact h2 (prefix_head hp).symm

theorem lexicalError_le {code : TokenizeErrorCode} {off : Nat} {s : List Char}
    (h : LexicalError code off s) : off ≤ s.length := by
  cases h <;> simp

/-! ## Positions -/

theorem columnAfter_snoc (s : List Char) (c : Char) :
    columnAfter (s ++ [c]) = if c = '\n' ∨ c = '\r' then 0
      else columnAfter s + (if c = '\t' then 4 else 1) := by
  unfold columnAfter
  rw [List.reverse_append, List.reverse_cons, List.reverse_nil, List.nil_append, List.singleton_append,
    List.takeWhile_cons]
  by_cases h1 : c = '\n'
  · simp [h1]
  · by_cases h2 : c = '\r'
    · simp [h2]
    · simp only [ne_eq, h1, not_false_eq_true, h2, and_self, decide_true, if_true, List.map_cons,
        List.sum_cons, or_self, if_false]
      omega

theorem positionAfterText_snoc (s : List Char) (c : Char) :
    (positionAfterText s).advance c = positionAfterText (s ++ [c]) := by
  unfold positionAfterText Position.advance
  rw [columnAfter_snoc]
  simp only [List.count_append, List.length_append, List.length_cons, List.length_nil]
  by_cases h1 : c = '\t'
  · subst h1; rfl
  by_cases h2 : c = '\r'
  · subst h2; rfl
  by_cases h3 : c = '\n'
  · subst h3; rfl
  rw [if_neg h1, if_neg h2, if_neg h3, if_neg (by simp [h2, h3]), if_neg h1]
  rw [List.count_cons_of_ne h3]
  rfl

theorem foldl_advance (pre seg : List Char) :
    seg.foldl Position.advance (positionAfterText pre) = positionAfterText (pre ++ seg) := by
  induction seg generalizing pre with
  | nil => simp
  | cons c seg ih =>
    rw [List.foldl_cons, positionAfterText_snoc, ih]
    simp

theorem advance_start (p : Position) (c : Char) : (p.advance c).start = p.start + 1 := by
  unfold Position.advance
  repeat' split
  all_goals rfl

theorem foldl_advance_start (p : Position) (seg : List Char) :
    (seg.foldl Position.advance p).start = p.start + seg.length := by
  induction seg generalizing p with
  | nil => rfl
  | cons c seg ih => rw [List.foldl_cons, ih, advance_start, List.length_cons]; omega

/-- A text without special characters moves the position to the right. -/
theorem foldl_advance_plain (p : Position) {seg : List Char} (h : ∀ c ∈ seg, ¬ Special c) :
    seg.foldl Position.advance p = p.toRight seg.length := by
  induction seg generalizing p with
  | nil => rfl
  | cons c seg ih =>
    rw [List.foldl_cons, ih _ (fun d hd => h d (by simp [hd]))]
    have hc := h c (by simp)
    have : p.advance c = p.toRight 1 := by
      unfold Position.advance
      rw [if_neg (fun e => hc (.inl e)), if_neg (fun e => hc (.inr (.inl e))),
        if_neg (fun e => hc (.inr (.inr e)))]
      rfl
    rw [this, List.length_cons]
    simp only [Position.toRight, Position.mk.injEq, true_and]
    omega

end Bms
