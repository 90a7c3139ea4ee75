import Verif.Lemmas.TokenizeRun
import Verif.Spec.Spelled
import Mathlib.Data.List.Forall2

/-!
# Every text that is written with tokens is read as such
-/

namespace Bms

open Spec

theorem lexeme_head {ty : TokenType} {s : List Char} (h : Lexeme ty s) :
    ∃ c t, s = c :: t ∧ ¬ White c := by
  rcases lexeme_shape h with ⟨sp, hs, he, rfl⟩ | h' | ⟨k, v, h'⟩ | ⟨b, -, rfl⟩ | ⟨b, -, rfl⟩ | ⟨b, -, rfl⟩
  · obtain ⟨c, t, h1, -, -, h2⟩ := symbol_head hs he
    exact ⟨c, t, h1, h2⟩
  · cases s with
    | nil => exact absurd h' (by simp [Ident])
    | cons c t =>
      refine ⟨c, t, rfl, fun hw => ?_⟩
      have := h'.1
      rcases hw with rfl | rfl | rfl | rfl <;> exact absurd this (by decide)
  · obtain ⟨c, t, h1, h2⟩ := literal_shape h'
    refine ⟨c, t, h1, fun hw => ?_⟩
    rcases hw with rfl | rfl | rfl | rfl <;> exact absurd h2 (by decide)
  · exact ⟨_, _, rfl, by decide⟩
  · exact ⟨_, _, rfl, by decide⟩
  · exact ⟨_, _, rfl, by decide⟩

/-- Symbols that are not the beginning of a longer symbol are recognized. -/
theorem fixed_exact {ty : TokenType} {sp : String} {more : List Char} (h : spelling ty = some sp)
    (hs : IsSymbol ty) (hl : Maximal sp.toList more) :
    matchFixedLengthToken (sp.toList ++ more) = some ty := by
  have ext : ∀ {d : Char} {ty' : TokenType} {sp' : String}, spelling ty' = some sp' →
      sp'.toList = sp.toList ++ [d] → more.head? ≠ some d := by
    intro d ty' sp' h1 h2 h3
    obtain ⟨r, rfl⟩ := head?_eq_some h3
    have := hl ty' sp'.toList ⟨r, by rw [h2]; simp⟩ (.fixed h1)
    rw [h2, List.length_append, List.length_singleton] at this
    omega
  cases ty <;> cases h <;> first
    | rfl
    | (obtain ⟨sp, h1, h2⟩ := hs
       cases h1
       exact absurd (h2 _ (List.mem_cons_self)) (by decide))
    | (have e1 := ext (d := '=') (ty' := .equals) rfl rfl
       have e2 := ext (d := '>') (ty' := .double_right_arrow) rfl rfl
       simp [matchFixedLengthToken, e1, e2]; done)
    | (have e1 := ext (d := '>') (ty' := .right_arrow) rfl rfl
       simp [matchFixedLengthToken, e1]; done)
    | (have e1 := ext (d := '<') (ty' := .shift_left) rfl rfl
       have e2 := ext (d := '=') (ty' := .less_or_equal) rfl rfl
       simp [matchFixedLengthToken, e1, e2]; done)
    | (have e1 := ext (d := '>') (ty' := .shift_right) rfl rfl
       have e2 := ext (d := '=') (ty' := .greater_or_equal) rfl rfl
       simp [matchFixedLengthToken, e1, e2]; done)
    | (have e1 := ext (d := '&') (ty' := .logical_and) rfl rfl
       simp [matchFixedLengthToken, e1]; done)
    | (have e1 := ext (d := '|') (ty' := .logical_or) rfl rfl
       simp [matchFixedLengthToken, e1]; done)
    | (have e1 := ext (d := '=') (ty' := .not_equals) rfl rfl
       simp [matchFixedLengthToken, e1]; done)

/-- The length that the tokenizer gives to a token. -/
def readLength (ty : TokenType) (text : List Char) : Nat := if WrongLength ty then 3 else text.length

theorem tryMatch_symbol {pos : Position} {ty : TokenType} {sp : String} {more : List Char}
    (h : spelling ty = some sp) (hs : IsSymbol ty) (hl : Maximal sp.toList more)
    (hd : ty = .division → more.head? ≠ some '*') :
    tryMatch pos (sp.toList ++ more) = .ok (readLength ty sp.toList, ty) := by
  obtain ⟨c, t, h1, h2, h3, h4⟩ := symbol_head hs h
  have hf := fixed_exact h hs hl
  have hlen : ty.length = readLength ty sp.toList ∧ ty.length ≠ 0 := by
    revert h; cases ty <;> intro h <;> cases h <;> decide
  rw [h1, List.cons_append] at hf ⊢
  rw [h1] at hlen
  unfold tryMatch
  simp only
  have hsp : isSpace c ≠ true := fun e => h4 ((isSpace_iff c).mp e)
  rw [if_neg hsp]
  by_cases hc : c = '/'
  · subst hc
    have hty : ty = .division ∧ t = [] := by
      revert h1; cases ty <;> cases h <;> intro h1 <;> first | exact ⟨rfl, by simpa using h1.symm⟩ | (exfalso; revert h1; simp)
    obtain ⟨rfl, rfl⟩ := hty
    have hd := hd rfl
    rw [if_pos rfl]
    have l1 : matchLineComment ('/' :: ([] ++ more)) = none := by
      cases hm : matchLineComment ('/' :: ([] ++ more)) with
      | none => rfl
      | some m =>
        exfalso
        have : more.head? = some '/' := by
          unfold matchLineComment at hm
          split at hm
          · cases hm
          · rename_i hp
            have hp := Decidable.not_not.mp hp
            cases more with
            | nil => simp [List.isPrefixOf] at hp
            | cons d r => simp [List.isPrefixOf] at hp; simp [← hp]
        obtain ⟨r, rfl⟩ := head?_eq_some this
        have := hl .line_comment ['/', '/'] ⟨r, by rw [h1]; rfl⟩ (.lineComment (body := []) (by simp))
        rw [h1] at this
        simp at this
    have l2 : matchBlockComment ('/' :: ([] ++ more)) = none := by
      unfold matchBlockComment
      rw [if_pos]
      intro hp
      cases more with
      | nil => simp [List.isPrefixOf] at hp
      | cons d r => simp [List.isPrefixOf] at hp; exact hd (by simp [← hp])
    rw [l1]
    simp only
    rw [l2]
    simp only
    rw [hf]
    simp only
    rw [tokenizeResult_total hlen.2, hlen.1]
  · rw [if_neg hc, if_neg h2]
    have hnd : isDecimalDigit c ≠ true := fun e => h3 (.inr ((isDecimalDigit_iff c).mp e))
    rw [if_neg hnd, hf]
    simp only
    rw [tokenizeResult_total hlen.2, hlen.1]

theorem keyword_lexeme {ty : TokenType} {s : List Char} (h : Lexeme ty s) (hi : Ident s) :
    keywordByName s = some ty ∨ keywordByName s = none ∧ ty = .identifier := by
  induction h with
  | @fixed ty sp h =>
    left
    revert hi
    cases ty <;> cases h <;> first
      | exact fun _ => by decide
      | exact fun h2 => absurd h2.1 (by decide)
  | @identifier s _ hno =>
    right
    refine ⟨?_, rfl⟩
    cases hk : keywordByName s with
    | none => rfl
    | some ty' =>
      obtain ⟨sp', e1, e2⟩ := keyword_some hk
      exact absurd e2 (hno ty' sp' e1)
  | binary h =>
    obtain ⟨c, t, h1, h2⟩ := literal_shape h
    subst h1
    exact absurd h2 (identStart_not_digit hi.1)
  | octal h =>
    obtain ⟨c, t, h1, h2⟩ := literal_shape h
    subst h1
    exact absurd h2 (identStart_not_digit hi.1)
  | decimal h =>
    obtain ⟨c, t, h1, h2⟩ := literal_shape h
    subst h1
    exact absurd h2 (identStart_not_digit hi.1)
  | hexadecimal h =>
    obtain ⟨c, t, h1, h2⟩ := literal_shape h
    subst h1
    exact absurd h2 (identStart_not_digit hi.1)
  | string => exact absurd hi.1 (by decide)
  | lineComment => exact absurd hi.1 (by decide)
  | blockComment => exact absurd hi.1 (by decide)

theorem take_append_length (a b : List Char) : (a ++ b).take a.length = a := by simp

theorem tryMatch_ident {pos : Position} {ty : TokenType} {text more : List Char} (hi : Ident text)
    (h : Lexeme ty text) (hl : Maximal text more) :
    tryMatch pos (text ++ more) = .ok (text.length, ty) := by
  have hp : text <+: text ++ more := ⟨more, rfl⟩
  have h1 := ident_prefix hp hi
  obtain ⟨c, t, rfl⟩ : ∃ c t, text = c :: t := by
    cases text with
    | nil => exact absurd hi (by simp [Ident])
    | cons c t => exact ⟨c, t, rfl⟩
  have hc := hi.1
  have hn : matchIdentifier (c :: t ++ more) = (c :: t).length := by
    rcases C18_match_identifier (c :: t ++ more) with ⟨h0, -⟩ | ⟨_, hle, hid, _⟩
    · rw [h0] at h1; simp at h1
    · have : ∃ ty', Lexeme ty' ((c :: t ++ more).take (matchIdentifier (c :: t ++ more))) := by
        cases hk : keywordByName ((c :: t ++ more).take (matchIdentifier (c :: t ++ more))) with
        | none => exact ⟨_, .identifier hid (keyword_none hid hk)⟩
        | some ty' =>
          obtain ⟨sp, e1, e2⟩ := keyword_some hk
          exact ⟨ty', by rw [← e2]; exact .fixed e1⟩
      obtain ⟨ty', hl'⟩ := this
      have := hl ty' _ (List.take_prefix _ _) hl'
      rw [List.length_take] at this
      omega
  have hsym : matchFixedLengthToken (c :: t ++ more) = none := by
    cases hf : matchFixedLengthToken (c :: t ++ more) with
    | none => rfl
    | some ty' => exact absurd (.inl hc) (fixed_symbol hf c rfl)
  have hsp : isSpace c ≠ true := by
    intro e
    rcases (isSpace_iff c).mp e with rfl | rfl | rfl | rfl <;> exact absurd hc (by decide)
  have hnd : isDecimalDigit c ≠ true := fun e => identStart_not_digit hc ((isDecimalDigit_iff c).mp e)
  rw [List.cons_append] at hn hsym ⊢
  unfold tryMatch
  simp only
  rw [if_neg hsp, if_neg (by rintro rfl; exact absurd hc (by decide)),
    if_neg (by rintro rfl; exact absurd hc (by decide)), if_neg hnd, hsym]
  simp only
  rw [hn, if_pos (by simp), ← List.cons_append, take_append_length]
  rcases keyword_lexeme h hi with hk | ⟨hk, rfl⟩
  · rw [hk]; exact tokenizeResult_total (by simp) _
  · rw [hk]; exact tokenizeResult_total (by simp) _

theorem literal_kind {k k' : LiteralType} {s : List Char} {v v' : Nat} (h : Literal k s v)
    (h' : Literal k' s v') : k = k' := by
  cases h with
  | binary a1 a2 => cases h' with
    | binary => rfl
    | octal _ hd => exact absurd rfl (octal_second hd).1
    | decimal h0 _ => exact absurd rfl h0
  | hexadecimal a1 a2 => cases h' with
    | hexadecimal => rfl
    | octal _ hd => exact absurd rfl (octal_second hd).2
    | decimal h0 _ => exact absurd rfl h0
  | octal a1 a2 => cases h' with
    | octal => rfl
    | binary => exact absurd rfl (octal_second a2).1
    | hexadecimal => exact absurd rfl (octal_second a2).2
    | zero => exact absurd rfl a1
    | decimal h0 _ => exact absurd rfl h0
  | zero => cases h' with
    | octal h _ => exact absurd rfl h
    | zero => rfl
    | decimal => rfl
  | decimal h0 hd => cases h' with
    | zero => rfl
    | decimal => rfl
    | _ => exact absurd rfl h0

theorem tryMatch_literal {pos : Position} {k : LiteralType} {v : Nat} {text more : List Char}
    (h : Literal k text v) (hl : Maximal text more) (hm : ∀ c ∈ more.head?, ¬ IdentPart c) :
    tryMatch pos (text ++ more) = .ok (text.length, tokenTypeOf k) := by
  obtain ⟨c, t, rfl, hc⟩ := literal_shape h
  have e : (c :: t ++ more).take (c :: t).length = c :: t := take_append_length _ _
  have hlit : Literal k ((c :: t ++ more).take (c :: t).length) v := by rw [e]; exact h
  have key : matchIntegerLiteral (c :: t ++ more) = .ok (c :: t).length k := by
    cases hmi : matchIntegerLiteral (c :: t ++ more) with
    | no_digits => exact absurd hlit (C16_match_complete.1 hmi _ _ _)
    | no_digits_following_prefix k' =>
      obtain ⟨h1, h2⟩ := C16_match_complete.2 k' hmi
      by_cases ht : 2 ≤ (c :: t).length
      · exact absurd hlit (h2 _ _ _ ht (by simp))
      · have : t = [] := by
          cases t with
          | nil => rfl
          | cons => simp at ht
        subst this
        exfalso
        rcases h1 with ⟨-, r, hr⟩ | ⟨-, r, hr⟩
        · cases more with
          | nil => simp at hr
          | cons d m => simp at hr; exact hm d (by simp) (by rw [← hr.2.1]; decide)
        · cases more with
          | nil => simp at hr
          | cons d m => simp at hr; exact hm d (by simp) (by rw [← hr.2.1]; decide)
    | ok n k' =>
      obtain ⟨h0, h1, ⟨v', h2⟩, h3⟩ := C16_match_sound hmi
      have a1 : (c :: t).length ≤ n := by
        by_cases hlt : n < (c :: t).length
        · exact absurd hlit (h3 _ _ _ hlt (by simp))
        · omega
      have a2 := hl _ _ (List.take_prefix _ _) (literal_lexeme h2)
      rw [List.length_take, Nat.min_eq_left h1] at a2
      have : n = (c :: t).length := by omega
      subst this
      rw [e] at h2
      rw [literal_kind h h2]
  have hsp : isSpace c ≠ true := by
    intro e
    rcases (isSpace_iff c).mp e with rfl | rfl | rfl | rfl <;> exact absurd hc (by decide)
  rw [List.cons_append] at key ⊢
  unfold tryMatch
  simp only
  rw [if_neg hsp, if_neg (by rintro rfl; exact absurd hc (by decide)),
    if_neg (by rintro rfl; exact absurd hc (by decide)), if_pos ((isDecimalDigit_iff c).mpr hc), key]
  simp only
  cases more with
  | nil =>
    have : (c :: (t ++ []))[(c :: t).length]? = none := by simp
    rw [this]
    exact tokenizeResult_total (by simp) _
  | cons d m =>
    have : (c :: (t ++ d :: m))[(c :: t).length]? = some d := by simp
    rw [this]
    simp only
    rw [if_neg (fun e => hm d (by simp) ((identifierCharacters_contains d).mp e))]
    exact tokenizeResult_total (by simp) _

/-- What begins like a string or like a comment is one. -/
theorem lexeme_quoted {ty : TokenType} {s : List Char} (h : Lexeme ty s) :
    (s.head? = some '"' → ty = .string_literal) ∧
    (s.take 2 = ['/', '/'] → ty = .line_comment) ∧ (s.take 2 = ['/', '*'] → ty = .block_comment) := by
  have lit : ∀ {k v} {s : List Char}, Literal k s v → s.head? ≠ some '"' ∧ s.head? ≠ some '/' := by
    intro k v s h
    obtain ⟨c, t, h1, h2⟩ := literal_shape h
    subst h1
    constructor <;> (intro e; cases e; exact absurd h2 (by decide))
  have two : ∀ {s : List Char} {a b : Char}, s.take 2 = [a, b] → s.head? = some a := by
    intro s a b h
    match s with
    | [] => simp at h
    | c :: t => simp at h; simp [h.1]
  induction h with
  | @fixed ty sp h => cases ty <;> cases h <;> decide
  | @identifier s h _ =>
    match s, h with
    | c :: t, h =>
      have := h.1
      refine ⟨fun e => ?_, fun e => ?_, fun e => ?_⟩
      · cases e; exact absurd this (by decide)
      · have := two e; cases this; exact absurd h.1 (by decide)
      · have := two e; cases this; exact absurd h.1 (by decide)
  | binary h | octal h | decimal h | hexadecimal h =>
    exact ⟨fun e => absurd e (lit h).1, fun e => absurd (two e) (lit h).2,
      fun e => absurd (two e) (lit h).2⟩
  | string => exact ⟨fun _ => rfl, fun e => by simp at e, fun e => by simp at e⟩
  | lineComment => exact ⟨fun e => by simp at e, fun _ => rfl, fun e => by simp at e⟩
  | blockComment => exact ⟨fun e => by simp at e, fun e => by simp at e, fun _ => rfl⟩

theorem quoted_shape {ty : TokenType} {s : List Char} (h : Lexeme ty s)
    (ht : ty = .string_literal ∨ ty = .line_comment ∨ ty = .block_comment) :
    (ty = .string_literal ∧ ∃ body, StringBody body ∧ s = '"' :: (body ++ ['"'])) ∨
    (ty = .line_comment ∧ ∃ body, '\n' ∉ body ∧ s = '/' :: '/' :: body) ∨
    (ty = .block_comment ∧ ∃ body, s = '/' :: '*' :: (body ++ ['*', '/'])) := by
  cases h with
  | @fixed _ sp h => rcases ht with rfl | rfl | rfl <;> cases h
  | string h => exact .inl ⟨rfl, _, h, rfl⟩
  | lineComment h => exact .inr (.inl ⟨rfl, _, h, rfl⟩)
  | blockComment h => exact .inr (.inr ⟨rfl, _, rfl⟩)
  | _ => rcases ht with h | h | h <;> cases h

/-- Strings and comments. -/
theorem tryMatch_quoted {pos : Position} {ty : TokenType} {text more : List Char} (h : Lexeme ty text)
    (ht : ty = .string_literal ∨ ty = .line_comment ∨ ty = .block_comment) (hl : Maximal text more) :
    tryMatch pos (text ++ more) = .ok (text.length, ty) := by
  obtain ⟨c, t, rfl, hw⟩ := lexeme_head h
  have hp : c :: t <+: c :: t ++ more := ⟨more, rfl⟩
  have hq := quoted_shape h ht
  have hc : c = '"' ∨ c = '/' := by
    rcases hq with ⟨-, _, -, e⟩ | ⟨-, _, -, e⟩ | ⟨-, _, e⟩ <;> cases e <;> simp
  rcases tryMatch_total (pos := pos) (cs := t ++ more) hw with ⟨n, ty', h1⟩ | ⟨code, off, h1, h2⟩
  · have ok := tryMatch_ok h1
    have lo := tryMatch_longest h1 ty _ hp h
    have hwl : ¬ WrongLength ty' := by
      intro hwl
      obtain ⟨-, sp, e1, r, e2⟩ := ok.2.2 hwl
      rcases hwl with rfl | rfl <;> cases e1 <;> rcases hc with rfl | rfl <;> simp at e2
    obtain ⟨a1, a2⟩ := ok.2.1 hwl
    have a3 := hl _ _ (List.take_prefix _ _) a2
    rw [← List.cons_append] at a1
    rw [List.length_take, Nat.min_eq_left a1] at a3
    have : n = (c :: t).length := by omega
    subst this
    have e : (c :: (t ++ more)).take (c :: t).length = c :: t := take_append_length (c :: t) more
    rw [e] at a2
    obtain ⟨b1, b2, b3⟩ := lexeme_quoted a2
    have : ty' = ty := by
      rcases hq with ⟨rfl, _, -, e⟩ | ⟨rfl, _, -, e⟩ | ⟨rfl, _, e⟩ <;> cases e
      · exact b1 rfl
      · exact b2 rfl
      · exact b3 rfl
    subst this
    exact h1
  · exfalso
    rw [← List.cons_append] at h2
    generalize hs : c :: t ++ more = s at h2
    cases h2 with
    | illegal _ h3 _ => exact h3 ty (c :: t) (hs ▸ hp) h
    | @comment body h3 =>
      rcases hq with ⟨rfl, _, -, e⟩ | ⟨rfl, _, -, e⟩ | ⟨rfl, b, e⟩ <;> cases e
      · simp at hs
      · simp at hs
      · simp at hs
        exact h3 ⟨b, more, by simp [← hs]⟩
    | @string t' h3 =>
      rcases hq with ⟨rfl, b, hb, e⟩ | ⟨rfl, _, -, e⟩ | ⟨rfl, b, e⟩ <;> cases e
      · simp at hs
        exact h3 b more hb (by simp [← hs])
      · simp at hs
      · simp at hs
    | noDigits => rcases hc with rfl | rfl <;> simp at hs
    | @suffix k lit v d rest h3 h4 =>
      obtain ⟨c', t', e1, e2⟩ := literal_shape h3
      subst e1
      simp at hs
      obtain ⟨rfl, -⟩ := hs
      rcases hc with rfl | rfl <;> exact absurd e2 (by decide)

/-- **One token.** -/
theorem tryMatch_spelled {pos : Position} {ty : TokenType} {text more : List Char}
    (h : Lexeme ty text) (hl : Maximal text more)
    (hm : ∀ k v, Literal k text v → ∀ c ∈ more.head?, ¬ IdentPart c)
    (hd : ty = .division → more.head? ≠ some '*') :
    tryMatch pos (text ++ more) = .ok (readLength ty text, ty) := by
  have hn : ∀ {ty : TokenType} {text : List Char}, ¬ WrongLength ty → readLength ty text = text.length :=
    fun h => if_neg h
  have hh := h
  cases h with
  | @fixed _ sp h =>
    rcases symbol_or_ident h with h' | h'
    · exact tryMatch_symbol h h' hl hd
    · rw [tryMatch_ident h' hh hl, hn]
      rintro (rfl | rfl) <;> cases h <;> exact absurd h'.1 (by decide)
  | identifier h' h2 => rw [tryMatch_ident h' hh hl, hn (by rintro (h | h) <;> cases h)]
  | binary h' | octal h' | decimal h' | hexadecimal h' =>
    rw [tryMatch_literal h' hl (hm _ _ h'), hn (by rintro (h | h) <;> cases h)]; rfl
  | string h' => rw [tryMatch_quoted hh (by simp) hl, hn (by rintro (h | h) <;> cases h)]
  | lineComment h' => rw [tryMatch_quoted hh (by simp) hl, hn (by rintro (h | h) <;> cases h)]
  | blockComment h' => rw [tryMatch_quoted hh (by simp) hl, hn (by rintro (h | h) <;> cases h)]


theorem white_split {gap gap' s s' : List Char} {c c' : Char} (h1 : ∀ c ∈ gap, White c)
    (h2 : ∀ c ∈ gap', White c) (h3 : ¬ White c) (h4 : ¬ White c')
    (he : gap ++ c :: s = gap' ++ c' :: s') : gap = gap' ∧ c = c' ∧ s = s' := by
  induction gap generalizing gap' with
  | nil =>
    cases gap' with
    | nil => cases he; exact ⟨rfl, rfl, rfl⟩
    | cons d g => cases he; exact absurd (h2 _ (by simp)) h3
  | cons d g ih =>
    cases gap' with
    | nil => cases he; exact absurd (h1 _ (by simp)) h4
    | cons d' g' =>
      simp only [List.cons_append, List.cons.injEq] at he
      obtain ⟨rfl, he⟩ := he
      obtain ⟨rfl, h⟩ := ih (fun c hc => h1 c (by simp [hc])) (fun c hc => h2 c (by simp [hc])) he
      exact ⟨rfl, h⟩

/-- The next token is looked for behind the whitespace. -/
theorem nextToken_at {src gap cs : List Char} {p : Position} {c : Char}
    (hs : src.drop p.start = gap ++ c :: cs) (hg : ∀ d ∈ gap, White d) (hc : ¬ White c) :
    nextToken src p = (tryMatch (gap.foldl Position.advance p) (c :: cs)).map fun r =>
      some ⟨gap.foldl Position.advance p, r.1, r.2⟩ := by
  have hlen := congrArg List.length hs
  simp only [List.length_drop, List.length_append, List.length_cons] at hlen
  have hf : findFirstNotOf [' ', '\r', '\t', '\n'] (src.drop p.start) = some gap.length := by
    refine findFirstNotOf_some.mpr ⟨gap, c, cs, hs, fun d hd => (white_contains d).mpr (hg d hd), ?_, rfl⟩
    rw [← Bool.not_eq_true, white_contains]; exact hc
  have hskip : skipWhitespace src p = .ok (some (gap.foldl Position.advance p)) := by
    unfold skipWhitespace
    rw [hf]
    cases gap with
    | nil => rfl
    | cons g gap =>
      show (advancePositionBy src p (gap.length + 1)).map some = _
      unfold advancePositionBy
      rw [List.length_cons] at hlen
      rw [if_pos (by omega), hs]
      simp
  unfold nextToken
  rw [if_pos (by omega), hskip]
  show (tryMatch _ (src.drop (gap.foldl Position.advance p).start)).map _ = _
  rw [foldl_advance_start, ← List.drop_drop, hs, List.drop_left]

theorem spelled_white {follow : TokenType → List Char → Prop} {s : List Char} {c : Char}
    {items : List (TokenType × List Char)} (h : Spelled follow (c :: s) items) (hc : White c) :
    Spelled follow s items := by
  generalize hs : c :: s = s' at h
  cases h with
  | nil hg => subst hs; exact .nil fun d hd => hg d (by simp [hd])
  | @cons gap text more ty items hg hl h1 h2 h3 h4 h5 =>
    cases gap with
    | nil =>
      obtain ⟨d, t, rfl, hd⟩ := lexeme_head hl
      cases hs
      exact absurd hc hd
    | cons d g =>
      cases hs
      exact .cons (fun d hd => hg d (by simp [hd])) hl h1 h2 h3 h4 h5

theorem loop_spelled {src : List Char} {fuel : Nat} {p : Position} {out : List Token}
    {items : List (TokenType × List Char)} (hle : p.start ≤ src.length)
    (hf : src.length - p.start < fuel) (h : Spelled Roomy (src.drop p.start) items) :
    ∃ ts, tokenizeLoop src fuel p out = some (out ++ ts, .ok ()) ∧ List.Forall₂ (TokenIs src) ts items := by
  induction fuel generalizing p out items with
  | zero => omega
  | succ fuel ih =>
    generalize hs : src.drop p.start = s at h
    unfold tokenizeLoop
    cases h with
    | nil hg =>
      refine ⟨[], ?_, .nil⟩
      by_cases h1 : p.start = src.length
      · rw [if_pos h1, List.append_nil]
      · rw [if_neg h1]
        rcases nextToken_spec (src := src) (p := p) (by omega) with ⟨h2, -⟩ | ⟨q, gap, c, cs, hq, -⟩
        · rw [h2, List.append_nil]
        · exfalso
          have := hq.split
          rw [hs] at this
          subst this
          exact hq.notWhite (hg c (by simp))
    | @cons gap text more ty items hg hl h1 h2 h3 h4 h5 =>
      obtain ⟨c, t, rfl, hc⟩ := lexeme_head hl
      have hlen := congrArg List.length hs
      simp only [List.length_drop, List.length_append, List.length_cons] at hlen
      rw [if_neg (by omega)]
      have hs' : src.drop p.start = gap ++ c :: (t ++ more) := by rw [hs]; simp
      rw [nextToken_at hs' hg hc, ← List.cons_append, tryMatch_spelled hl h1 h2 h3]
      simp only [Outcome.map]
      generalize hq : gap.foldl Position.advance p = q
      have hqs : q.start = p.start + gap.length := by rw [← hq]; exact foldl_advance_start p gap
      have hrest : src.drop q.start = c :: t ++ more := by
        rw [hqs, ← List.drop_drop, hs']; simp
      have key : ∃ next, positionAfter src q (readLength ty (c :: t)) ty = .ok next := by
        rcases positionAfter_cases src q (readLength ty (c :: t)) ty with ⟨_, h⟩ | ⟨_, _, h⟩ | ⟨rfl, hn, h⟩
        · exact ⟨_, h⟩
        · exact ⟨_, h⟩
        · exfalso
          have := h4.2.2 rfl
          have : more.length ≠ 0 := by simpa using this
          have e : readLength .block_comment (c :: t) = (c :: t).length := if_neg (by rintro (h | h) <;> cases h)
          rw [e, List.length_cons] at hn
          omega
      obtain ⟨next, hnext⟩ := key
      rw [hnext]
      have hns := positionAfter_start hnext
      have hdrop : src.drop next.start = (c :: t ++ more).drop (readLength ty (c :: t)) := by
        rw [hns, ← List.drop_drop, hrest]
      have hrl : 0 < readLength ty (c :: t) := by unfold readLength; split <;> simp
      have main : readLength ty (c :: t) ≤ (c :: t ++ more).length ∧
          Spelled Roomy ((c :: t ++ more).drop (readLength ty (c :: t))) items := by
        by_cases hw : WrongLength ty
        · have e : readLength ty (c :: t) = 3 := if_pos hw
          rw [e]
          rcases hw with rfl | rfl
          · generalize hct : c :: t = text at hl
            cases hl with
            | fixed h =>
              cases h
              obtain ⟨rfl, rfl⟩ : c = '&' ∧ t = ['&'] := by simpa using hct
              obtain ⟨d, hd, hw⟩ := h4.1 rfl
              obtain ⟨r, rfl⟩ := head?_eq_some hd
              exact ⟨by simp, spelled_white h5 hw⟩
          · generalize hct : c :: t = text at hl
            cases hl with
            | fixed h =>
              cases h
              obtain ⟨rfl, rfl⟩ : c = '!' ∧ t = [] := by simpa using hct
              obtain ⟨d, d', r, rfl, hw, hw'⟩ := h4.2.1 rfl
              exact ⟨by simp, spelled_white (spelled_white h5 hw) hw'⟩
        · have e : readLength ty (c :: t) = (c :: t).length := if_neg hw
          rw [e]
          exact ⟨by simp, by rw [List.drop_left]; exact h5⟩
      have hm := main.1
      simp only [List.length_append, List.length_cons] at hm
      obtain ⟨ts, h6, h7⟩ := ih (p := next) (out := out ++ [⟨q, readLength ty (c :: t), ty⟩]) (items := items)
        (by omega) (by omega) (by rw [hdrop]; exact main.2)
      refine ⟨⟨q, readLength ty (c :: t), ty⟩ :: ts, by simp only [h6]; simp, .cons ⟨rfl, fun hw hw' => ?_⟩ h7⟩
      have e : readLength ty (c :: t) = (c :: t).length := if_neg (by rintro (h | h); exacts [hw h, hw' h])
      show (src.drop q.start).take (readLength ty (c :: t)) = c :: t
      rw [hrest, e, take_append_length]

end Bms
