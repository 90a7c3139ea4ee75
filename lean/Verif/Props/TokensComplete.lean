import Verif.Lemmas.SpelledText
import Verif.Props.Tokens
import Verif.Spec.Grammar

/-!
# Property C64: every text that is written with tokens is tokenized into them
-/

namespace Bms

open Spec

/-- **C64, partial.** A text that consists of tokens with any amount of whitespace between them is
tokenized without error, and the result is these tokens in their order. What is missing: `&&` must be
followed by a space, `!` by two, and a block comment must not be the end of the text (`C64_violated`). -/
theorem C64_tokens_partial {src : List Char} {items : List (TokenType × List Char)}
    (h : Spelled Roomy src items) :
    ∃ ts, tokenize src = some (ts, .ok ()) ∧ List.Forall₂ (TokenIs src) ts items := by
  obtain ⟨ts, h1, h2⟩ := loop_spelled (src := src) (fuel := src.length + 1) (p := ⟨0, 0, 0⟩) (out := [])
    (items := items) (Nat.zero_le _) (by simp) h
  exact ⟨ts, h1, h2⟩

/-- **C64, partial: what the grammar sees of a text.** -/
theorem C64_lexemes_partial {src : List Char} {items : List (TokenType × List Char)}
    (h : Spelled Roomy src items) :
    ∃ ts, tokenize src = some (ts, .ok ()) ∧
      lexemes src ts = (items.filter fun i => i.1 ≠ .line_comment && i.1 ≠ .block_comment).map fun i =>
        (i.1, if i.1 ∈ textual then i.2 else []) := by
  obtain ⟨ts, h1, h2⟩ := C64_tokens_partial h
  refine ⟨ts, h1, ?_⟩
  clear h h1
  induction h2 with
  | nil => rfl
  | @cons t i ts items hti _ ih =>
    have e : lexeme src t = (i.1, if i.1 ∈ textual then i.2 else []) := by
      unfold lexeme
      rw [← hti.1]
      by_cases ht : t.type ∈ textual
      · rw [if_pos ht, if_pos ht]
        rw [← hti.2 (fun e => by rw [e] at ht; revert ht; decide)
          (fun e => by rw [e] at ht; revert ht; decide)]
        rfl
      · rw [if_neg ht, if_neg ht]
    unfold lexemes at ih ⊢
    rw [List.filter_cons, List.filter_cons, ← hti.1]
    split
    · rw [List.map_cons, List.map_cons, ih, e]
    · exact ih

/-- **C64, the reading is unique.** A text can be written with one sequence of tokens only. -/
theorem C64_unique_partial {src : List Char} {items items' : List (TokenType × List Char)}
    (h : Spelled Roomy src items) (h' : Spelled Roomy src items') :
    items.map (·.1) = items'.map (·.1) ∧
    ((∀ i ∈ items, i.1 ≠ .logical_and ∧ i.1 ≠ .logical_not) → items = items') := by
  obtain ⟨ts, h1, h2⟩ := C64_tokens_partial h
  obtain ⟨ts', h3, h4⟩ := C64_tokens_partial h'
  rw [h1] at h3
  cases h3
  clear h1 h h'
  induction h2 generalizing items' with
  | nil => cases h4; exact ⟨rfl, fun _ => rfl⟩
  | @cons t i ts items hti _ ih =>
    cases h4 with
    | @cons _ i' _ items' hti' hr =>
      obtain ⟨h5, h6⟩ := ih hr
      refine ⟨by simp [h5, ← hti.1, ← hti'.1], fun hw => ?_⟩
      rw [h6 fun i hi => hw i (by simp [hi])]
      have hw := hw i (by simp)
      rw [← hti.1] at hw
      have e := (hti.2 hw.1 hw.2).symm.trans (hti'.2 hw.1 hw.2)
      rw [show i = i' from Prod.ext (hti.1.symm.trans hti'.1) e]

/-! ## Cases -/

theorem spelled_swallowed : Spelled (fun _ _ => True) "a&&bc".toList
    [(.identifier, ['a']), (.logical_and, ['&', '&']), (.identifier, ['b', 'c'])] := by
  have id : ∀ {s}, Ident s → keywordByName s = none → Lexeme .identifier s := by
    intro s h1 h2
    refine .identifier h1 fun ty sp h e => ?_
    rcases keyword_lexeme (.fixed h) (e ▸ h1) with h3 | ⟨-, h3⟩
    · rw [e, h2] at h3; cases h3
    · subst h3; cases h
  have i1 : Ident ['a'] := ⟨by decide, by decide⟩
  have i2 : Ident ['b', 'c'] := ⟨by decide, by decide⟩
  have s3 := spelled_word (follow := fun _ _ => True) (gap := []) (more := []) (id i2 (by decide)) i2
    (by decide) (by decide) trivial (.nil (by decide))
  have s2 := spelled_symbol (follow := fun _ _ => True) (gap := []) (ty := .logical_and) (sp := "&&") rfl
    ⟨_, rfl, by decide⟩ (by decide) (by decide) trivial s3
  exact spelled_word (gap := []) (id i1 (by decide)) i1 (by decide) (by decide) trivial s2

/-- **C64, violation.** `a&&bc` is written with the tokens `a`, `&&`, `bc`, but is tokenized as `a`, `&&`,
`c`; and a text that ends with a block comment makes the tokenizer throw. -/
theorem C64_violated :
    (∃ src items ts, Spelled (fun _ _ => True) src items ∧ tokenize src = some (ts, .ok ()) ∧
      ¬ List.Forall₂ (TokenIs src) ts items) ∧
    ∃ src items ts, Spelled (fun _ _ => True) src items ∧ tokenize src = some (ts, .throws) := by
  refine ⟨⟨_, _, _, spelled_swallowed, C20_operand_swallowed.1, fun h => ?_⟩, ?_⟩
  · cases h with
    | cons _ h => cases h with
      | cons _ h => cases h with
        | cons h => exact absurd (h.2 nofun nofun) (by decide)
  · refine ⟨"/**/".toList, [(.block_comment, "/**/".toList)], [⟨⟨0, 0, 0⟩, 4, .block_comment⟩], ?_, by decide⟩
    refine .cons (gap := []) (text := "/**/".toList) (more := []) (by decide)
      (.blockComment (body := []) (by decide)) ?_ (by simp) (by simp) trivial (.nil (by decide))
    intro ty s hp _
    simpa using hp.length_le

/-- The hypotheses are met by a text with keywords, names, numbers, symbols, and spaces. -/
theorem C64_sample : ∃ items, Spelled Roomy "if a&& (b<<0x1F) {".toList items ∧ items.length = 9 := by
  have id : ∀ {s}, Ident s → keywordByName s = none → Lexeme .identifier s := by
    intro s h1 h2
    refine .identifier h1 fun ty sp h e => ?_
    rcases keyword_lexeme (.fixed h) (e ▸ h1) with h3 | ⟨-, h3⟩
    · rw [e, h2] at h3; cases h3
    · subst h3; cases h
  have i1 : Ident ['a'] := ⟨by decide, by decide⟩
  have i2 : Ident ['b'] := ⟨by decide, by decide⟩
  have r : ∀ {ty more}, ty ≠ .logical_and → ty ≠ .logical_not → ty ≠ .block_comment → Roomy ty more :=
    fun h1 h2 h3 => ⟨fun h => absurd h h1, fun h => absurd h h2, fun h => absurd h h3⟩
  have l : Literal .hexadecimal ['0', 'x', '1', 'F'] 31 :=
    .hexadecimal (by simp) ⟨[1, 15], by decide, by decide, by decide⟩
  have s9 := spelled_symbol (follow := Roomy) (gap := [' ']) (more := []) (ty := .left_brace) (sp := "{") rfl
    ⟨_, rfl, by decide⟩ (by decide) (by decide) (r (by decide) (by decide) (by decide)) (.nil (by decide))
  have s8 := spelled_symbol (follow := Roomy) (gap := []) (ty := .right_parenthesis) (sp := ")") rfl
    ⟨_, rfl, by decide⟩ (by decide) (by decide) (r (by decide) (by decide) (by decide)) s9
  have s7 := spelled_literal (follow := Roomy) (gap := []) l (by decide) (by decide)
    (r (by decide) (by decide) (by decide)) s8
  have s6 := spelled_symbol (follow := Roomy) (gap := []) (ty := .shift_left) (sp := "<<") rfl
    ⟨_, rfl, by decide⟩ (by decide) (by decide) (r (by decide) (by decide) (by decide)) s7
  have s5 := spelled_word (follow := Roomy) (gap := []) (id i2 (by decide)) i2 (by decide) (by decide)
    (r (by decide) (by decide) (by decide)) s6
  have s4 := spelled_symbol (follow := Roomy) (gap := [' ']) (ty := .left_parenthesis) (sp := "(") rfl
    ⟨_, rfl, by decide⟩ (by decide) (by decide) (r (by decide) (by decide) (by decide)) s5
  have s3 := spelled_symbol (follow := Roomy) (gap := []) (ty := .logical_and) (sp := "&&") rfl
    ⟨_, rfl, by decide⟩ (by decide) (by decide)
    ⟨fun _ => ⟨' ', rfl, by decide⟩, fun h => (by cases h), fun h => (by cases h)⟩ s4
  have s2 := spelled_word (follow := Roomy) (gap := [' ']) (id i1 (by decide)) i1 (by decide) (by decide)
    (r (by decide) (by decide) (by decide)) s3
  have s1 := spelled_word (follow := Roomy) (gap := []) (ty := .keyword_if) (text := ['i', 'f'])
    (.fixed (sp := "if") rfl) ⟨by decide, by decide⟩ (by decide) (by decide)
    (r (by decide) (by decide) (by decide)) s2
  exact ⟨_, s1, rfl⟩

end Bms
