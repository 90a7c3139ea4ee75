import Verif.Lemmas.TokenizeComplete

/-!
# Texts that are written with tokens, token by token
-/

namespace Bms

open Spec

/-- Characters that a longer symbol or a comment continues with. -/
def Joins (c : Char) : Prop := c ∈ ['=', '>', '<', '&', '|', '/', '*']

instance (c : Char) : Decidable (Joins c) := inferInstanceAs (Decidable (_ ∈ _))

theorem symbol_tail {ty : TokenType} {sp : String} (h : spelling ty = some sp) (hs : IsSymbol ty) :
    ∀ c ∈ sp.toList.tail, Joins c := by
  cases ty <;> cases h <;> first
    | decide
    | (obtain ⟨sp, h1, h2⟩ := hs
       cases h1
       exact absurd (h2 _ (List.mem_cons_self)) (by decide))

theorem symbol_slash {ty : TokenType} {sp : String} (h : spelling ty = some sp) :
    sp.toList.head? = some '/' → sp.toList = ['/'] := by
  cases ty <;> cases h <;> decide

theorem lexeme_more {s text more : List Char} {c : Char} (hp : s <+: c :: text ++ more)
    (hlt : (c :: text).length < s.length) :
    ∃ d r, more.head? = some d ∧ s = c :: text ++ d :: r := by
  obtain ⟨r, hr⟩ := hp
  rw [List.append_eq_append_iff] at hr
  rcases hr with ⟨a, h1, h2⟩ | ⟨a, h1, h2⟩
  · have := congrArg List.length h1
    rw [List.length_append] at this
    omega
  · cases a with
    | nil => rw [h1] at hlt; simp at hlt
    | cons d r' => exact ⟨d, r', by rw [h2]; rfl, h1⟩

theorem maximal_symbol {ty : TokenType} {sp : String} {more : List Char} (h : spelling ty = some sp)
    (hs : IsSymbol ty) (hm : ∀ c ∈ more.head?, ¬ Joins c) : Maximal sp.toList more := by
  intro ty' s hp hl
  obtain ⟨c, t, h1, h2, h3, h4⟩ := symbol_head hs h
  apply Classical.byContradiction
  intro hlt
  rw [h1] at hp hlt
  obtain ⟨d, r, hd, rfl⟩ := lexeme_more hp (by omega)
  have hm := hm d hd
  rcases lexeme_shape hl with ⟨sp', hs', he, e⟩ | h' | ⟨k, v, h'⟩ | ⟨b, -, e⟩ | ⟨b, -, e⟩ | ⟨b, -, e⟩
  · exact hm (symbol_tail he hs' d (by rw [← e]; simp))
  · exact h3 (.inl h'.1)
  · obtain ⟨c', t', e, h5⟩ := literal_shape h'
    cases e
    exact h3 (.inr h5)
  · exact h2 (List.cons.inj e).1
  all_goals
    have e1 := List.cons.inj e
    obtain ⟨rfl, e2⟩ := e1
    have := symbol_slash h (by rw [h1]; rfl)
    rw [h1] at this
    obtain ⟨-, rfl⟩ := List.cons.inj this
    have e3 := (List.cons.inj e2).1
    subst e3
    exact hm (by decide)

theorem maximal_ident {text more : List Char} (h : Ident text)
    (hm : ∀ c ∈ more.head?, ¬ IdentPart c) : Maximal text more := by
  match text, h with
  | c :: t, h =>
  intro ty' s hp hl
  apply Classical.byContradiction
  intro hlt
  obtain ⟨d, r, hd, rfl⟩ := lexeme_more hp (by omega)
  have hm := hm d hd
  have h0 := h.1
  rcases lexeme_shape hl with ⟨sp', hs', he, e⟩ | h' | ⟨k, v, h'⟩ | ⟨b, -, e⟩ | ⟨b, -, e⟩ | ⟨b, -, e⟩
  · obtain ⟨c', t', h1, h2, h3, h4⟩ := symbol_head hs' he
    rw [h1] at e
    cases e
    exact h3 (.inl h0)
  · exact hm (h'.2 d (by simp))
  · obtain ⟨c', t', e, h5⟩ := literal_shape h'
    cases e
    exact identStart_not_digit h0 h5
  all_goals obtain ⟨rfl, -⟩ := List.cons.inj e; exact absurd h0 (by decide)

theorem literal_part {k : LiteralType} {v : Nat} {s : List Char} (h : Literal k s v) :
    ∀ c ∈ s, IdentPart c := by
  have dig : ∀ {b : Nat} {t : List Char} {v : Nat}, LitBase b → Digits b t v → ∀ c ∈ t, IdentPart c := by
    intro b t v hb hd c hc
    obtain ⟨d, h1, -⟩ := (digitSet_contains hb c).mp (all_of_digits hb hd c hc)
    unfold digitOf at h1
    have e : 'f'.toNat ≤ 'z'.toNat ∧ 'F'.toNat ≤ 'Z'.toNat := by decide
    split at h1
    · rename_i h; exact .inr h
    split at h1
    · rename_i h; exact .inl (.inr (.inl ⟨h.1, Nat.le_trans h.2 e.1⟩))
    split at h1
    · rename_i h; exact .inl (.inr (.inr ⟨h.1, Nat.le_trans h.2 e.2⟩))
    · cases h1
  have z : IdentPart '0' := by decide
  have b : IdentPart 'b' := by decide
  have x : IdentPart 'x' := by decide
  cases h with
  | binary _ hd => simp only [List.mem_cons]; rintro c (rfl | rfl | h); exacts [z, b, dig (.inl rfl) hd c h]
  | hexadecimal _ hd =>
    simp only [List.mem_cons]; rintro c (rfl | rfl | h); exacts [z, x, dig (.inr (.inr (.inr rfl))) hd c h]
  | octal _ hd => simp only [List.mem_cons]; rintro c (rfl | h); exacts [z, dig (.inr (.inl rfl)) hd c h]
  | zero => simp only [List.mem_cons]; rintro c (rfl | h); exacts [z, by cases h]
  | decimal _ hd => exact dig (.inr (.inr (.inl rfl))) hd

theorem maximal_literal {k : LiteralType} {v : Nat} {text more : List Char} (h : Literal k text v)
    (hm : ∀ c ∈ more.head?, ¬ IdentPart c) : Maximal text more := by
  obtain ⟨c, t, rfl, h0⟩ := literal_shape h
  intro ty' s hp hl
  apply Classical.byContradiction
  intro hlt
  obtain ⟨d, r, hd, rfl⟩ := lexeme_more hp (by omega)
  have hm := hm d hd
  rcases lexeme_shape hl with ⟨sp', hs', he, e⟩ | h' | ⟨k, v, h'⟩ | ⟨b, -, e⟩ | ⟨b, -, e⟩ | ⟨b, -, e⟩
  · obtain ⟨c', t', h1, h2, h3, h4⟩ := symbol_head hs' he
    rw [h1] at e
    cases e
    exact h3 (.inr h0)
  · exact identStart_not_digit h'.1 h0
  · exact hm (literal_part h' d (by simp))
  all_goals obtain ⟨rfl, -⟩ := List.cons.inj e; exact absurd h0 (by decide)

/-! ## Tokens at the beginning of a text -/

variable {follow : TokenType → List Char → Prop} {more gap : List Char}
  {items : List (TokenType × List Char)}

theorem spelled_symbol {ty : TokenType} {sp : String} (h : spelling ty = some sp) (hs : IsSymbol ty)
    (hg : ∀ c ∈ gap, White c) (hm : ∀ c ∈ more.head?, ¬ Joins c) (hf : follow ty more)
    (hmore : Spelled follow more items) :
    Spelled follow (gap ++ sp.toList ++ more) ((ty, sp.toList) :: items) := by
  refine .cons hg (.fixed h) (maximal_symbol h hs hm) ?_ ?_ hf hmore
  · intro k v hl
    obtain ⟨c, t, h1, -, h3, -⟩ := symbol_head hs h
    obtain ⟨c', t', h4, h5⟩ := literal_shape hl
    rw [h1] at h4
    cases h4
    exact absurd (.inr h5) h3
  · rintro - h
    exact hm _ h (by decide)

theorem spelled_word {ty : TokenType} {text : List Char} (h : Lexeme ty text) (hi : Ident text)
    (hg : ∀ c ∈ gap, White c) (hm : ∀ c ∈ more.head?, ¬ IdentPart c) (hf : follow ty more)
    (hmore : Spelled follow more items) :
    Spelled follow (gap ++ text ++ more) ((ty, text) :: items) := by
  refine .cons hg h (maximal_ident hi hm) (fun _ _ _ => hm) ?_ hf hmore
  rintro rfl
  rcases keyword_lexeme h hi with e | ⟨-, e⟩
  · generalize hk : TokenType.division = ty at h
    cases h with
    | fixed h => subst hk; cases h; exact absurd hi.1 (by decide)
    | _ => cases hk
  · cases e

theorem spelled_literal {k : LiteralType} {v : Nat} {text : List Char} (h : Literal k text v)
    (hg : ∀ c ∈ gap, White c) (hm : ∀ c ∈ more.head?, ¬ IdentPart c) (hf : follow (tokenTypeOf k) more)
    (hmore : Spelled follow more items) :
    Spelled follow (gap ++ text ++ more) ((tokenTypeOf k, text) :: items) := by
  refine .cons hg (literal_lexeme h) (maximal_literal h hm) (fun _ _ _ => hm) ?_ hf hmore
  intro e
  cases k <;> cases e

end Bms
