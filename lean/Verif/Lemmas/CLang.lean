import Verif.Spec.CLang

/-!
# Tokens of C texts
-/

namespace Bms.C

open Spec (Ident IdentStart IdentPart InRange Literal)

instance (c : Char) (lo hi : Char) : Decidable (InRange lo c hi) := inferInstance

theorem punctuators_ne_nil : ∀ w ∈ punctuators, w ≠ [] := by decide

theorem punctuators_chars : ∀ w ∈ punctuators, ∀ c ∈ w, ¬ IdentPart c ∧ ¬ Space c := by decide

theorem ident_parts {w : List Char} (h : Ident w) : w ≠ [] ∧ (∀ c ∈ w, IdentPart c) ∧
    ∀ c ∈ w.head?, IdentStart c := by
  cases w with
  | nil => exact h.elim
  | cons c w =>
    obtain ⟨h1, h2⟩ := h
    refine ⟨by simp, fun d hd => ?_, fun d hd => by cases hd; exact h1⟩
    rcases List.mem_cons.1 hd with rfl | hd
    · exact .inl h1
    · exact h2 d hd

theorem space_not_part {c : Char} (h : Space c) : ¬ IdentPart c ∧ c ≠ '.' := by
  have : ∀ c ∈ [' ', '\n', '\t', '\r', '\x0b', '\x0c'], ¬ IdentPart c ∧ c ≠ '.' := by decide
  exact this c h

theorem Spelling.ne_nil {w : List Char} {t : Tok} (h : Spelling w t) : w ≠ [] := by
  cases h with
  | word h => exact (ident_parts h).1
  | number => simp
  | punct h => exact punctuators_ne_nil _ h

theorem Spelling.no_space {w : List Char} {t : Tok} (h : Spelling w t) : ∀ c ∈ w, ¬ Space c := by
  intro c hc hs
  cases h with
  | word h => exact (space_not_part hs).1 ((ident_parts h).2.1 c hc)
  | @number d w h1 h2 =>
    rcases List.mem_cons.1 hc with rfl | hc
    · exact (space_not_part hs).1 (.inr h1)
    · rcases h2 c hc with h | h
      · exact (space_not_part hs).1 h
      · exact (space_not_part hs).2 h
  | punct h => exact (punctuators_chars _ h c hc).2 hs

theorem start_not_digit {c : Char} (h : IdentStart c) : ¬ InRange '0' c '9' := by
  rintro ⟨h1, h2⟩
  have e0 : '0'.toNat = 48 := rfl
  have e9 : '9'.toNat = 57 := rfl
  rcases h with rfl | ⟨h3, h4⟩ | ⟨h3, h4⟩
  · revert h2; decide
  · have : 'a'.toNat = 97 := rfl
    omega
  · have : 'A'.toNat = 65 := rfl
    omega

/-- A text is written for only one token. -/
theorem Spelling.unique {w : List Char} {t t' : Tok} (h : Spelling w t) (h' : Spelling w t') : t = t' := by
  cases h with
  | word h =>
    cases h' with
    | word => rfl
    | number h1 => exact absurd h1 (start_not_digit ((ident_parts h).2.2 _ rfl))
    | punct h1 =>
      cases w with
      | nil => exact absurd rfl (ident_parts h).1
      | cons c w => exact absurd ((ident_parts h).2.1 c (by simp)) (punctuators_chars _ h1 c (by simp)).1
  | number h1 =>
    cases h' with
    | word h => exact absurd h1 (start_not_digit ((ident_parts h).2.2 _ rfl))
    | number => rfl
    | punct h2 => exact absurd (.inr h1) (punctuators_chars _ h2 _ (by simp)).1
  | punct h1 =>
    cases h' with
    | word h =>
      cases w with
      | nil => exact absurd rfl (ident_parts h).1
      | cons c w => exact absurd ((ident_parts h).2.1 c (by simp)) (punctuators_chars _ h1 c (by simp)).1
    | number h2 => exact absurd (.inr h2) (punctuators_chars _ h1 _ (by simp)).1
    | punct => rfl

/-- The tokens of a text are determined. -/
theorem Lexes.unique {s : List Char} {ts ts' : List Tok} (h : Lexes s ts) (h' : Lexes s ts') : ts = ts' := by
  induction h generalizing ts' with
  | nil =>
    generalize hs : ([] : List Char) = s at h'
    cases h' with
    | nil => rfl
    | space => cases hs
    | token hw => exact absurd (List.append_eq_nil_iff.1 hs.symm).1 hw.ne_nil
  | @space c s ts hc _ ih =>
    generalize hs : c :: s = s' at h'
    cases h' with
    | nil => cases hs
    | space _ h2 => cases hs; exact ih h2
    | @token w t s2 ts2 hw =>
      exfalso
      cases w with
      | nil => exact hw.ne_nil rfl
      | cons d w => cases hs; exact hw.no_space c (by simp) hc
  | @token w t s ts hw hmax _ ih =>
    generalize hs : w ++ s = s' at h'
    cases h' with
    | nil => exact absurd (List.append_eq_nil_iff.1 hs).1 hw.ne_nil
    | @space c s2 _ hc h2 =>
      exfalso
      cases w with
      | nil => exact hw.ne_nil rfl
      | cons d w => cases hs; exact hw.no_space c (by simp) hc
    | @token w2 t2 s2 ts2 hw2 hmax2 h2 =>
      have l1 := hmax w2 t2 hw2 (by rw [hs]; exact List.prefix_append _ _)
      have l2 := hmax2 w t hw (by rw [← hs]; exact List.prefix_append _ _)
      obtain ⟨rfl, rfl⟩ := List.append_inj hs (by omega)
      rw [hw.unique hw2, ih h2]

/-! ## What may follow a token -/

/-- Characters that are no part of longer tokens. -/
def breakers : List Char := [' ', '\n', '\t', '\r', '\x0b', '\x0c', '(', ')', '{', '}', ',', ';']

theorem breakers_not_part : ∀ c ∈ breakers, ¬ IdentPart c ∧ c ≠ '.' := by decide

theorem punctuators_breakers : ∀ w ∈ punctuators, ∀ c ∈ breakers, c ∈ w → w = [c] := by decide

theorem Spelling.breaker {w : List Char} {t : Tok} (h : Spelling w t) {c : Char} (hc : c ∈ breakers)
    (hm : c ∈ w) : w = [c] := by
  cases h with
  | word h => exact absurd ((ident_parts h).2.1 c hm) (breakers_not_part c hc).1
  | number h1 h2 =>
    exfalso
    rcases List.mem_cons.1 hm with rfl | hm
    · exact (breakers_not_part c hc).1 (.inr h1)
    · rcases h2 c hm with h | h
      · exact (breakers_not_part c hc).1 h
      · exact (breakers_not_part c hc).2 h
  | punct h => exact punctuators_breakers _ h c hc hm

/-- A longer token that begins like `w` contains the character that follows `w`. -/
theorem mem_of_longer {w w' s : List Char} {c : Char} (hp : w' <+: w ++ c :: s) (hl : w.length < w'.length) :
    w <+: w' ∧ c ∈ w' := by
  obtain ⟨r, hr⟩ := hp
  have h1 : w <+: w' := by
    have : w <+: w' ++ r := by rw [hr]; exact List.prefix_append _ _
    exact List.prefix_of_prefix_length_le this (List.prefix_append _ _) (by omega)
  refine ⟨h1, ?_⟩
  obtain ⟨u, rfl⟩ := h1
  rw [List.append_assoc] at hr
  have hu := List.append_cancel_left hr
  cases u with
  | nil => simp at hl
  | cons d u =>
    cases hu
    simp

/-- The text is written with the tokens, if `P` holds of the character that follows. -/
def Writes (P : Char → Prop) (text : List Char) (toks : List Tok) : Prop :=
  ∀ more rest, (∀ c ∈ more.head?, P c) → Lexes more rest → Lexes (text ++ more) (toks ++ rest)

/-- The text begins with a character of which `P` holds. -/
def Heads (P : Char → Prop) (text : List Char) : Prop := ∃ c, text.head? = some c ∧ P c

theorem Heads.append {P : Char → Prop} {a b : List Char} (h : Heads P a) : Heads P (a ++ b) := by
  obtain ⟨c, h1, h2⟩ := h
  cases a with
  | nil => cases h1
  | cons d a => exact ⟨c, h1, h2⟩

theorem Heads.mono {P Q : Char → Prop} {a : List Char} (h : Heads P a) (hp : ∀ c, P c → Q c) : Heads Q a :=
  let ⟨c, h1, h2⟩ := h; ⟨c, h1, hp c h2⟩

theorem Heads.cons {P : Char → Prop} {c : Char} {s : List Char} (h : P c) : Heads P (c :: s) := ⟨c, rfl, h⟩

theorem Writes.mono {P Q : Char → Prop} {a : List Char} {ts : List Tok} (h : Writes P a ts)
    (hp : ∀ c, Q c → P c) : Writes Q a ts :=
  fun more rest h1 h2 => h more rest (fun c hc => hp c (h1 c hc)) h2

theorem Writes.append {P Q : Char → Prop} {a b : List Char} {ts us : List Tok} (ha : Writes P a ts)
    (hb : Writes Q b us) (hh : Heads P b) : Writes Q (a ++ b) (ts ++ us) := by
  intro more rest h1 h2
  rw [List.append_assoc, List.append_assoc]
  refine ha _ _ (fun c hc => ?_) (hb _ _ h1 h2)
  obtain ⟨d, h3, h4⟩ := (hh.append (b := more))
  rw [h3] at hc
  cases hc
  exact h4

theorem Writes.nil (P : Char → Prop) : Writes P [] [] := fun _ _ _ h => h

/-- Texts after which anything may follow. -/
theorem Writes.append_any {Q : Char → Prop} {a b : List Char} {ts us : List Tok}
    (ha : Writes (fun _ => True) a ts) (hb : Writes Q b us) : Writes Q (a ++ b) (ts ++ us) := by
  intro more rest h1 h2
  rw [List.append_assoc, List.append_assoc]
  exact ha _ _ (fun _ _ => trivial) (hb _ _ h1 h2)

theorem Writes.space {c : Char} (h : Space c) : Writes (fun _ => True) [c] [] :=
  fun _ _ _ h2 => .space h h2

theorem Writes.spaces {s : List Char} (h : ∀ c ∈ s, Space c) : Writes (fun _ => True) s [] := by
  induction s with
  | nil => exact .nil _
  | cons c s ih =>
    exact (Writes.space (h c (by simp))).append_any (ih fun d hd => h d (List.mem_cons_of_mem _ hd))

/-- What may follow a word or a number. -/
def Stop (c : Char) : Prop := ¬ IdentPart c ∧ c ≠ '.'

instance (c : Char) : Decidable (Stop c) := inferInstanceAs (Decidable (_ ∧ _))

theorem stop_of_breaker {c : Char} (h : c ∈ breakers) : Stop c := breakers_not_part c h

/-- What is to be shown for a single token. -/
theorem Writes.token {P : Char → Prop} {w : List Char} {t : Tok} (h : Spelling w t)
    (hm : ∀ w' t' c s, P c → Spelling w' t' → w' <+: w ++ c :: s → w'.length ≤ w.length) :
    Writes P w [t] := by
  intro more rest h1 h2
  refine .token h (fun w' t' h3 h4 => ?_) h2
  cases more with
  | nil => rw [List.append_nil] at h4; exact h4.length_le
  | cons c more => exact hm w' t' c more (h1 c rfl) h3 h4

theorem Spelling.starts {w w' : List Char} {t' : Tok} (h' : Spelling w' t') (hp : w <+: w') (hw : w ≠ []) :
    (∃ c ∈ w.head?, IdentStart c) → ∀ x ∈ w', IdentPart x := by
  rintro ⟨c, h1, h2⟩
  obtain ⟨u, rfl⟩ := hp
  cases w with
  | nil => exact absurd rfl hw
  | cons d w =>
    cases h1
    cases h' with
    | word h => exact (ident_parts h).2.1
    | number h => exact absurd h (start_not_digit h2)
    | punct h => exact absurd (.inl h2) (punctuators_chars _ h c (by simp)).1

theorem Writes.word {w : List Char} (h : Ident w) : Writes Stop w [.word w] := by
  refine .token (.word h) fun w' t' c s hc h1 h2 => ?_
  apply Nat.le_of_not_lt
  intro hl
  obtain ⟨h3, h4⟩ := mem_of_longer h2 hl
  refine hc.1 (h1.starts h3 (ident_parts h).1 ?_ c h4)
  cases w with
  | nil => exact absurd rfl (ident_parts h).1
  | cons d w => exact ⟨d, rfl, (ident_parts h).2.2 d rfl⟩

theorem Writes.kw {w : List Char} (h : Ident w) : Writes Stop w [.word w] := .word h

theorem Writes.number {c : Char} {w : List Char} (h1 : InRange '0' c '9') (h2 : ∀ x ∈ w, IdentPart x ∨ x = '.') :
    Writes Stop (c :: w) [.number (c :: w)] := by
  refine .token (.number h1 h2) fun w' t' d s hd h3 h4 => ?_
  apply Nat.le_of_not_lt
  intro hl
  obtain ⟨⟨u, rfl⟩, h6⟩ := mem_of_longer h4 hl
  cases h3 with
  | word h => exact start_not_digit ((ident_parts h).2.2 c rfl) h1
  | number h7 h8 =>
    rcases List.mem_cons.1 h6 with rfl | h6
    · exact hd.1 (.inr h7)
    · rcases h8 d h6 with h | h
      · exact hd.1 h
      · exact hd.2 h
  | punct h => exact (punctuators_chars _ h c (by simp)).1 (.inr h1)

/-- Any token before a character that is no part of longer tokens. -/
theorem Writes.before {w : List Char} {t : Tok} (h : Spelling w t) : Writes (· ∈ breakers) w [t] := by
  refine .token h fun w' t' c s hc h1 h2 => ?_
  apply Nat.le_of_not_lt
  intro hl
  obtain ⟨_, h4⟩ := mem_of_longer h2 hl
  have := h1.breaker hc h4
  subst this
  have := h.ne_nil
  cases w with
  | nil => exact this rfl
  | cons d w => simp at hl

/-- Punctuators that begin no longer ones. -/
def solo : List Char := ['(', ')', '{', '}', ',', ';', '~']

theorem punctuators_solo : ∀ c ∈ solo, [c] ∈ punctuators ∧ ¬ IdentPart c ∧ ∀ w ∈ punctuators, w.head? = some c → w = [c] := by
  decide

theorem Writes.solo {c : Char} (h : c ∈ solo) : Writes (fun _ => True) [c] [.punct [c]] := by
  obtain ⟨h1, h2, h3⟩ := punctuators_solo c h
  refine .token (.punct h1) fun w' t' d s _ h4 h5 => ?_
  apply Nat.le_of_not_lt
  intro hl
  obtain ⟨⟨u, rfl⟩, h6⟩ := mem_of_longer h5 hl
  cases h4 with
  | word h => exact h2 ((ident_parts h).2.1 c (by simp))
  | number h => exact h2 (.inr h)
  | punct h =>
    have := h3 _ h rfl
    rw [this] at hl
    simp at hl

/-- The characters that would continue a sign. -/
def continues : Char → List Char
  | '-' => ['-', '=', '>']
  | '+' => ['+', '=']
  | '!' => ['=']
  | ':' => [':', '>']
  | _ => []

theorem punctuators_signs : ∀ c ∈ ['-', '+', '!', '~'], [c] ∈ punctuators ∧ ¬ IdentPart c ∧
    ∀ w ∈ punctuators, w.head? = some c → w = [c] ∨ ∃ d ∈ continues c, w.head? = some c ∧ w.tail.head? = some d := by
  decide

/-- A sign before a character that does not continue it. -/
theorem Writes.sign {c : Char} (h : c ∈ ['-', '+', '!', '~']) :
    Writes (fun d => d ∉ continues c) [c] [.punct [c]] := by
  obtain ⟨h1, h2, h3⟩ := punctuators_signs c h
  refine .token (.punct h1) fun w' t' d s hd h4 h5 => ?_
  apply Nat.le_of_not_lt
  intro hl
  obtain ⟨⟨u, rfl⟩, h6⟩ := mem_of_longer h5 hl
  cases h4 with
  | word h => exact h2 ((ident_parts h).2.1 c (by simp))
  | number h => exact h2 (.inr h)
  | punct h =>
    rcases h3 _ h rfl with h7 | ⟨x, h7, _, h8⟩
    · rw [h7] at hl
      simp at hl
    · obtain ⟨r, hr⟩ := h5
      cases u with
      | nil => simp at hl
      | cons y u =>
        simp only [List.cons_append, List.nil_append, List.cons.injEq, true_and] at hr
        simp only [List.cons_append, List.nil_append, List.tail_cons, List.head?_cons, Option.some.injEq] at h8
        rw [← hr.1, h8] at hd
        exact hd h7

/-- `::` before anything. -/
theorem Writes.colons : Writes (fun _ => True) "::".toList [pt "::"] := by
  have hp : ∀ w ∈ punctuators, "::".toList <+: w → w = "::".toList := by decide
  refine .token (.punct (by decide)) fun w' t' d s _ h4 h5 => ?_
  apply Nat.le_of_not_lt
  intro hl
  obtain ⟨h6, _⟩ := mem_of_longer h5 hl
  have hpart : ¬ IdentPart ':' := by decide
  obtain ⟨u, rfl⟩ := h6
  cases h4 with
  | word h => exact hpart ((ident_parts h).2.1 ':' (by simp))
  | number h => exact hpart (.inr h)
  | punct h =>
    have := hp _ h (List.prefix_append _ _)
    rw [this] at hl
    simp at hl

/-- A token between two spaces. -/
theorem Writes.infix {w : List Char} {t : Tok} (h : Spelling w t) :
    Writes (fun _ => True) (' ' :: w ++ [' ']) [t] := by
  have h1 : Writes (fun _ => True) (w ++ [' ']) ([t] ++ []) :=
    (Writes.before h).append (.space (by decide)) (.cons (by decide))
  exact (Writes.space (c := ' ') (by decide)).append_any h1

/-- The tokens of a whole text. -/
theorem Writes.lexes {P : Char → Prop} {s : List Char} {ts : List Tok} (h : Writes P s ts) : Lexes s ts := by
  have := h [] [] (by simp) .nil
  simpa using this

end Bms.C
