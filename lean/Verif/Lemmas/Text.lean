import Verif.Spec.Text

/-! Helper lemmas about text searches and character classes. -/

namespace Bms

open Spec

theorem findFirstNotOf_takeWhile (set s : List Char) :
    minLen (findFirstNotOf set s) s.length = (s.takeWhile set.contains).length := by
  induction s with
  | nil => rfl
  | cons c cs ih =>
    unfold findFirstNotOf
    by_cases h : set.contains c = true
    · rw [if_pos h, List.takeWhile_cons, if_pos h]
      cases hf : findFirstNotOf set cs with
      | none => rw [hf] at ih; simp [minLen] at ih ⊢; omega
      | some n => rw [hf] at ih; simp [minLen] at ih ⊢; omega
    · rw [if_neg h, List.takeWhile_cons, if_neg h]
      simp [minLen]

theorem findFirstNotOf_none (set s : List Char) :
    findFirstNotOf set s = none ↔ ∀ c ∈ s, set.contains c = true := by
  induction s with
  | nil => simp [findFirstNotOf]
  | cons c cs ih =>
    unfold findFirstNotOf
    by_cases h : set.contains c = true
    · rw [if_pos h]; simp only [Option.map_eq_none_iff, ih, List.mem_cons, forall_eq_or_imp, h, true_and]
    · rw [if_neg h]; simp only [reduceCtorEq, List.mem_cons, forall_eq_or_imp, h, false_and]

theorem take_takeWhile (p : Char → Bool) (s : List Char) :
    s.take (s.takeWhile p).length = s.takeWhile p :=
  (List.prefix_iff_eq_take.mp (List.takeWhile_prefix p)).symm

theorem takeWhile_length_le (p : Char → Bool) (s : List Char) :
    (s.takeWhile p).length ≤ s.length := (List.takeWhile_prefix p).length_le

/-- The character just after a maximal run does not satisfy the predicate. -/
theorem takeWhile_next (p : Char → Bool) (s : List Char) :
    ∀ c, s[(s.takeWhile p).length]? = some c → p c = false := by
  induction s with
  | nil => simp
  | cons a s ih =>
    intro c
    rw [List.takeWhile_cons]
    split
    · simpa using ih c
    · next h => simp only [List.length_nil, List.getElem?_cons_zero, Option.some.injEq]
                rintro rfl; simpa using h

theorem isPrefixOf_two {a b : Char} {s : List Char} :
    [a, b].isPrefixOf s = true ↔ ∃ r, s = a :: b :: r := by
  match s with
  | [] => simp
  | [c] => simp
  | c :: d :: r =>
    simp only [List.isPrefixOf_cons_cons, Bool.and_eq_true, beq_iff_eq, List.isPrefixOf_nil_left,
      and_true, List.cons.injEq]
    constructor
    · rintro ⟨rfl, rfl⟩; exact ⟨r, rfl, rfl, rfl⟩
    · rintro ⟨_, h1, h2, _⟩; exact ⟨h1.symm, h2.symm⟩

/-- A property of characters that holds for the ASCII range and for everything beyond. -/
theorem char_forall {P : Char → Prop} (h1 : ∀ n < 128, P (Char.ofNat n))
    (h2 : ∀ c : Char, 128 ≤ c.toNat → P c) (c : Char) : P c := by
  by_cases h : c.toNat < 128
  · have := h1 c.toNat h
    rwa [Char.ofNat_toNat] at this
  · exact h2 c (by omega)

theorem contains_ascii {l : List Char} (hl : ∀ c ∈ l, c.toNat < 128) {c : Char}
    (hc : 128 ≤ c.toNat) : l.contains c = false := by
  cases h : l.contains c with
  | false => rfl
  | true =>
    rw [List.contains_iff_mem] at h
    have := hl c h
    omega

theorem identPart_big {c : Char} (hc : 128 ≤ c.toNat) : ¬ IdentPart c := by
  rintro ((rfl | h | h) | h)
  · exact absurd hc (by decide)
  all_goals
    have h2 := h.2
    simp only [show ('z').toNat = 122 from rfl, show ('Z').toNat = 90 from rfl,
      show ('9').toNat = 57 from rfl] at h2
    omega

theorem identifierCharacters_contains (c : Char) :
    identifierCharacters.contains c = true ↔ IdentPart c := by
  refine char_forall (P := fun c => identifierCharacters.contains c = true ↔ IdentPart c)
    (by decide +kernel) ?_ c
  intro c hc
  rw [contains_ascii (by decide +kernel) hc]
  simp [identPart_big hc]

theorem isDecimalDigit_iff (c : Char) : isDecimalDigit c = true ↔ InRange '0' c '9' := by
  simp only [isDecimalDigit, Bool.and_eq_true, decide_eq_true_eq]
  exact Iff.rfl

/-- The digit characters used by `matchDigits`. -/
def digitSet (base : Nat) : List Char :=
  if base = 16 then hexadecimalDigits else hexadecimalDigits.take base

theorem digitOf_big {c : Char} (hc : 128 ≤ c.toNat) : digitOf c = none := by
  unfold digitOf InRange
  simp only [show ('9').toNat = 57 from rfl, show ('f').toNat = 102 from rfl,
      show ('F').toNat = 70 from rfl]
  rw [if_neg (by omega), if_neg (by omega), if_neg (by omega)]

/-- A base used by the literal syntax. -/
def LitBase (base : Nat) : Prop := base = 2 ∨ base = 8 ∨ base = 10 ∨ base = 16

theorem digitSet_contains {base : Nat} (hb : LitBase base) (c : Char) :
    (digitSet base).contains c = true ↔ ∃ d, digitOf c = some d ∧ d < base := by
  have big : ∀ base, (∀ c ∈ digitSet base, c.toNat < 128) → ∀ c : Char, 128 ≤ c.toNat →
      ((digitSet base).contains c = true ↔ ∃ d, digitOf c = some d ∧ d < base) := by
    intro base h c hc
    rw [contains_ascii h hc, digitOf_big hc]; simp
  have aux : ∀ base c, (∃ d, digitOf c = some d ∧ d < base) ↔
      (match digitOf c with | some d => decide (d < base) | none => false) = true := by
    intro base c
    cases digitOf c <;> simp
  rcases hb with rfl | rfl | rfl | rfl <;>
    (refine char_forall (P := fun c => (digitSet _).contains c = true ↔ _) ?_
      (big _ (by decide +kernel)) c
     intro n hn
     rw [aux]
     revert n
     decide +kernel)

theorem matchDigits_eq (s : List Char) (base : Nat) :
    matchDigits s base = (s.takeWhile (digitSet base).contains).length :=
  findFirstNotOf_takeWhile _ _

theorem digits_of_all {base : Nat} (hb : LitBase base) {t : List Char}
    (h : ∀ c ∈ t, (digitSet base).contains c = true) : ∃ v, Digits base t v := by
  suffices ∃ ds : List Nat, t.map digitOf = ds.map some ∧ ∀ d ∈ ds, d < base by
    obtain ⟨ds, h1, h2⟩ := this
    exact ⟨_, ds, h1, h2, rfl⟩
  induction t with
  | nil => exact ⟨[], rfl, by simp⟩
  | cons c t ih =>
    obtain ⟨ds, h1, h2⟩ := ih (fun d hd => h d (by simp [hd]))
    obtain ⟨d, hd, hlt⟩ := (digitSet_contains hb c).mp (h c (by simp))
    exact ⟨d :: ds, by simp [hd, h1], by simpa using ⟨hlt, h2⟩⟩

theorem all_of_digits {base : Nat} (hb : LitBase base) {t : List Char} {v : Nat}
    (h : Digits base t v) : ∀ c ∈ t, (digitSet base).contains c = true := by
  obtain ⟨ds, h1, h2, -⟩ := h
  induction t generalizing ds with
  | nil => simp
  | cons c t ih =>
    cases ds with
    | nil => simp at h1
    | cons d ds =>
      simp only [List.map_cons, List.cons.injEq] at h1
      intro e he
      rcases List.mem_cons.mp he with rfl | he
      · exact (digitSet_contains hb e).mpr ⟨d, h1.1, h2 d (by simp)⟩
      · exact ih ds h1.2 (fun d hd => h2 d (by simp [hd])) e he

end Bms
