import Verif.Lemmas.Text
import Verif.Lemmas.Values

/-!
# Properties C15-C18: literals, comments, strings, identifiers
-/

namespace Bms

open Spec

/-! ## C15: literal values -/

theorem positional_foldl (base : Nat) (ds : List Nat) (acc : Nat) :
    ds.foldl (fun a d => a * base + d) acc = acc * base ^ ds.length + positional base ds := by
  induction ds generalizing acc with
  | nil => simp [positional]
  | cons d ds ih =>
    rw [List.foldl_cons, ih, positional, List.length_cons, Nat.pow_succ]
    rw [Nat.add_mul, Nat.mul_assoc, Nat.mul_comm base]
    omega

theorem safeMul_ok {x y : Nat} (hy : 0 < y) (h : x * y < 2 ^ 128) : safeMul x y = some (x * y) := by
  have : x ≤ x * y := Nat.le_mul_of_pos_right x hy
  simp only [safeMul, Nat.mod_eq_of_lt h, ge_iff_le, this, if_true]

theorem safeAdd_ok {x y : Nat} (h : x + y < 2 ^ 128) : safeAdd x y = some (x + y) := by
  simp only [safeAdd, Nat.mod_eq_of_lt h, ge_iff_le, Nat.le_add_right, if_true]

/-- The digit value the parser uses for a (lower case) digit character. -/
theorem digit_cases {c : Char} {d : Nat} (h : digitOf c = some d) (hl : ¬ InRange 'A' c 'F') :
    (InRange '0' c '9' ∧ d = c.toNat - '0'.toNat) ∨
    (¬ InRange '0' c '9' ∧ InRange 'a' c 'f' ∧ d = 10 + c.toNat - 'a'.toNat) := by
  unfold digitOf at h
  split at h
  · next h1 => cases h; exact .inl ⟨h1, rfl⟩
  split at h
  · next h1 h2 =>
    cases h
    refine .inr ⟨h1, h2, ?_⟩
    have := h2.1
    omega
  cases h

theorem not_upper_of_lt_ten {c : Char} {d : Nat} (h : digitOf c = some d) (hd : d < 10) :
    ¬ InRange 'A' c 'F' := by
  intro hA
  unfold digitOf at h
  split at h
  · next h1 =>
    have h3 := h1.2
    have h4 := hA.1
    simp only [show ('9').toNat = 57 from rfl, show ('A').toNat = 65 from rfl] at h3 h4
    omega
  split at h
  · cases h; omega
  cases h; omega

theorem inRange_le {lo c hi : Char} : InRange lo c hi ↔ lo ≤ c ∧ c ≤ hi := Iff.rfl

theorem parseDigit_eq {base : Nat} (hb : LitBase base) {c : Char} {d : Nat}
    (h : digitOf c = some d) (hd : d < base) (hl : ¬ InRange 'A' c 'F') (r : Nat) :
    parseDigit base r c = (safeMul r base).bind fun x => safeAdd x d := by
  unfold parseDigit
  rcases digit_cases h hl with ⟨h1, rfl⟩ | ⟨h1, h2, rfl⟩
  · have h1' := h1
    rw [inRange_le] at h1'
    have e1 : (decide (c < '0') || decide (c > '9')) = false := by
      simp only [Bool.or_eq_false_iff, decide_eq_false_iff_not]
      exact ⟨Char.not_lt.mpr h1'.1, Char.not_lt.mpr h1'.2⟩
    have e2 : (decide (c ≥ '0') && decide (c ≤ '9')) = true := by
      simp [h1'.1, h1'.2]
    split
    · simp only [parseDigitLow, e1, Bool.false_eq_true, if_false]; rfl
    · have : base = 16 := by rcases hb with rfl | rfl | rfl | rfl <;> first | rfl | omega
      subst this
      simp only [parseDigitHex, e2, if_true]; rfl
  · have hb16 : base = 16 := by
      have : ('a').toNat ≤ c.toNat := h2.1
      rcases hb with rfl | rfl | rfl | rfl
      all_goals first | rfl | (exfalso; omega)
    subst hb16
    have e1 : ¬ ((decide (c ≥ '0') && decide (c ≤ '9')) = true) := by
      simp only [Bool.and_eq_true, decide_eq_true_eq]
      exact h1
    have e2 : (decide (c ≥ 'a') && decide (c ≤ 'f')) = true := by
      rw [inRange_le] at h2; simp [h2.1, h2.2]
    rw [if_neg (by omega)]
    unfold parseDigitHex
    simp only [e1, e2, if_true]; rfl

theorem parseDigitsLoop_ok {base : Nat} (hb : LitBase base) {s : List Char} {ds : List Nat}
    (h : s.map digitOf = ds.map some) (hd : ∀ d ∈ ds, d < base) (hl : LowerCase s) (acc : Nat)
    (hv : acc * base ^ ds.length + positional base ds < 2 ^ 128) :
    parseDigitsLoop base acc s = some (acc * base ^ ds.length + positional base ds) := by
  have hb0 : 0 < base := by rcases hb with rfl | rfl | rfl | rfl <;> omega
  induction s generalizing ds acc with
  | nil => cases ds <;> simp_all [parseDigitsLoop, positional]
  | cons c s ih =>
    cases ds with
    | nil => simp at h
    | cons d ds =>
      simp only [List.map_cons, List.cons.injEq] at h
      have hdb := hd d (by simp)
      have hpow : 0 < base ^ ds.length := Nat.pow_pos hb0
      have e : acc * base ^ (d :: ds).length + positional base (d :: ds)
          = (acc * base + d) * base ^ ds.length + positional base ds := by
        rw [positional, List.length_cons, Nat.pow_succ, Nat.add_mul, Nat.mul_assoc,
          Nat.mul_comm base]
        omega
      rw [e] at hv ⊢
      have hle : acc * base + d ≤ (acc * base + d) * base ^ ds.length :=
        Nat.le_mul_of_pos_right _ hpow
      have e1 : safeMul acc base = some (acc * base) := safeMul_ok hb0 (by omega)
      have e2 : safeAdd (acc * base) d = some (acc * base + d) := safeAdd_ok (by omega)
      rw [parseDigitsLoop, parseDigit_eq hb h.1 hdb (hl c (by simp)), e1, Option.bind_some, e2,
        Option.bind_some]
      exact ih h.2 (fun x hx => hd x (by simp [hx])) (fun x hx => hl x (by simp [hx])) _ hv

theorem parseUintegerDigits_ok {base : Nat} (hb : LitBase base) {s : List Char} {v : Nat}
    (hne : s ≠ []) (h : Digits base s v) (hl : LowerCase s) (hv : v < 2 ^ 128) :
    parseUintegerDigits s base = some v := by
  obtain ⟨ds, h1, h2, rfl⟩ := h
  have := parseDigitsLoop_ok hb h1 h2 hl 0 (by omega)
  simp only [Nat.zero_mul, Nat.zero_add] at this
  unfold parseUintegerDigits
  rw [if_neg (by simpa using hne), this]

theorem digitOf_b : digitOf 'b' = some 11 := by decide
theorem digitOf_x : digitOf 'x' = none := by decide

/-- The second character of a literal of kind octal is neither `b` nor `x`. -/
theorem octal_second {c : Char} {t : List Char} {v : Nat} (h : Digits 8 (c :: t) v) :
    c ≠ 'b' ∧ c ≠ 'x' := by
  have := all_of_digits (.inr (.inl rfl)) h c (by simp)
  constructor <;> rintro rfl <;> exact absurd this (by decide)

theorem digits_cons_zero {base : Nat} (hb : 0 < base) {t : List Char} {v : Nat}
    (h : Digits base t v) : Digits base ('0' :: t) v := by
  obtain ⟨ds, h1, h2, h3⟩ := h
  refine ⟨0 :: ds, by simp [h1]; decide, by simpa using ⟨hb, h2⟩, by simp [positional, h3]⟩

/-- **C15, values.** Every literal of every kind and length whose value is below 2^128 is parsed
to its positional value (hexadecimal digits in lower case).

Partial: the statement also asks that other texts have no value. That is false of the code; see
`C15_overflow_undetected` and `C15_foreign_digits_accepted`. -/
theorem C15_uinteger_literal_partial {k : LiteralType} {s : List Char} {v : Nat}
    (h : Literal k s v) (hl : LowerCase s) (hv : v < 2 ^ 128) :
    parseUintegerLiteral s = some v := by
  cases h with
  | @binary t _ hne hd =>
    have := parseUintegerDigits_ok (.inl rfl) hne hd (fun c hc => hl c (by simp [hc])) hv
    simpa [parseUintegerLiteral] using this
  | @hexadecimal t _ hne hd =>
    have := parseUintegerDigits_ok (.inr (.inr (.inr rfl))) hne hd
      (fun c hc => hl c (by simp [hc])) hv
    simpa [parseUintegerLiteral] using this
  | @octal t _ hne hd =>
    have := parseUintegerDigits_ok (base := 8) (.inr (.inl rfl)) (by simp)
      (digits_cons_zero (by omega) hd) hl hv
    obtain ⟨c, t, rfl⟩ := List.exists_cons_of_ne_nil hne
    have h8 := octal_second hd
    simp [parseUintegerLiteral, this, h8.1.symm, h8.2.symm]
  | zero => decide
  | @decimal c t _ h0 hd =>
    have := parseUintegerDigits_ok (.inr (.inr (.inl rfl))) (by simp) hd hl hv
    have h0' : ¬ '0' = c := fun e => h0 e.symm
    simp [parseUintegerLiteral, this, h0']

example : Literal .hexadecimal "0x1f".toList 31 ∧ parseUintegerLiteral "0x1f".toList = some 31 ∧
    LowerCase "0x1f".toList := by
  refine ⟨.hexadecimal (by decide) ⟨[1, 15], by decide, by decide, by decide⟩, by decide, ?_⟩
  unfold LowerCase; decide

/-- **C15, binary overflow is detected.** A binary literal whose value does not fit 128 bits has
no value, for every length. -/
theorem C15_binary_overflow {s : List Char} {v : Nat} (h : Literal .binary s v)
    (hv : 2 ^ 128 ≤ v) : parseUintegerLiteral s = none := by
  cases h with
  | @binary t _ hne hd =>
    obtain ⟨ds, h1, h2, rfl⟩ := hd
    have key : ∀ (t : List Char) (ds : List Nat) (acc : Nat), t.map digitOf = ds.map some →
        (∀ d ∈ ds, d < 2) → acc < 2 ^ 128 →
        2 ^ 128 ≤ acc * 2 ^ ds.length + positional 2 ds → parseDigitsLoop 2 acc t = none := by
      intro t
      induction t with
      | nil =>
        intro ds acc h1 h2 hacc hv
        cases ds with
        | nil => simp [positional] at hv; omega
        | cons d ds => simp at h1
      | cons c t ih =>
        intro ds acc h1 h2 hacc hv
        cases ds with
        | nil => simp at h1
        | cons d ds =>
          simp only [List.map_cons, List.cons.injEq] at h1
          have hd := h2 d (by simp)
          have hlow := not_upper_of_lt_ten h1.1 (by omega)
          rw [parseDigitsLoop, parseDigit_eq (.inl rfl) h1.1 hd hlow]
          have e : acc * 2 ^ (d :: ds).length + positional 2 (d :: ds)
              = (acc * 2 + d) * 2 ^ ds.length + positional 2 ds := by
            rw [positional, List.length_cons, Nat.pow_succ, Nat.add_mul, Nat.mul_assoc,
              Nat.mul_comm 2]
            omega
          rw [e] at hv
          by_cases hov : acc * 2 < 2 ^ 128
          · rw [safeMul_ok (by omega) hov, Option.bind_some, safeAdd_ok (by omega),
              Option.bind_some]
            exact ih ds _ h1.2 (fun x hx => h2 x (by simp [hx])) (by omega) hv
          · have : safeMul acc 2 = none := by
              unfold safeMul
              simp only
              rw [if_neg (by omega)]
            rw [this]; rfl
    have := key t ds 0 h1 h2 (by decide) (by omega)
    obtain ⟨c, t, rfl⟩ := List.exists_cons_of_ne_nil hne
    simpa [parseUintegerLiteral, parseUintegerDigits] using this

example : Literal .binary ('0' :: 'b' :: List.replicate 129 '1') (2 ^ 129 - 1) := by
  refine .binary (by decide) ⟨List.replicate 129 1, by decide +kernel, by decide +kernel,
    by decide +kernel⟩

/-- **C15, violated: overflow.** In every other base there are literals whose value does not fit
128 bits but which are parsed to a wrong value instead of none: the product check `x * base >= x`
modulo 2^128 does not detect every overflow. -/
theorem C15_overflow_undetected :
    (∃ s v r, Literal .hexadecimal s v ∧ 2 ^ 128 ≤ v ∧ LowerCase s ∧
      parseUintegerLiteral s = some r ∧ r ≠ v) ∧
    (∃ s v r, Literal .decimal s v ∧ 2 ^ 128 ≤ v ∧ parseUintegerLiteral s = some r ∧ r ≠ v) ∧
    (∃ s v r, Literal .octal s v ∧ 2 ^ 128 ≤ v ∧ parseUintegerLiteral s = some r ∧ r ≠ v) := by
  refine ⟨⟨"0x1".toList ++ List.replicate 31 'f' ++ ['0'], 16 * (2 ^ 125 - 1), 2 ^ 128 - 16,
      .hexadecimal (by decide) ⟨1 :: List.replicate 31 15 ++ [0], by decide +kernel,
        by decide +kernel, by decide +kernel⟩, by decide, ?_, by decide +kernel, by decide⟩,
    ⟨"61".toList ++ List.replicate 37 '0', 61 * 10 ^ 37, 61 * 10 ^ 37 - 2 ^ 128,
      .decimal (by decide) ⟨6 :: 1 :: List.replicate 37 0, by decide +kernel,
        by decide +kernel, by decide +kernel⟩, by decide, by decide +kernel, by decide⟩,
    ⟨"06".toList ++ List.replicate 42 '0', 6 * 8 ^ 42, 6 * 8 ^ 42 - 2 ^ 128,
      .octal (by decide) ⟨6 :: List.replicate 42 0, by decide +kernel,
        by decide +kernel, by decide +kernel⟩, by decide, by decide +kernel, by decide⟩⟩
  unfold LowerCase; decide +kernel

/-- **C15, violated: digits of a larger base.** Texts with digits that do not exist in the base
are given a value. -/
theorem C15_foreign_digits_accepted :
    parseUintegerLiteral "0b9".toList = some 9 ∧ parseUintegerLiteral "089".toList = some 73 := by
  decide

/-- **C15, other characters are rejected**: a text containing a character that is not a digit of
base 10 (of base 16 in lower case after `0x`) has no value. -/
theorem C15_foreign_characters_rejected {p t : List Char} {c : Char} (hc : c ∈ t) :
    (p = ['0', 'b'] → ¬ InRange '0' c '9' → parseUintegerLiteral (p ++ t) = none) ∧
    (p = ['0', 'x'] → (¬ InRange '0' c '9') → (¬ InRange 'a' c 'f') →
      parseUintegerLiteral (p ++ t) = none) := by
  have low : ∀ base ≤ 10, ∀ (t : List Char) (acc : Nat), c ∈ t → ¬ InRange '0' c '9' →
      parseDigitsLoop base acc t = none := by
    intro base hb t
    induction t with
    | nil => intro _ h; cases h
    | cons d t ih =>
      intro acc hm hr
      rw [parseDigitsLoop, parseDigit, if_pos hb]
      rcases List.mem_cons.mp hm with rfl | hm
      · have : (decide (c < '0') || decide (c > '9')) = true := by
          rw [inRange_le] at hr
          simp only [Bool.or_eq_true, decide_eq_true_eq]
          by_cases h0 : '0' ≤ c
          · right; exact Char.not_le.mp (fun h => hr ⟨h0, h⟩)
          · left; exact Char.not_le.mp h0
        simp [parseDigitLow, this]
      · cases parseDigitLow base acc d with
        | none => rfl
        | some r => exact ih r hm hr
  have high : ∀ (t : List Char) (acc : Nat), c ∈ t → ¬ InRange '0' c '9' → ¬ InRange 'a' c 'f' →
      parseDigitsLoop 16 acc t = none := by
    intro t
    induction t with
    | nil => intro _ h; cases h
    | cons d t ih =>
      intro acc hm hr hr2
      rw [parseDigitsLoop, parseDigit, if_neg (by omega)]
      rcases List.mem_cons.mp hm with rfl | hm
      · rw [inRange_le] at hr hr2
        have e1 : (decide (c ≥ '0') && decide (c ≤ '9')) = false := by
          simpa using fun h => Char.not_le.mp (fun h2 => hr ⟨h, h2⟩)
        have e2 : (decide (c ≥ 'a') && decide (c ≤ 'f')) = false := by
          simpa using fun h => Char.not_le.mp (fun h2 => hr2 ⟨h, h2⟩)
        unfold parseDigitHex
        simp only [e1, e2]
        cases safeMul acc 16 <;> rfl
      · cases parseDigitHex acc d with
        | none => rfl
        | some r => exact ih r hm hr hr2
  constructor
  · rintro rfl hr
    obtain ⟨d, t, rfl⟩ := List.exists_cons_of_ne_nil (List.ne_nil_of_mem hc)
    simpa [parseUintegerLiteral, parseUintegerDigits] using low 2 (by omega) _ 0 hc hr
  · rintro rfl hr hr2
    obtain ⟨d, t, rfl⟩ := List.exists_cons_of_ne_nil (List.ne_nil_of_mem hc)
    simpa [parseUintegerLiteral, parseUintegerDigits] using high _ 0 hc hr hr2

/-- **C15, signed.** The signed parser returns the value of literals below 2^127, minus the value
for a leading `-` up to 2^127, and **wraps around** for literals from 2^127 on. -/
theorem C15_integer_literal_partial {k : LiteralType} {s : List Char} {v : Nat}
    (h : Literal k s v) (hl : LowerCase s) :
    (v < 2 ^ 127 → parseIntegerLiteral s = some (v : Int)) ∧
    (v ≤ 2 ^ 127 → parseIntegerLiteral ('-' :: s) = some (-(v : Int))) ∧
    (2 ^ 127 ≤ v → v < 2 ^ 128 → parseIntegerLiteral s = some ((v : Int) - 2 ^ 128)) := by
  have hne : s ≠ [] ∧ ¬ "-".toList.isPrefixOf s = true := by
    cases h with
    | @decimal c t _ _ hd =>
      have := all_of_digits (.inr (.inr (.inl rfl))) hd c (by simp)
      refine ⟨by simp, ?_⟩
      intro hh
      simp at hh
      subst hh
      exact absurd this (by decide)
    | _ => simp
  have hp := C15_uinteger_literal_partial h hl
  have e1 : parseIntegerLiteral s = (parseUintegerLiteral s).map toI128 := by
    unfold parseIntegerLiteral
    rw [if_neg (by simpa using hne.1), if_neg hne.2]
  have e2 : parseIntegerLiteral ('-' :: s) = (parseUintegerLiteral s).map fun p =>
      toI128 ((2 ^ 128 - p) % 2 ^ 128) := by
    simp [parseIntegerLiteral]
  refine ⟨fun hv => ?_, fun hv => ?_, fun hv1 hv2 => ?_⟩
  · rw [e1, hp (by omega)]; simp only [Option.map_some, toI128_of_lt hv]
  · rw [e2, hp (by omega)]
    simp only [Option.map_some, Option.some.injEq]
    unfold toI128
    split <;> omega
  · rw [e1, hp hv2]
    simp only [Option.map_some, Option.some.injEq]
    unfold toI128
    split <;> omega

/-! ## C16: matched literals -/

theorem all_takeWhile (p : Char → Bool) (s : List Char) : ∀ c ∈ s.takeWhile p, p c = true := by
  intro c hc
  induction s with
  | nil => cases hc
  | cons a s ih =>
    rw [List.takeWhile_cons] at hc
    split at hc
    · rcases List.mem_cons.mp hc with rfl | h
      · assumption
      · exact ih h
    · cases hc

theorem takeWhile_ne_nil {p : Char → Bool} {s : List Char} (h : (s.takeWhile p).length ≠ 0) :
    s.takeWhile p ≠ [] := by
  intro e; rw [e] at h; exact h rfl

/-- A run of digits longer than the maximal run does not exist. -/
theorem takeWhile_maximal {p : Char → Bool} {s : List Char} {m : Nat} (hm : m ≤ s.length)
    (h : ∀ c ∈ s.take m, p c = true) : m ≤ (s.takeWhile p).length := by
  induction s generalizing m with
  | nil => simpa using hm
  | cons a s ih =>
    cases m with
    | zero => omega
    | succ m =>
      have ha : p a = true := h a (by simp)
      rw [List.takeWhile_cons, if_pos ha, List.length_cons]
      have := ih (m := m) (by simpa using hm) (fun c hc => h c (by simp [hc]))
      omega

/-- What kinds of literals can start with what. -/
theorem literal_shape {k : LiteralType} {s : List Char} {v : Nat} (h : Literal k s v) :
    ∃ c cs, s = c :: cs ∧ InRange '0' c '9' := by
  cases h with
  | decimal h0 hd =>
    refine ⟨_, _, rfl, ?_⟩
    have := all_of_digits (.inr (.inr (.inl rfl))) hd _ (List.mem_cons_self ..)
    obtain ⟨d, hd, hlt⟩ := (digitSet_contains (.inr (.inr (.inl rfl))) _).mp this
    unfold digitOf at hd
    split at hd
    · assumption
    split at hd
    · cases hd; omega
    split at hd
    · cases hd; omega
    · cases hd
  | _ => exact ⟨_, _, rfl, by decide⟩

/-- **C16, matching.** If a literal is matched, the matched text is a literal of the reported
kind, and no longer prefix of the text is a literal of any kind. -/
theorem C16_match_sound {s : List Char} {n : Nat} {k : LiteralType}
    (h : matchIntegerLiteral s = .ok n k) :
    0 < n ∧ n ≤ s.length ∧ (∃ v, Literal k (s.take n) v) ∧
    ∀ m k' v', n < m → m ≤ s.length → ¬ Literal k' (s.take m) v' := by
  match s with
  | [] => cases h
  | c :: rest =>
    simp only [matchIntegerLiteral] at h
    split at h
    · cases h
    next hdig =>
    have hdig : InRange '0' c '9' := by
      rw [← isDecimalDigit_iff]; simpa using hdig
    split at h
    · next hp =>
      obtain ⟨r, hr⟩ := isPrefixOf_two.mp hp
      obtain ⟨rfl, rest, rfl⟩ : c = '0' ∧ ∃ r, rest = 'b' :: r := by cases hr; exact ⟨rfl, _, rfl⟩
      simp only [List.drop_succ_cons, List.drop_zero] at h
      split at h
      · cases h
      next hne =>
      cases h
      rw [matchDigits_eq] at hne ⊢
      have htw := takeWhile_ne_nil hne
      have hlen := takeWhile_length_le (digitSet 2).contains rest
      refine ⟨by omega, by simp; omega, ?_, ?_⟩
      · obtain ⟨v, hv⟩ := digits_of_all (.inl rfl) (all_takeWhile (digitSet 2).contains rest)
        refine ⟨v, ?_⟩
        rw [List.take_succ_cons, List.take_succ_cons, take_takeWhile]
        exact .binary htw hv
      · intro m k' v' hm hml hlit
        obtain ⟨m, rfl⟩ : ∃ m', m = m' + 2 := ⟨m - 2, by omega⟩
        rw [List.take_succ_cons, List.take_succ_cons] at hlit
        cases hlit with
        | binary _ hd =>
          have := takeWhile_maximal (p := (digitSet 2).contains) (s := rest) (m := m)
            (by simpa using hml) (all_of_digits (.inl rfl) hd)
          omega
        | octal _ hd => exact (octal_second hd).1 rfl
        | decimal h0 _ => exact h0 rfl
    split at h
    · next hp =>
      obtain ⟨r, hr⟩ := isPrefixOf_two.mp hp
      obtain ⟨rfl, rest, rfl⟩ : c = '0' ∧ ∃ r, rest = 'x' :: r := by cases hr; exact ⟨rfl, _, rfl⟩
      simp only [List.drop_succ_cons, List.drop_zero] at h
      split at h
      · cases h
      next hne =>
      cases h
      rw [matchDigits_eq] at hne ⊢
      have htw := takeWhile_ne_nil hne
      have hlen := takeWhile_length_le (digitSet 16).contains rest
      have hb16 : LitBase 16 := .inr (.inr (.inr rfl))
      refine ⟨by omega, by simp; omega, ?_, ?_⟩
      · obtain ⟨v, hv⟩ := digits_of_all hb16 (all_takeWhile (digitSet 16).contains rest)
        refine ⟨v, ?_⟩
        rw [List.take_succ_cons, List.take_succ_cons, take_takeWhile]
        exact .hexadecimal htw hv
      · intro m k' v' hm hml hlit
        obtain ⟨m, rfl⟩ : ∃ m', m = m' + 2 := ⟨m - 2, by omega⟩
        rw [List.take_succ_cons, List.take_succ_cons] at hlit
        cases hlit with
        | hexadecimal _ hd =>
          have := takeWhile_maximal (p := (digitSet 16).contains) (s := rest) (m := m)
            (by simpa using hml) (all_of_digits hb16 hd)
          omega
        | octal _ hd => exact (octal_second hd).2 rfl
        | decimal h0 _ => exact h0 rfl
    next hnb hnx =>
    have hb8 : LitBase 8 := .inr (.inl rfl)
    have hb10 : LitBase 10 := .inr (.inr (.inl rfl))
    split at h
    · next hc0 =>
      subst hc0
      have hc : (digitSet 8).contains '0' = true := by decide
      rw [matchDigits_eq, List.takeWhile_cons, if_pos hc, List.length_cons] at h
      have hlen := takeWhile_length_le (digitSet 8).contains rest
      cases h
      refine ⟨by omega, by simp; omega, ?_, ?_⟩
      · split
        · next h1 =>
          have : (rest.takeWhile (digitSet 8).contains).length = 0 := by omega
          rw [this]
          exact ⟨0, .zero⟩
        · next h1 =>
          obtain ⟨v, hv⟩ := digits_of_all hb8 (all_takeWhile (digitSet 8).contains rest)
          refine ⟨v, ?_⟩
          rw [List.take_succ_cons, take_takeWhile]
          exact .octal (takeWhile_ne_nil (by omega)) hv
      · intro m k' v' hm hml hlit
        obtain ⟨m, rfl⟩ : ∃ m', m = m' + 1 := ⟨m - 1, by omega⟩
        rw [List.take_succ_cons] at hlit
        have hm0 : m ≠ 0 := by omega
        generalize hg : '0' :: List.take m rest = txt at hlit
        cases hlit with
        | binary _ hd =>
          cases rest <;> cases m <;> simp_all
        | hexadecimal _ hd =>
          cases rest <;> cases m <;> simp_all
        | octal _ hd =>
          cases hg
          have := takeWhile_maximal (p := (digitSet 8).contains) (s := rest) (m := m)
            (by simpa using hml) (all_of_digits hb8 hd)
          omega
        | zero =>
          cases rest <;> cases m <;> simp_all
        | decimal h0 _ => cases hg; exact h0 rfl
    · next hc0 =>
      rw [matchDigits_eq] at h
      cases h
      have hc : (digitSet 10).contains c = true := by
        rw [digitSet_contains hb10]
        refine ⟨c.toNat - '0'.toNat, by unfold digitOf; rw [if_pos hdig], ?_⟩
        have h1 := hdig.1
        have h2 := hdig.2
        simp only [show ('0').toNat = 48 from rfl, show ('9').toNat = 57 from rfl] at *
        omega
      have hlen := takeWhile_length_le (digitSet 10).contains (c :: rest)
      have hpos : (List.takeWhile (digitSet 10).contains (c :: rest))
          = c :: rest.takeWhile (digitSet 10).contains := by rw [List.takeWhile_cons, if_pos hc]
      refine ⟨by rw [hpos]; simp, hlen, ?_, ?_⟩
      · obtain ⟨v, hv⟩ := digits_of_all hb10 (all_takeWhile (digitSet 10).contains (c :: rest))
        refine ⟨v, ?_⟩
        rw [take_takeWhile]
        rw [hpos] at hv ⊢
        exact .decimal hc0 hv
      · intro m k' v' hm hml hlit
        have hm0 : 0 < m := by omega
        have hmax := takeWhile_maximal (p := (digitSet 10).contains) (s := c :: rest) (m := m) hml
        generalize hg : List.take m (c :: rest) = txt at hlit
        have hhead : ∀ d ds, txt = d :: ds → d = c := by
          intro d ds hd
          cases m with
          | zero => omega
          | succ m => rw [List.take_succ_cons, hd] at hg; cases hg; rfl
        cases hlit with
        | decimal _ hd =>
          have := hmax (by rw [hg]; exact all_of_digits hb10 hd)
          omega
        | _ => exact hc0 (hhead _ _ rfl).symm

/-- **C16, when nothing is matched.** `no_digits` is reported exactly for texts that do not start
with a digit, and then no prefix is a literal; a missing digit after a prefix is reported only if
no prefix longer than `0` is a literal. -/
theorem C16_match_complete {s : List Char} :
    (matchIntegerLiteral s = .no_digits → ∀ m k v, ¬ Literal k (s.take m) v) ∧
    (∀ k, matchIntegerLiteral s = .no_digits_following_prefix k →
      (k = .binary ∧ "0b".toList <+: s ∨ k = .hexadecimal ∧ "0x".toList <+: s) ∧
      ∀ m k v, 2 ≤ m → m ≤ s.length → ¬ Literal k (s.take m) v) := by
  constructor
  · intro h m k v hlit
    obtain ⟨c, cs, he, hr⟩ := literal_shape hlit
    match s with
    | [] => simp at he
    | a :: rest =>
      have hac : a = c := by cases m <;> simp at he; exact he.1
      subst hac
      rw [← isDecimalDigit_iff] at hr
      simp only [matchIntegerLiteral, hr, not_true_eq_false, if_false] at h
      (repeat' split at h) <;> cases h
  · intro k h
    match s with
    | [] => cases h
    | c :: rest =>
    simp only [matchIntegerLiteral] at h
    split at h
    · cases h
    split at h
    · next hp =>
      obtain ⟨r, hr⟩ := isPrefixOf_two.mp hp
      obtain ⟨rfl, rest, rfl⟩ : c = '0' ∧ ∃ r, rest = 'b' :: r := by cases hr; exact ⟨rfl, _, rfl⟩
      simp only [List.drop_succ_cons, List.drop_zero] at h
      split at h
      · next h0 =>
        cases h
        refine ⟨.inl ⟨rfl, by simp⟩, ?_⟩
        intro m k' v' hm hml hlit
        obtain ⟨m, rfl⟩ : ∃ m', m = m' + 2 := ⟨m - 2, by omega⟩
        rw [List.take_succ_cons, List.take_succ_cons] at hlit
        rw [matchDigits_eq] at h0
        cases hlit with
        | binary hne hd =>
          have := takeWhile_maximal (p := (digitSet 2).contains) (s := rest) (m := m)
            (by simpa using hml) (all_of_digits (.inl rfl) hd)
          have : m = 0 := by omega
          subst this
          exact hne rfl
        | octal _ hd => exact (octal_second hd).1 rfl
        | decimal h0 _ => exact h0 rfl
      · cases h
    split at h
    · next hp =>
      obtain ⟨r, hr⟩ := isPrefixOf_two.mp hp
      obtain ⟨rfl, rest, rfl⟩ : c = '0' ∧ ∃ r, rest = 'x' :: r := by cases hr; exact ⟨rfl, _, rfl⟩
      simp only [List.drop_succ_cons, List.drop_zero] at h
      split at h
      · next h0 =>
        cases h
        refine ⟨.inr ⟨rfl, by simp⟩, ?_⟩
        intro m k' v' hm hml hlit
        obtain ⟨m, rfl⟩ : ∃ m', m = m' + 2 := ⟨m - 2, by omega⟩
        rw [List.take_succ_cons, List.take_succ_cons] at hlit
        rw [matchDigits_eq] at h0
        cases hlit with
        | hexadecimal hne hd =>
          have := takeWhile_maximal (p := (digitSet 16).contains) (s := rest) (m := m)
            (by simpa using hml) (all_of_digits (.inr (.inr (.inr rfl))) hd)
          have : m = 0 := by omega
          subst this
          exact hne rfl
        | octal _ hd => exact (octal_second hd).2 rfl
        | decimal h0 _ => exact h0 rfl
      · cases h
    split at h <;> cases h

/-- **C16, matched literals parse to their value**, provided the value is below 2^127 and there
are no upper case hexadecimal digits.

Partial: the proviso about upper case is needed, see `C16_upper_case_unparsable`; the one about
the size too, see C15. -/
theorem C16_matched_literal_parses_partial {s : List Char} {n : Nat} {k : LiteralType}
    (h : matchIntegerLiteral s = .ok n k) (hl : LowerCase (s.take n)) :
    ∃ v : Nat, Literal k (s.take n) v ∧
      (v < 2 ^ 127 → parseIntegerLiteral (s.take n) = some (v : Int)) := by
  obtain ⟨-, -, ⟨v, hv⟩, -⟩ := C16_match_sound h
  exact ⟨v, hv, (C15_integer_literal_partial hv hl).1⟩

example : matchIntegerLiteral "0x1fz".toList = .ok 4 .hexadecimal := by decide

/-- **C16, violated: upper case.** `0xFF` is matched as a hexadecimal literal but has no value. -/
theorem C16_upper_case_unparsable :
    matchIntegerLiteral "0xFF".toList = .ok 4 .hexadecimal ∧
    Literal .hexadecimal "0xFF".toList 255 ∧
    parseIntegerLiteral "0xFF".toList = none := by
  refine ⟨by decide, .hexadecimal (by decide) ⟨[15, 15], by decide, by decide, by decide⟩,
    by decide⟩

/-! ## C17: comments and strings -/

theorem findChar_some {c : Char} {s : List Char} {n : Nat} :
    findChar c s = some n ↔ ∃ a b, s = a ++ c :: b ∧ c ∉ a ∧ n = a.length := by
  induction s generalizing n with
  | nil => simp [findChar]
  | cons d s ih =>
    unfold findChar
    by_cases h : d = c
    · subst h
      rw [if_pos rfl]
      constructor
      · intro h; cases h; exact ⟨[], s, rfl, by simp, rfl⟩
      · rintro ⟨a, b, he, hn, rfl⟩
        cases a with
        | nil => rfl
        | cons x a => cases he; simp at hn
    · rw [if_neg h]
      constructor
      · intro hm
        cases hf : findChar c s with
        | none => rw [hf] at hm; cases hm
        | some k =>
          rw [hf] at hm; cases hm
          obtain ⟨a, b, rfl, hn, rfl⟩ := ih.mp hf
          exact ⟨d :: a, b, rfl, by simp [hn, Ne.symm h], rfl⟩
      · rintro ⟨a, b, he, hn, rfl⟩
        cases a with
        | nil => cases he; exact absurd rfl h
        | cons x a =>
          cases he
          have := (ih (n := a.length)).mpr ⟨a, b, rfl, fun hh => hn (by simp [hh]), rfl⟩
          rw [this]; rfl

theorem findChar_none {c : Char} {s : List Char} : findChar c s = none ↔ c ∉ s := by
  induction s with
  | nil => simp [findChar]
  | cons d s ih =>
    unfold findChar
    by_cases h : d = c
    · simp [h]
    · rw [if_neg h]; simp [ih, Ne.symm h]

/-- **C17, whitespace.** The whitespace matched at the beginning of a text is the longest prefix of
spaces, tabs, carriage returns and newlines. -/
theorem C17_whitespace (s : List Char) :
    ∃ white rest, s = white ++ rest ∧ matchWhitespace s = white.length ∧
      (∀ c ∈ white, c = ' ' ∨ c = '\t' ∨ c = '\r' ∨ c = '\n') ∧
      ∀ c ∈ rest.head?, c ≠ ' ' ∧ c ≠ '\t' ∧ c ≠ '\r' ∧ c ≠ '\n' := by
  have hs : ∀ c : Char, [' ', '\t', '\r', '\n'].contains c = true ↔
      (c = ' ' ∨ c = '\t' ∨ c = '\r' ∨ c = '\n') := by
    intro c
    simp
  refine ⟨s.takeWhile [' ', '\t', '\r', '\n'].contains,
    s.dropWhile [' ', '\t', '\r', '\n'].contains, by rw [List.takeWhile_append_dropWhile],
    findFirstNotOf_takeWhile _ _, fun c hc => ?_, fun c hc => ?_⟩
  · have := List.all_takeWhile (l := s) (p := [' ', '\t', '\r', '\n'].contains)
    rw [List.all_eq_true] at this
    exact (hs c).1 (this c hc)
  · have := List.head?_dropWhile_not [' ', '\t', '\r', '\n'].contains s
    rw [Option.mem_def.1 hc] at this
    have h := mt (hs c).2 (by rw [this]; simp)
    exact ⟨fun e => h (by simp [e]), fun e => h (by simp [e]), fun e => h (by simp [e]),
      fun e => h (by simp [e])⟩

example : matchWhitespace " \t\r\n x ".toList = 5 ∧ matchWhitespace "  ".toList = 2 := by decide

/-- **C17, line comments.** A line comment extends to the first newline (exclusive) or, without
one, to the end of the text; nothing else is matched. -/
theorem C17_line_comment (s : List Char) :
    (∀ n, matchLineComment s = some ⟨n, true⟩ ↔
      ∃ body rest, s = '/' :: '/' :: body ++ '\n' :: rest ∧ '\n' ∉ body ∧ n = 2 + body.length) ∧
    (∀ n, matchLineComment s = some ⟨n, false⟩ ↔
      ∃ body, s = '/' :: '/' :: body ∧ '\n' ∉ body ∧ n = s.length) ∧
    (matchLineComment s = none ↔ ¬ ∃ body, s = '/' :: '/' :: body) := by
  by_cases hp : ∃ body, s = '/' :: '/' :: body
  · obtain ⟨t, rfl⟩ := hp
    have e : matchLineComment ('/' :: '/' :: t) = match findChar '\n' t with
        | none => some ⟨t.length + 2, false⟩
        | some e => some ⟨e + 2, true⟩ := rfl
    rw [e]
    cases hf : findChar '\n' t with
    | none =>
      have hn := findChar_none.mp hf
      refine ⟨fun n => ⟨fun h => (by cases h), ?_⟩, fun n => ⟨fun h => ?_, ?_⟩, by simp⟩
      · rintro ⟨body, rest, he, hb, rfl⟩
        cases he
        simp at hn
      · cases h; exact ⟨t, rfl, hn, rfl⟩
      · rintro ⟨body, he, hb, rfl⟩; rfl
    | some k =>
      obtain ⟨a, b, rfl, hn, rfl⟩ := findChar_some.mp hf
      refine ⟨fun n => ⟨fun h => ?_, ?_⟩, fun n => ⟨fun h => (by cases h), ?_⟩, by simp⟩
      · cases h; exact ⟨a, b, rfl, hn, by omega⟩
      · rintro ⟨body, rest, he, hb, rfl⟩
        have he' : a ++ '\n' :: b = body ++ '\n' :: rest := by simpa using he
        have := (findChar_some (c := '\n') (n := body.length)).mpr ⟨body, rest, he', hb, rfl⟩
        rw [this] at hf
        simp only [Option.some.injEq] at hf
        rw [← hf, Nat.add_comm 2]
      · rintro ⟨body, he, hb, rfl⟩
        cases he; simp at hb
  · have e : matchLineComment s = none := by
      unfold matchLineComment
      rw [if_pos]
      intro h
      exact hp (isPrefixOf_two.mp h)
    rw [e]
    refine ⟨fun n => ⟨fun h => (by cases h), ?_⟩, fun n => ⟨fun h => (by cases h), ?_⟩, by simpa using hp⟩
    · rintro ⟨body, rest, he, -⟩; exact absurd ⟨_, he⟩ hp
    · rintro ⟨body, he, -⟩; exact absurd ⟨_, he⟩ hp

theorem findSub_some {pat s : List Char} {n : Nat} :
    findSub pat s = some n ↔ n ≤ s.length ∧ pat <+: s.drop n ∧ ∀ m < n, ¬ pat <+: s.drop m := by
  induction s generalizing n with
  | nil =>
    unfold findSub
    cases pat with
    | nil => simp; constructor
             · rintro rfl; simp
             · rintro ⟨h, -⟩; exact h.symm
    | cons p ps => simp
  | cons d s ih =>
    unfold findSub
    by_cases h : pat.isPrefixOf (d :: s) = true
    · rw [if_pos h]
      rw [List.isPrefixOf_iff_prefix] at h
      constructor
      · intro e; cases e; exact ⟨by simp, by simpa using h, by simp⟩
      · rintro ⟨-, -, hm⟩
        cases n with
        | zero => rfl
        | succ n => exact absurd h (by simpa using hm 0 (by omega))
    · rw [if_neg h]
      rw [List.isPrefixOf_iff_prefix] at h
      cases n with
      | zero => simp [h]
      | succ n =>
        have : Option.map (· + 1) (findSub pat s) = some (n + 1) ↔ findSub pat s = some n := by
          cases findSub pat s <;> simp
        rw [this, ih]
        simp only [List.length_cons, Nat.add_le_add_iff_right, List.drop_succ_cons]
        refine and_congr_right fun _ => and_congr_right fun _ => ?_
        constructor
        · intro hm m hmn
          cases m with
          | zero => simpa using h
          | succ m => simpa using hm m (by omega)
        · intro hm m hmn
          simpa using hm (m + 1) (by omega)

theorem findSub_none {pat s : List Char} (hne : pat ≠ []) :
    findSub pat s = none ↔ ¬ pat <:+: s := by
  induction s with
  | nil => simp [findSub, hne]
  | cons d s ih =>
    unfold findSub
    by_cases h : pat.isPrefixOf (d :: s) = true
    · rw [if_pos h]
      rw [List.isPrefixOf_iff_prefix] at h
      simp [h.isInfix]
    · rw [if_neg h]
      rw [List.isPrefixOf_iff_prefix] at h
      simp only [Option.map_eq_none_iff, ih, List.infix_cons_iff, h, false_or]

/-- **C17, block comments.** A block comment extends to the first `*/` after its opening `/*`
(inclusive); without one, it is reported as unterminated with the length of the whole text;
nothing else is matched. -/
theorem C17_block_comment (s : List Char) :
    (∀ n, matchBlockComment s = some ⟨n, true⟩ ↔
      ∃ body rest, s = '/' :: '*' :: (body ++ '*' :: '/' :: rest) ∧
        ¬ ['*', '/'] <:+: body ++ ['*'] ∧ n = body.length + 4) ∧
    (∀ n, matchBlockComment s = some ⟨n, false⟩ ↔
      ∃ body, s = '/' :: '*' :: body ∧ ¬ ['*', '/'] <:+: body ∧ n = s.length) ∧
    (matchBlockComment s = none ↔ ¬ ∃ body, s = '/' :: '*' :: body) := by
  by_cases hp : ∃ body, s = '/' :: '*' :: body
  · obtain ⟨t, rfl⟩ := hp
    have e : matchBlockComment ('/' :: '*' :: t) = match findSub ['*', '/'] t with
        | none => some ⟨t.length + 2, false⟩
        | some e => some ⟨e + 2 + 2, true⟩ := rfl
    rw [e]
    have first : ∀ body rest, t = body ++ '*' :: '/' :: rest → ¬ ['*', '/'] <:+: body ++ ['*'] →
        findSub ['*', '/'] t = some body.length := by
      rintro body rest rfl hb
      rw [findSub_some]
      refine ⟨by simp, by simp, ?_⟩
      intro m hm hpre
      apply hb
      rw [List.drop_append_of_le_length (by omega)] at hpre
      obtain ⟨r, hr⟩ := hpre
      have hd : body.drop m ≠ [] := by simp; omega
      have hlen : 1 ≤ (body.drop m).length := by simp; omega
      have : ['*', '/'] <+: body.drop m ++ ['*'] := by
        match hdm : body.drop m with
        | [] => exact absurd hdm hd
        | [x] => rw [hdm] at hr; simp at hr
        | x :: y :: l =>
          rw [hdm] at hr
          simp at hr
          obtain ⟨rfl, rfl, -⟩ := hr
          exact ⟨l ++ ['*'], by simp⟩
      have h2 : body.drop m ++ ['*'] <:+ body ++ ['*'] := by
        refine ⟨body.take m, ?_⟩
        rw [← List.append_assoc, List.take_append_drop]
      exact this.isInfix.trans h2.isInfix
    cases hf : findSub ['*', '/'] t with
    | none =>
      have hn := (findSub_none (by simp)).mp hf
      refine ⟨fun n => ⟨fun h => (by cases h), ?_⟩, fun n => ⟨fun h => ?_, ?_⟩, by simp⟩
      · rintro ⟨body, rest, he, hb, rfl⟩
        cases he
        rw [first body rest rfl hb] at hf; cases hf
      · cases h; exact ⟨t, rfl, hn, rfl⟩
      · rintro ⟨body, he, hb, rfl⟩; rfl
    | some k =>
      have hf' := hf
      rw [findSub_some] at hf'
      obtain ⟨hk, ⟨r, hr⟩, hmin⟩ := hf'
      refine ⟨fun n => ⟨fun h => ?_, ?_⟩, fun n => ⟨fun h => (by cases h), ?_⟩, by simp⟩
      · cases h
        refine ⟨t.take k, r, ?_, ?_, ?_⟩
        · simp only [List.cons.injEq, true_and]
          have := List.take_append_drop k t
          rw [← hr] at this
          simpa using this.symm
        · rintro ⟨a, b, hab⟩
          have hk' : (t.take k).length = k := by simp; omega
          have hlen := congrArg List.length hab
          simp only [List.length_append, hk', List.length_cons, List.length_nil] at hlen
          refine hmin a.length (by omega) ?_
          have ht : t = (t.take k ++ ['*']) ++ '/' :: r := by
            have := List.take_append_drop k t
            rw [← hr] at this
            simpa using this.symm
          rw [← hab] at ht
          rw [ht]
          simp
        · simp; omega
      · rintro ⟨body, rest, he, hb, rfl⟩
        have he' : t = body ++ '*' :: '/' :: rest := by simpa using he
        rw [first body rest he' hb] at hf; cases hf
        rfl
      · rintro ⟨body, he, hb, rfl⟩
        cases he
        have := (findSub_none (pat := ['*', '/']) (by simp)).mpr hb
        rw [this] at hf; cases hf
  · have e : matchBlockComment s = none := by
      unfold matchBlockComment
      rw [if_pos]
      intro h
      exact hp (isPrefixOf_two.mp h)
    rw [e]
    refine ⟨fun n => ⟨fun h => (by cases h), ?_⟩, fun n => ⟨fun h => (by cases h), ?_⟩,
      by simpa using hp⟩
    · rintro ⟨body, rest, he, -⟩; exact absurd ⟨_, he⟩ hp
    · rintro ⟨body, he, -⟩; exact absurd ⟨_, he⟩ hp

theorem stringLoop_some {cs : List Char} {i : Nat} :
    (∀ j, stringLoop cs i false = some j ↔
      ∃ body rest, cs = body ++ '"' :: rest ∧ StringBody body ∧ j = i + body.length) ∧
    (∀ j, stringLoop cs i true = some j ↔
      ∃ c body rest, cs = c :: (body ++ '"' :: rest) ∧ StringBody body ∧ j = i + 1 + body.length) := by
  induction cs generalizing i with
  | nil => simp [stringLoop]
  | cons c cs ih =>
    constructor
    · intro j
      unfold stringLoop
      simp only [Bool.false_eq_true, if_false]
      by_cases h1 : c = '\\'
      · subst h1
        rw [if_pos rfl, (ih (i := i + 1)).2]
        constructor
        · rintro ⟨c, body, rest, rfl, hb, rfl⟩
          exact ⟨'\\' :: c :: body, rest, rfl, .escape hb, by simp; omega⟩
        · rintro ⟨body, rest, he, hb, rfl⟩
          cases hb with
          | nil => simp at he
          | plain h1 h2 _ => cases he; exact absurd rfl h2
          | @escape d body hb =>
            cases he
            exact ⟨d, body, rest, rfl, hb, by simp; omega⟩
      · rw [if_neg h1]
        by_cases h2 : c = '"'
        · subst h2
          rw [if_pos rfl]
          constructor
          · intro h; cases h; exact ⟨[], cs, rfl, .nil, rfl⟩
          · rintro ⟨body, rest, he, hb, rfl⟩
            cases hb with
            | nil => rfl
            | plain h1 h2 _ => cases he; exact absurd rfl h1
            | escape _ => cases he
        · rw [if_neg h2, (ih (i := i + 1)).1]
          constructor
          · rintro ⟨body, rest, rfl, hb, rfl⟩
            exact ⟨c :: body, rest, rfl, .plain h2 h1 hb, by simp; omega⟩
          · rintro ⟨body, rest, he, hb, rfl⟩
            cases hb with
            | nil => cases he; exact absurd rfl h2
            | @plain d body _ _ hb => cases he; exact ⟨body, rest, rfl, hb, by simp; omega⟩
            | escape _ => cases he; exact absurd rfl h1
    · intro j
      unfold stringLoop
      rw [if_pos rfl, (ih (i := i + 1)).1]
      constructor
      · rintro ⟨body, rest, rfl, hb, rfl⟩; exact ⟨c, body, rest, rfl, hb, rfl⟩
      · rintro ⟨d, body, rest, he, hb, rfl⟩; cases he; exact ⟨body, rest, rfl, hb, rfl⟩

/-- **C17, string literals.** A string literal extends from a quote to the first quote that is not
part of an escape pair; without one it is reported as unterminated with the length of the whole
text; nothing else is matched. -/
theorem C17_string_literal (s : List Char) :
    (∀ n, matchStringLiteral s = some ⟨n, true⟩ ↔
      ∃ body rest, s = '"' :: (body ++ '"' :: rest) ∧ StringBody body ∧ n = body.length + 2) ∧
    (∀ n, matchStringLiteral s = some ⟨n, false⟩ ↔
      (∃ t, s = '"' :: t) ∧ n = s.length ∧
        ¬ ∃ body rest, s = '"' :: (body ++ '"' :: rest) ∧ StringBody body) ∧
    (matchStringLiteral s = none ↔ ¬ ∃ t, s = '"' :: t) := by
  by_cases hp : ∃ t, s = '"' :: t
  · obtain ⟨t, rfl⟩ := hp
    have e : matchStringLiteral ('"' :: t) = match stringLoop t 1 false with
        | some i => some ⟨i + 1, true⟩
        | none => some ⟨t.length + 1, false⟩ := rfl
    rw [e]
    have key := (stringLoop_some (cs := t) (i := 1)).1
    cases hf : stringLoop t 1 false with
    | none =>
      have hno : ¬ ∃ body rest, t = body ++ '"' :: rest ∧ StringBody body := by
        rintro ⟨body, rest, h1, h2⟩
        have := (key (1 + body.length)).mpr ⟨body, rest, h1, h2, rfl⟩
        rw [hf] at this; cases this
      refine ⟨fun n => ⟨fun h => (by cases h), ?_⟩, fun n => ⟨fun h => ?_, ?_⟩, by simp⟩
      · rintro ⟨body, rest, he, hb, rfl⟩
        exact absurd ⟨body, rest, by simpa using he, hb⟩ hno
      · cases h; refine ⟨⟨t, rfl⟩, rfl, ?_⟩
        rintro ⟨body, rest, he, hb⟩
        exact hno ⟨body, rest, by simpa using he, hb⟩
      · rintro ⟨-, rfl, -⟩; rfl
    | some j =>
      obtain ⟨body, rest, rfl, hb, rfl⟩ := (key j).mp hf
      refine ⟨fun n => ⟨fun h => ?_, ?_⟩, fun n => ⟨fun h => (by cases h), ?_⟩, by simp⟩
      · cases h; exact ⟨body, rest, rfl, hb, by omega⟩
      · rintro ⟨body', rest', he, hb', rfl⟩
        have := (key (1 + body'.length)).mpr ⟨body', rest', by simpa using he, hb', rfl⟩
        rw [hf] at this
        simp only [Option.some.injEq] at this
        simp only [Option.some.injEq, TextMatch.mk.injEq, and_true]
        omega
      · rintro ⟨-, -, hno⟩; exact absurd ⟨body, rest, rfl, hb⟩ hno
  · have e : matchStringLiteral s = none := by
      unfold matchStringLiteral
      split
      · next cs => exact absurd ⟨cs, rfl⟩ hp
      · rfl
    rw [e]
    refine ⟨fun n => ⟨fun h => (by cases h), ?_⟩, fun n => ⟨fun h => (by cases h), ?_⟩,
      by simpa using hp⟩
    · rintro ⟨body, rest, he, -⟩; exact absurd ⟨_, he⟩ hp
    · rintro ⟨he, -⟩; exact absurd he hp

example : matchStringLiteral "\"a\\\"b\" c".toList = some ⟨6, true⟩ ∧
    matchBlockComment "/**/ */".toList = some ⟨4, true⟩ ∧
    matchBlockComment "/*/ x".toList = some ⟨5, false⟩ ∧
    matchLineComment "// x\ny".toList = some ⟨4, true⟩ := by decide

/-! ## C18: identifiers -/

theorem ident_iff_all (c : Char) (cs : List Char) :
    Ident (c :: cs) ↔ ¬ InRange '0' c '9' ∧ ∀ d ∈ c :: cs, IdentPart d := by
  constructor
  · rintro ⟨h1, h2⟩
    refine ⟨?_, ?_⟩
    · intro hr
      revert h1 hr
      refine char_forall (P := fun c => IdentStart c → InRange '0' c '9' → False)
        (by decide +kernel) ?_ c
      intro c hc h1 _
      exact identPart_big hc (.inl h1)
    · intro d hd
      rcases List.mem_cons.mp hd with rfl | h
      · exact .inl h1
      · exact h2 d h
  · rintro ⟨h1, h2⟩
    refine ⟨?_, fun d hd => h2 d (by simp [hd])⟩
    rcases h2 c (by simp) with h | h
    · exact h
    · exact absurd h h1

/-- **C18.** `match_identifier` returns the length of the longest prefix that is an identifier,
and zero exactly if no prefix is. -/
theorem C18_match_identifier (s : List Char) :
    (matchIdentifier s = 0 ∧ ∀ m, ¬ Ident (s.take m)) ∨
    (0 < matchIdentifier s ∧ matchIdentifier s ≤ s.length ∧ Ident (s.take (matchIdentifier s)) ∧
      ∀ m, matchIdentifier s < m → m ≤ s.length → ¬ Ident (s.take m)) := by
  match s with
  | [] => left; exact ⟨rfl, fun m => by simp [Ident]⟩
  | c :: cs =>
    unfold matchIdentifier
    simp only
    have cont : ∀ d, identifierCharacters.contains d = true ↔ IdentPart d :=
      identifierCharacters_contains
    by_cases hd : isDecimalDigit c = true
    · left
      rw [if_pos hd]
      refine ⟨rfl, fun m hm => ?_⟩
      cases m with
      | zero => exact hm
      | succ m =>
        rw [List.take_succ_cons, ident_iff_all] at hm
        exact hm.1 ((isDecimalDigit_iff c).mp hd)
    · rw [if_neg hd, findFirstNotOf_takeWhile]
      have hd' : ¬ InRange '0' c '9' := fun h => hd ((isDecimalDigit_iff c).mpr h)
      have hle := takeWhile_length_le identifierCharacters.contains (c :: cs)
      have hmax : ∀ m, m ≤ (c :: cs).length → Ident ((c :: cs).take m) →
          m ≤ ((c :: cs).takeWhile identifierCharacters.contains).length := by
        intro m hm hi
        cases m with
        | zero => omega
        | succ m =>
          apply takeWhile_maximal hm
          rw [List.take_succ_cons] at hi ⊢
          rw [ident_iff_all] at hi
          exact fun d hd => (cont d).mpr (hi.2 d hd)
      by_cases h0 : ((c :: cs).takeWhile identifierCharacters.contains).length = 0
      · left
        refine ⟨h0, fun m hm => ?_⟩
        by_cases hml : m ≤ (c :: cs).length
        · have := hmax m hml hm
          have : m = 0 := by omega
          subst this; exact hm
        · rw [List.take_of_length_le (by omega)] at hm
          have := hmax (c :: cs).length (by omega) (by rw [List.take_length]; exact hm)
          rw [h0] at this
          simp at this
      · right
        refine ⟨by omega, hle, ?_, fun m hm hml hi => ?_⟩
        · rw [take_takeWhile]
          have hc : identifierCharacters.contains c = true := by
            rw [List.takeWhile_cons] at h0
            split at h0
            · assumption
            · exact absurd rfl h0
          have hall := all_takeWhile identifierCharacters.contains (c :: cs)
          rw [List.takeWhile_cons, if_pos hc] at hall ⊢
          rw [ident_iff_all]
          exact ⟨hd', fun d hdm => (cont d).mp (hall d hdm)⟩
        · have := hmax m hml hi
          omega

/-- **C18, whole texts.** -/
theorem C18_is_identifier (s : List Char) : isIdentifier s = true ↔ Ident s := by
  match s with
  | [] => simp [isIdentifier, isIdentifierIn, Ident]
  | c :: cs =>
    rw [ident_iff_all]
    simp only [isIdentifier, isIdentifierIn, Bool.and_eq_true, Bool.not_eq_true',
      Option.isNone_iff_eq_none, findFirstNotOf_none, identifierCharacters_contains]
    rw [← isDecimalDigit_iff]
    simp

/-- **C18, relation of the two.** -/
theorem C18_is_identifier_iff_matched (s : List Char) :
    isIdentifier s = true ↔ s ≠ [] ∧ matchIdentifier s = s.length := by
  rw [C18_is_identifier]
  rcases C18_match_identifier s with ⟨h0, hno⟩ | ⟨hpos, hle, hi, hmax⟩
  · constructor
    · intro h; exact absurd (by rw [List.take_length]; exact h) (hno s.length)
    · rintro ⟨hne, he⟩
      rw [h0] at he
      exact absurd (List.eq_nil_of_length_eq_zero he.symm) hne
  · constructor
    · intro h
      refine ⟨by rintro rfl; exact h, ?_⟩
      by_cases hlt : matchIdentifier s < s.length
      · exact absurd (by rw [List.take_length]; exact h) (hmax s.length hlt (by omega))
      · omega
    · rintro ⟨-, he⟩
      rw [he, List.take_length] at hi
      exact hi

example : matchIdentifier "ab_1-c".toList = 4 ∧ Ident "ab_1".toList ∧
    matchIdentifier "1a".toList = 0 := by
  refine ⟨by decide, ?_, by decide⟩
  show IdentStart 'a' ∧ ∀ d ∈ ['b', '_', '1'], IdentPart d
  decide

end Bms
