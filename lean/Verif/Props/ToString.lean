import Verif.Model.ToString
import Verif.Model.Text
import Verif.Spec.Text
import Verif.Spec.ToString
import Verif.Props.Text

/-!
# C68: decimal text of 128-bit integers
-/

namespace Bms

open Spec

/-! ## `std::to_string` -/

theorem digitOf_decimalDigit {d : Nat} (h : d < 10) : digitOf (decimalDigit d) = some d := by
  have : ∀ d < 10, digitOf (decimalDigit d) = some d := by decide
  exact this d h

theorem decimalDigit_ne_zero {d : Nat} (h : d < 10) (h0 : d ≠ 0) : decimalDigit d ≠ '0' := by
  have : ∀ d < 10, d ≠ 0 → decimalDigit d ≠ '0' := by decide
  exact this d h h0

theorem stdToString_small {n : Nat} (h : n < 10) : stdToString n = [decimalDigit n] := by
  rw [stdToString, if_pos h]

theorem stdToString_big {n : Nat} (h : ¬ n < 10) :
    stdToString n = stdToString (n / 10) ++ [decimalDigit (n % 10)] := by
  rw [stdToString, if_neg h]

theorem positional_append (base : Nat) (a b : List Nat) :
    positional base (a ++ b) = positional base a * base ^ b.length + positional base b := by
  induction a with
  | nil => simp [positional]
  | cons d a ih =>
    simp only [List.cons_append, positional, ih, List.length_append, Nat.pow_add, Nat.add_mul,
      Nat.mul_assoc, Nat.add_assoc]

/-- Joining texts of digits shifts the value of the first. -/
theorem Digits.append {base : Nat} {s t : List Char} {v w : Nat} (h : Digits base s v)
    (h' : Digits base t w) : Digits base (s ++ t) (v * base ^ t.length + w) := by
  obtain ⟨ds, h1, h2, h3⟩ := h
  obtain ⟨es, h4, h5, h6⟩ := h'
  have hl : t.length = es.length := by
    have := congrArg List.length h4
    simpa using this
  refine ⟨ds ++ es, by rw [List.map_append, List.map_append, h1, h4], fun d hd => ?_, ?_⟩
  · rcases List.mem_append.1 hd with hd | hd
    · exact h2 d hd
    · exact h5 d hd
  · rw [positional_append, h3, h6, hl]

theorem stdToString_digits (n : Nat) : Digits 10 (stdToString n) n := by
  induction n using Nat.strongRecOn with
  | _ n ih =>
    by_cases h : n < 10
    · rw [stdToString_small h]
      exact ⟨[n], by simp [digitOf_decimalDigit h], by simpa using h, by simp [positional]⟩
    · rw [stdToString_big h]
      have h1 := ih (n / 10) (by omega)
      have hd : n % 10 < 10 := by omega
      have h2 : Digits 10 [decimalDigit (n % 10)] (n % 10) :=
        ⟨[n % 10], by simp [digitOf_decimalDigit hd], by simpa using hd, by simp [positional]⟩
      have := Digits.append h1 h2
      simpa [show n / 10 * 10 + n % 10 = n by omega] using this

/-- The first digit is not zero, except for zero. -/
theorem stdToString_head {n : Nat} (hn : n ≠ 0) :
    ∃ c t, stdToString n = c :: t ∧ c ≠ '0' := by
  induction n using Nat.strongRecOn with
  | _ n ih =>
    by_cases h : n < 10
    · rw [stdToString_small h]
      exact ⟨_, [], rfl, decimalDigit_ne_zero h hn⟩
    · rw [stdToString_big h]
      obtain ⟨c, t, h1, h2⟩ := ih (n / 10) (by omega) (by omega)
      exact ⟨c, t ++ [decimalDigit (n % 10)], by rw [h1]; rfl, h2⟩

theorem stdToString_literal (n : Nat) : Literal .decimal (stdToString n) n := by
  by_cases hn : n = 0
  · subst hn
    rw [stdToString_small (by omega)]
    exact .zero
  · obtain ⟨c, t, h1, h2⟩ := stdToString_head hn
    have := stdToString_digits n
    rw [h1] at this ⊢
    exact .decimal h2 this

/-- The number of digits. -/
theorem stdToString_length {n k : Nat} (h : n < 10 ^ k) (hk : 0 < k) : (stdToString n).length ≤ k := by
  induction k generalizing n with
  | zero => omega
  | succ k ih =>
    by_cases hn : n < 10
    · rw [stdToString_small hn]; simp
    · rw [stdToString_big hn]
      have hk : 0 < k := by
        rcases Nat.eq_zero_or_pos k with hk | hk
        · subst hk; simp at h; omega
        · exact hk
      have := ih (n := n / 10) (by rw [Nat.pow_succ] at h; omega) hk
      simpa using this

theorem lt_pow_length (n : Nat) : n < 10 ^ (stdToString n).length := by
  induction n using Nat.strongRecOn with
  | _ n ih =>
    by_cases h : n < 10
    · rw [stdToString_small h]; simpa using h
    · rw [stdToString_big h]
      have := ih (n / 10) (by omega)
      simp only [List.length_append, List.length_singleton, Nat.pow_succ]
      omega

/-! ## `to_string` -/

theorem toStringUint_small {x : Nat} (h : x ≤ 2 ^ 64 - 1) : toStringUint x = stdToString x := by
  rw [toStringUint, if_pos h]

theorem toStringUint_big {x : Nat} (h : ¬ x ≤ 2 ^ 64 - 1) :
    toStringUint x = toStringUint (x / exp10_19) ++ stdToString (x % exp10_19) := by
  rw [toStringUint, if_neg h]

/-- **C68.** What is written for a number is always the decimal literal of some number; this is the
number itself exactly if no part of 19 digits, counted from the end, begins with a zero (numbers below
`2 ^ 64` are not split into parts), and a smaller number otherwise. -/
theorem C68_to_string_partial (x : Nat) :
    ∃ v, Literal .decimal (toStringUint x) v ∧ v ≤ x ∧ (v = x ↔ WholeParts x) := by
  induction x using Nat.strongRecOn with
  | _ x ih =>
    by_cases h : x ≤ 2 ^ 64 - 1
    · rw [toStringUint_small h]
      exact ⟨x, stdToString_literal x, Nat.le_refl _, fun _ => .small (by omega), fun _ => rfl⟩
    · rw [toStringUint_big h]
      have he : exp10_19 = 10 ^ 19 := by decide
      rw [he]
      obtain ⟨v, h1, h2, h3⟩ := ih (x / 10 ^ 19) (Nat.div_lt_self (by omega) (by decide))
      have hq : 0 < x / 10 ^ 19 := Nat.div_pos (by omega) (by decide)
      have hlen : (stdToString (x % 10 ^ 19)).length ≤ 19 :=
        stdToString_length (Nat.mod_lt _ (by decide)) (by decide)
      generalize hr : x % 10 ^ 19 = r at *
      generalize hqq : x / 10 ^ 19 = q at *
      have hx : x = q * 10 ^ 19 + r := by
        have := Nat.div_add_mod x (10 ^ 19)
        rw [hr, hqq] at this
        omega
      have hd := stdToString_digits r
      have hlow := lt_pow_length r
      -- the text of the higher part is not `0`
      have hv : 0 < v ∧ ∃ c t, toStringUint q = c :: t ∧ c ≠ '0' ∧ Digits 10 (c :: t) v := by
        have hnz : ∀ q : Nat, 0 < q → ∃ c t, toStringUint q = c :: t ∧ c ≠ '0' := by
          intro q
          induction q using Nat.strongRecOn with
          | _ q ihq =>
            intro hq
            by_cases hs : q ≤ 2 ^ 64 - 1
            · rw [toStringUint_small hs]
              exact stdToString_head (by omega)
            · rw [toStringUint_big hs]
              obtain ⟨c, t, h4, h5⟩ := ihq (q / exp10_19) (Nat.div_lt_self hq (by decide))
                (Nat.div_pos (by rw [he]; omega) (by decide))
              exact ⟨c, t ++ stdToString (q % exp10_19), by rw [h4]; rfl, h5⟩
        obtain ⟨c, t, h4, h5⟩ := hnz q hq
        rw [h4] at h1
        cases h1 with
        | zero => exact absurd rfl h5
        | decimal hc hdg =>
          refine ⟨?_, c, t, h4, hc, hdg⟩
          obtain ⟨ds, h6, h7, h8⟩ := hdg
          cases ds with
          | nil => simp at h6
          | cons d ds =>
            simp only [List.map_cons, List.cons.injEq] at h6
            rw [← h8, positional]
            have : d ≠ 0 := by
              intro h0
              subst h0
              have hz : ∀ c : Char, digitOf c = some 0 → c = '0' := by
                intro c hc
                unfold digitOf at hc
                split at hc
                · next hh =>
                  obtain ⟨ha, hb⟩ := hh
                  have : c.toNat - '0'.toNat = 0 := by simpa using hc
                  have h9 : '0'.toNat ≤ c.toNat := ha
                  have h10 : c.toNat = '0'.toNat := by omega
                  rw [← Char.ofNat_toNat c, h10]
                  rfl
                · split at hc
                  · next hh => exfalso; simp at hc
                  · split at hc
                    · next hh => exfalso; simp at hc
                    · simp at hc
              exact hc (hz c h6.1)
            have : 0 < d * 10 ^ ds.length := Nat.mul_pos (by omega) (Nat.pow_pos (by decide))
            omega
      obtain ⟨hvpos, c, t, htext, hc, hdg⟩ := hv
      rw [htext]
      refine ⟨v * 10 ^ (stdToString r).length + r, ?_, ?_, ?_, ?_⟩
      · exact .decimal hc (Digits.append hdg hd)
      · have h5 : v * 10 ^ (stdToString r).length ≤ q * 10 ^ 19 :=
          Nat.mul_le_mul h2 (Nat.pow_le_pow_right (by decide) hlen)
        omega
      · intro heq
        have h5 : v * 10 ^ (stdToString r).length = q * 10 ^ 19 := by omega
        have hl19 : (stdToString r).length = 19 := by
          rcases Nat.lt_or_ge (stdToString r).length 19 with hlt | hge
          · have : v * 10 ^ (stdToString r).length < q * 10 ^ 19 :=
              calc v * 10 ^ (stdToString r).length < v * 10 ^ 19 :=
                    Nat.mul_lt_mul_of_pos_left (Nat.pow_lt_pow_right (by decide) hlt) hvpos
                _ ≤ q * 10 ^ 19 := Nat.mul_le_mul_right _ h2
            omega
          · omega
        rw [hl19] at h5
        have hvq : v = q := Nat.eq_of_mul_eq_mul_right (by decide) h5
        refine .big (by omega) ?_ (by rw [hqq]; exact h3.1 hvq)
        rw [hr]
        apply Nat.le_of_not_lt
        intro hlt
        have := stdToString_length (n := r) (k := 18) hlt (by decide)
        omega
      · intro hw
        cases hw with
        | small hs => omega
        | big hb hpart hrest =>
          rw [hr] at hpart
          rw [hqq] at hrest
          have hvq := h3.2 hrest
          have hl19 : (stdToString r).length = 19 := by
            apply Nat.le_antisymm hlen
            apply Nat.le_of_not_lt
            intro hlt
            have : 10 ^ (stdToString r).length ≤ 10 ^ 18 := Nat.pow_le_pow_right (by decide) (by omega)
            omega
          rw [hl19, hvq, hx]

/-- Numbers of up to 64 bits are written correctly. -/
theorem C68_small {x : Nat} (h : x < 2 ^ 64) : Literal .decimal (toStringUint x) x := by
  rw [toStringUint_small (by omega)]
  exact stdToString_literal x

/-- A negative number is written as a minus sign and its absolute value. -/
theorem C68_negative {x : Int} (h : InI128 x) (hx : x < 0) :
    toStringInt x = '-' :: toStringUint x.natAbs := by
  obtain ⟨h1, h2⟩ := h
  rw [toStringInt, if_neg (by omega)]
  congr 2
  unfold toU128
  omega

theorem C68_nonnegative {x : Int} (h : InI128 x) (hx : 0 ≤ x) :
    toStringInt x = toStringUint x.natAbs := by
  obtain ⟨h1, h2⟩ := h
  rw [toStringInt, if_pos hx]
  congr 1
  unfold toU128
  omega

theorem digits_unique {base : Nat} {t : List Char} {v w : Nat} (h : Digits base t v) (h' : Digits base t w) :
    v = w := by
  obtain ⟨ds, h1, _, h2⟩ := h
  obtain ⟨es, h3, _, h4⟩ := h'
  have : ds = es := by
    have h5 := h1.symm.trans h3
    exact (List.map_inj_right (fun _ _ h => Option.some.inj h)).1 h5
  rw [← h2, ← h4, this]

theorem decimal_unique {t : List Char} {v w : Nat} (h : Literal .decimal t v) (h' : Literal .decimal t w) :
    v = w := by
  cases h with
  | zero =>
    cases h' with
    | zero => rfl
    | decimal hc _ => exact absurd rfl hc
  | decimal hc hd =>
    cases h' with
    | zero => exact absurd rfl hc
    | decimal _ hd' => exact digits_unique hd hd'

/-- The violation, for all numbers of more than 64 bits whose last 19 digits begin with a zero: what is
written is not the number. -/
theorem C68_violation {x : Nat} (h : 2 ^ 64 ≤ x) (hz : x % 10 ^ 19 < 10 ^ 18) :
    ¬ Literal .decimal (toStringUint x) x := by
  intro hl
  obtain ⟨v, h1, _, h3⟩ := C68_to_string_partial x
  have hu := (decimal_unique h1 hl)
  cases h3.1 hu with
  | small hs => omega
  | big _ hp _ => omega

/-- So different numbers are written with the same text. -/
theorem C68_same_text_violation : toStringUint (10 ^ 20) = "100".toList ∧ toStringUint 100 = "100".toList := by
  have h100 : stdToString 100 = "100".toList := by
    simp [stdToString]; decide
  refine ⟨?_, by rw [toStringUint_small (by decide), h100]⟩
  have h10 : stdToString 10 = "10".toList := by
    simp [stdToString]; decide
  have h0 : stdToString 0 = "0".toList := by
    simp [stdToString]; decide
  rw [toStringUint_big (by decide), show 10 ^ 20 / exp10_19 = 10 by decide,
    show 10 ^ 20 % exp10_19 = 0 by decide, toStringUint_small (by decide), h10, h0]
  decide

/-- Non-triviality: a number of more than 64 bits that is written correctly. -/
theorem C68_sample : WholeParts (2 ^ 127) ∧ 2 ^ 64 ≤ 2 ^ 127 := by
  refine ⟨.big (by decide) (by decide) (.small (by decide)), by decide⟩

end Bms
