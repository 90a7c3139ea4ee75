import Verif.Model.Operations
import Verif.Spec.Values

/-! Helper lemmas about 128-bit casts, masks and conversions. -/

namespace Bms

open Spec

theorem toU128_lt (x : Int) : toU128 x < 2 ^ 128 := by unfold toU128; omega

theorem toU128_of_nonneg {x : Int} (h0 : 0 ≤ x) (h1 : x < 2 ^ 128) : toU128 x = x.toNat := by
  unfold toU128; omega

theorem toI128_of_lt {n : Nat} (h : n < 2 ^ 127) : toI128 n = n := by
  unfold toI128; split <;> omega

theorem toI128_inI128 (n : Nat) : InI128 (toI128 n) := by
  unfold toI128 InI128; split <;> omega

theorem toI128_toU128 {x : Int} (h : InI128 x) : toI128 (toU128 x) = x := by
  unfold toI128 toU128 InI128 at *; split <;> omega

theorem two_pow_lt_of_lt {w : Nat} (hw : w < 128) : (2 : Nat) ^ w ≤ 2 ^ 127 :=
  Nat.pow_le_pow_right (by decide) (by omega)

theorem two_pow_lt_of_lt_int {w : Nat} (hw : w < 128) : (2 : Int) ^ w ≤ 2 ^ 127 := by
  have := two_pow_lt_of_lt hw
  exact_mod_cast this

theorem mask_eq {w : Nat} (hw : w < 128) :
    ((1 <<< w) % 2 ^ 128 + (2 ^ 128 - 1)) % 2 ^ 128 = 2 ^ w - 1 := by
  have h1 := two_pow_lt_of_lt hw
  have h2 : 0 < 2 ^ w := Nat.two_pow_pos w
  rw [Nat.one_shiftLeft]
  omega

theorem getMask_uint {w : Nat} (hw : w < 128) : (CType.uint w).getMask = 2 ^ w - 1 := by
  have h : w ≠ 128 := by omega
  simp only [CType.getMask, h, if_false, mask_eq hw]

theorem and_mask (n w : Nat) : n &&& (2 ^ w - 1) = n % 2 ^ w := Nat.and_two_pow_sub_one_eq_mod n w

theorem uint_toU128 {w : Nat} {x : Int} (hw : w < 128) (h0 : 0 ≤ x) (h1 : x < 2 ^ w) :
    toU128 x = x.toNat := by
  have := two_pow_lt_of_lt_int hw
  exact toU128_of_nonneg h0 (by omega)

theorem toI128_mod_two_pow {w : Nat} (hw : w < 128) (n : Nat) :
    toI128 (n % 2 ^ w) = ((n % 2 ^ w : Nat) : Int) := by
  have := two_pow_lt_of_lt hw
  have h2 := Nat.mod_lt n (Nat.two_pow_pos w)
  exact toI128_of_lt (by omega)

theorem transformUint_eq {w : Nat} (hw : w < 128) (x : Int) (f : Nat → Nat) :
    CVal.transformUint ⟨.uint w, x⟩ f = .ok ⟨.uint w, ((f (toU128 x) % 2 ^ w : Nat) : Int)⟩ := by
  have h : ¬ w ≥ 128 := by omega
  simp only [CVal.transformUint, CType.isUint, CType.width, Outcome.assert_true, Outcome.ok_bind,
    if_neg h, mask_eq hw, and_mask, toI128_mod_two_pow hw]

theorem transformUint2_eq {w : Nat} (hw : w < 128) (x y : Int) (f : Nat → Nat → Nat) :
    transformUint2 ⟨.uint w, x⟩ ⟨.uint w, y⟩ f
      = ⟨.uint w, ((f (toU128 x) (toU128 y) % 2 ^ w : Nat) : Int)⟩ := by
  have h : w ≠ 128 := by omega
  simp only [transformUint2, CType.width, ne_eq, h, not_false_eq_true, if_true, mask_eq hw,
    and_mask, toI128_mod_two_pow hw]

/-! ### Conversion -/

theorem convertTo_same (v : CVal) (k : ConvKind) : v.convertTo v.type k = .ok v := by
  simp [CVal.convertTo]

theorem convertTo_same' (t : CType) (x : Int) (k : ConvKind) :
    CVal.convertTo ⟨t, x⟩ t k = .ok ⟨t, x⟩ := by
  simp [CVal.convertTo]

theorem toU128_mod {w : Nat} (hw : w < 128) (x : Int) :
    ((toU128 x % 2 ^ w : Nat) : Int) = x % 2 ^ w := by
  unfold toU128
  have hdvd : ((2 : Int) ^ w) ∣ 2 ^ 128 := by
    refine ⟨2 ^ (128 - w), ?_⟩
    rw [← Int.pow_add]; congr 1; omega
  have h1 : (0 : Int) ≤ x % 2 ^ 128 := by omega
  rw [Int.natCast_emod, Int.toNat_of_nonneg h1]
  push_cast
  exact Int.emod_emod_of_dvd x hdvd

theorem convert_int_uint_trunc {w : Nat} (hw : w < 128) (x : Int) :
    CVal.convertTo ⟨.int, x⟩ (.uint w) .truncating_numeric = .ok ⟨.uint w, x % 2 ^ w⟩ := by
  simp [CVal.convertTo, CType.isConvertibleTo, CType.isUint, getMask_uint hw,
    toI128_mod_two_pow hw, toU128_mod hw]

theorem toU128_mod_eq_iff {w : Nat} (hw : w < 128) {x : Int} (hx : InI128 x) :
    toU128 x % 2 ^ w = toU128 x ↔ 0 ≤ x ∧ x < 2 ^ w := by
  have h1 := two_pow_lt_of_lt hw
  have h2 : 0 < 2 ^ w := Nat.two_pow_pos w
  have h3 := Nat.mod_lt (toU128 x) h2
  have hc : (((2 ^ w : Nat)) : Int) = 2 ^ w := by push_cast; rfl
  rw [← hc]
  constructor
  · intro h
    have h4 : toU128 x < 2 ^ w := by omega
    unfold InI128 toU128 at *
    generalize 2 ^ w = p at *
    omega
  · rintro ⟨ha, hb⟩
    apply Nat.mod_eq_of_lt
    unfold InI128 toU128 at *
    generalize 2 ^ w = p at *
    omega

theorem convert_int_uint {w : Nat} (hw : w < 128) {x : Int} (hx : InI128 x) :
    CVal.convertTo ⟨.int, x⟩ (.uint w) .lossless_numeric =
      if 0 ≤ x ∧ x < 2 ^ w then .ok ⟨.uint w, x⟩ else .err .int_to_uint_range_error := by
  simp only [CVal.convertTo, CType.isConvertibleTo, CType.isUint, getMask_uint hw, and_mask,
    reduceCtorEq, if_false, decide_false, Bool.false_or, not_true_eq_false, if_true, true_and,
    ne_eq, toU128_mod_eq_iff hw hx]
  by_cases h : 0 ≤ x ∧ x < 2 ^ w
  · rw [if_pos h, if_neg (by simpa using h), toI128_mod_two_pow hw, toU128_mod hw,
      Int.emod_eq_of_lt h.1 h.2]
  · rw [if_neg h, if_pos h]

end Bms

namespace Bms

theorem signed128_ok {ε : Type} {z : Int} (h : -2 ^ 127 ≤ z ∧ z < 2 ^ 127) :
    (signed128 z : Outcome ε Int) = .ok z := if_pos h

theorem signed128_ub {ε : Type} {z : Int} (h : ¬ (-2 ^ 127 ≤ z ∧ z < 2 ^ 127)) :
    (signed128 z : Outcome ε Int) = .ub := if_neg h

end Bms
