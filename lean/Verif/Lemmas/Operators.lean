import Verif.Lemmas.Values
import Verif.Spec.Operators

/-! Helper lemmas about operator evaluation. -/

namespace Bms

open Spec

theorem inI128_of_uint {w : Nat} {x : Int} (hw : w < 128) (h : InType (.uint w) x) :
    InI128 x := by
  have := two_pow_lt_of_lt_int hw
  have h' : 0 ≤ x ∧ x < 2 ^ w := h
  unfold InI128; omega

theorem convertToEqual_operands {t : CType} {l r : CVal} (h : Operands t l r) :
    convertToEqual l r = .ok (⟨t, l.int⟩, ⟨t, r.int⟩) := by
  cases h with
  | int hx hy => simp [convertToEqual, getCommonType, convertTo_same']
  | uint hw hx hy => simp [convertToEqual, getCommonType, convertTo_same']
  | uintInt hw hx hy =>
    have hy' := inI128_of_uint hw.2 hy
    simp only [convertToEqual, getCommonType, reduceCtorEq, if_false, Outcome.mapErr_ok,
      Outcome.ok_bind, convertTo_same', convert_int_uint hw.2 hy']
    unfold InType at hy; simp only at hy; rw [if_pos hy]; rfl
  | intUint hw hx hy =>
    have hx' := inI128_of_uint hw.2 hx
    simp only [convertToEqual, getCommonType, reduceCtorEq, if_false, Outcome.mapErr_ok,
      Outcome.ok_bind, convertTo_same', convert_int_uint hw.2 hx']
    unfold InType at hx; simp only at hx; rw [if_pos hx]; rfl

theorem getCommonType_operands {t : CType} {l r : CVal} (h : Operands t l r) :
    getCommonType l.type r.type = .ok t := by
  cases h <;> simp [getCommonType]

theorem operands_not_void {t : CType} {l r : CVal} (h : Operands t l r) :
    ¬ (l.type = .void ∨ r.type = .void) := by
  cases h <;> simp

theorem evalBinary_operands {t : CType} {l r : CVal} (h : Operands t l r) (op : ExprType)
    (hop : op.isBinary = true) :
    evalBinary l op r =
      ((checkBinaryCommon op t).mapErr fun _ => EvalErr.type_error) >>= fun _ =>
        evalBinaryEqual ⟨t, l.int⟩ op ⟨t, r.int⟩ := by
  unfold evalBinary checkBinary
  rw [if_neg (by simp [hop]), if_neg (operands_not_void h), getCommonType_operands h,
    convertToEqual_operands h]
  cases hc : checkBinaryCommon op t <;> simp [hc]

theorem operands_inType {t : CType} {l r : CVal} (h : Operands t l r) :
    InType t l.int ∧ InType t r.int := by
  cases h <;> exact ⟨by assumption, by assumption⟩

theorem operands_uint_width {w : Nat} {l r : CVal} (h : Operands (.uint w) l r) :
    0 < w ∧ w < 128 := by
  cases h <;> assumption

theorem uint_sub_mod {w : Nat} (hw : w < 128) (a b : Nat) (hb : b < 2 ^ 128) :
    (((a + (2 ^ 128 - b)) % 2 ^ 128 % 2 ^ w : Nat) : Int) = ((a : Int) - b) % 2 ^ w := by
  have hdvd : (2 : Nat) ^ w ∣ 2 ^ 128 := Nat.pow_dvd_pow 2 (by omega)
  rw [Nat.mod_mod_of_dvd _ hdvd, Int.natCast_emod]
  have hdvd' : ((2 : Int) ^ w) ∣ 2 ^ 128 := by exact_mod_cast Int.natCast_dvd_natCast.mpr hdvd
  have : ((a + (2 ^ 128 - b) : Nat) : Int) = (a : Int) - b + 2 ^ 128 := by omega
  rw [this]
  obtain ⟨k, hk⟩ := hdvd'
  rw [hk]
  push_cast
  rw [Int.add_mul_emod_self_left]

theorem uint_add_mod {w : Nat} (hw : w < 128) (a b : Nat) :
    (((a + b) % 2 ^ 128 % 2 ^ w : Nat) : Int) = ((a : Int) + b) % 2 ^ w := by
  have hdvd : (2 : Nat) ^ w ∣ 2 ^ 128 := Nat.pow_dvd_pow 2 (by omega)
  rw [Nat.mod_mod_of_dvd _ hdvd]
  push_cast; rfl

theorem uint_mul_mod {w : Nat} (hw : w < 128) (a b : Nat) :
    (((a * b) % 2 ^ 128 % 2 ^ w : Nat) : Int) = ((a : Int) * b) % 2 ^ w := by
  have hdvd : (2 : Nat) ^ w ∣ 2 ^ 128 := Nat.pow_dvd_pow 2 (by omega)
  rw [Nat.mod_mod_of_dvd _ hdvd]
  push_cast; rfl

theorem emod_two_pow_range (z : Int) (w : Nat) : 0 ≤ z % 2 ^ w ∧ z % 2 ^ w < 2 ^ w := by
  have : (0 : Int) < 2 ^ w := by exact_mod_cast Nat.two_pow_pos w
  exact ⟨Int.emod_nonneg _ (by omega), Int.emod_lt_of_pos _ this⟩

theorem nat_mod_inType (n w : Nat) : InType (.uint w) ((n % 2 ^ w : Nat) : Int) := by
  have h := Nat.mod_lt n (Nat.two_pow_pos w)
  constructor
  · omega
  · exact_mod_cast h

theorem tdiv_signed {x y : Int} (hx : InI128 x) (hy0 : y ≠ 0)
    (h : ¬ (x = -2 ^ 127 ∧ y = -1)) : InI128 (x.tdiv y) := by
  have habs : (x.tdiv y).natAbs = x.natAbs / y.natAbs := Int.natAbs_tdiv x y
  unfold InI128 at *
  rcases (by omega : y = 1 ∨ y = -1 ∨ 2 ≤ y.natAbs) with h1 | h1 | h1
  · subst h1; simpa using hx
  · subst h1; rw [Int.tdiv_neg, Int.tdiv_one]; omega
  · have : x.natAbs / y.natAbs ≤ x.natAbs / 2 := Nat.div_le_div_left h1 (by omega)
    rw [← habs] at this
    generalize x.tdiv y = q at *
    omega

end Bms

namespace Bms
open Spec

/-- All binary operators at once: evaluation on operands of common type `Uint(w)`. -/
theorem evalBinary_uint {w : Nat} {l r : CVal} (h : Operands (.uint w) l r) (op : ExprType)
    (hop : op.isBinary = true) (hlog : op.isBinaryLogical = false) :
    evalBinary l op r = evalBinaryEqual ⟨.uint w, l.int⟩ op ⟨.uint w, r.int⟩ := by
  rw [evalBinary_operands h op hop]
  simp only [checkBinaryCommon, hlog, Bool.false_eq_true, if_false, Outcome.mapErr_ok,
    Outcome.ok_bind]

theorem evalBinary_int {l r : CVal} (h : Operands .int l r) (op : ExprType)
    (hop : op.isBinary = true) (hlog : op.isBinaryLogical = false)
    (hbit : op.isBinaryBitwise = false) :
    evalBinary l op r = evalBinaryEqual ⟨.int, l.int⟩ op ⟨.int, r.int⟩ := by
  rw [evalBinary_operands h op hop]
  simp only [checkBinaryCommon, hlog, hbit, Bool.false_eq_true, if_false, Outcome.mapErr_ok,
    Outcome.ok_bind]

theorem checkBinary_isBinary {l r t : CType} {op : ExprType}
    (h : checkBinary l op r = .ok t) : op.isBinary = true := by
  unfold checkBinary at h
  split at h
  · cases h
  · next h' => simpa using h'

theorem checkBinary_common {l r t c : CType} {op : ExprType}
    (h : checkBinary l op r = .ok t) (hc : getCommonType l r = .ok c) :
    checkBinaryCommon op c = .ok t := by
  unfold checkBinary at h
  split at h
  · cases h
  split at h
  · cases h
  rw [hc] at h
  exact h

theorem checkBinary_getCommon {l r t : CType} {op : ExprType}
    (h : checkBinary l op r = .ok t) :
    l ≠ .void ∧ r ≠ .void ∧ ∃ c, getCommonType l r = .ok c := by
  unfold checkBinary at h
  split at h
  · cases h
  split at h
  · cases h
  next h1 =>
    rw [Outcome.bind_eq_ok] at h
    obtain ⟨c, hc, -⟩ := h
    exact ⟨fun e => h1 (.inl e), fun e => h1 (.inr e), c, hc⟩

/-- Operands accepted by the check are numeric operands of a common type, or both `Bool`, or one
of them is an `Int` that does not fit the `Uint` type of the other. -/
theorem checked_operands {l r : CVal} (hl : WF l) (hr : WF r) {op : ExprType} {t : CType}
    (h : checkBinary l.type op r.type = .ok t) :
    (∃ c, Operands c l r) ∨ (l.type = .bool ∧ r.type = .bool) ∨
    (l.type ≠ r.type ∧ evalBinary l op r = .err .int_to_uint_range_error) := by
  obtain ⟨h1, h2, c, hc⟩ := checkBinary_getCommon h
  obtain ⟨lt, x⟩ := l
  obtain ⟨rt, y⟩ := r
  obtain ⟨hl1, hl2⟩ := hl
  obtain ⟨hr1, hr2⟩ := hr
  cases lt with
  | void => exact absurd rfl h1
  | bool =>
    cases rt with
    | bool => exact .inr (.inl ⟨rfl, rfl⟩)
    | _ => simp [getCommonType] at hc
  | int =>
    cases rt with
    | int => exact .inl ⟨_, .int hl2 hr2⟩
    | uint w =>
      by_cases hx : InType (.uint w) x
      · exact .inl ⟨_, .intUint hr1 hx hr2⟩
      · refine .inr (.inr ⟨by simp, ?_⟩)
        have hcv := convert_int_uint hr1.2 (x := x) hl2
        rw [if_neg (show ¬ (0 ≤ x ∧ x < 2 ^ w) from hx)] at hcv
        simp only at h
        simp [evalBinary, h, convertToEqual, getCommonType, hcv]
    | _ => simp [getCommonType] at hc
  | uint w =>
    cases rt with
    | int =>
      by_cases hx : InType (.uint w) y
      · exact .inl ⟨_, .uintInt hl1 hl2 hx⟩
      · refine .inr (.inr ⟨by simp, ?_⟩)
        have hcv := convert_int_uint hl1.2 (x := y) hr2
        rw [if_neg (show ¬ (0 ≤ y ∧ y < 2 ^ w) from hx)] at hcv
        simp only at h
        simp [evalBinary, h, convertToEqual, getCommonType, hcv, convertTo_same']
    | uint w' =>
      by_cases hww : w = w'
      · subst hww; exact .inl ⟨_, .uint hl1 hl2 hr2⟩
      · simp [getCommonType, hww] at hc
    | _ => simp [getCommonType] at hc

theorem wf_ofBool (b : Bool) : WF (CVal.ofBool b) := by
  cases b <;> exact ⟨trivial, by decide⟩

theorem wf_uint_mod {w : Nat} (hw : 0 < w ∧ w < 128) (n : Nat) :
    WF ⟨.uint w, ((n % 2 ^ w : Nat) : Int)⟩ := ⟨hw, nat_mod_inType n w⟩

theorem tmod_signed {x y : Int} (hx : InI128 x) : InI128 (x.tmod y) := by
  have h := Int.natAbs_tmod x y
  have h2 : x.natAbs % y.natAbs ≤ x.natAbs := Nat.mod_le _ _
  have h4 : x ≤ 0 → x.tmod y ≤ 0 := fun h => by
    have := Int.tmod_nonneg (a := -x) y (by omega)
    rw [Int.neg_tmod] at this; omega
  unfold InI128 at *
  generalize x.tmod y = m at *
  omega

/-- Outcomes of the evaluation after conversion, common type `Int`. -/
theorem evalBinaryEqual_int {x y : Int} (hx : InType .int x) (hy : InType .int y)
    {op : ExprType} {t : CType} (hop : op.isBinary = true) (hconv : op ≠ .conversion)
    (h : checkBinaryCommon op .int = .ok t) :
    (∃ u, evalBinaryEqual ⟨.int, x⟩ op ⟨.int, y⟩ = .ok u ∧ u.type = t ∧ WF u) ∨
    (evalBinaryEqual ⟨.int, x⟩ op ⟨.int, y⟩ = .err .division_by_zero ∧
      (op = .division ∨ op = .remainder) ∧ y = 0) ∨
    (evalBinaryEqual ⟨.int, x⟩ op ⟨.int, y⟩ = .ub ∧
      ((∃ z, exactArith op x y = some z ∧ ¬ InType .int z) ∨
        ((op = .division ∨ op = .remainder) ∧ x = -2 ^ 127 ∧ y = -1))) := by
  have hx' : -2 ^ 127 ≤ x ∧ x < 2 ^ 127 := hx
  have arith : ∀ z : Int, t = .int →
      (∃ u, ((signed128 z : Outcome EvalErr Int).map CVal.ofInt) = .ok u ∧ u.type = t ∧ WF u) ∨
      ((signed128 z : Outcome EvalErr Int).map CVal.ofInt = .ub ∧ ¬ InType .int z) := by
    rintro z rfl
    by_cases hz : -2 ^ 127 ≤ z ∧ z < 2 ^ 127
    · exact .inl ⟨⟨.int, z⟩, by rw [signed128_ok hz]; rfl, rfl, trivial, hz⟩
    · exact .inr ⟨by rw [signed128_ub hz]; rfl, hz⟩
  have div : ∀ z : Int, y ≠ 0 → t = .int → InI128 z → 
      (∃ u, ((signed128 (x.tdiv y) : Outcome EvalErr Int).map fun q => CVal.mk .int (if op = .division then q else z)) = .ok u ∧ u.type = t ∧ WF u) ∨
      (((signed128 (x.tdiv y) : Outcome EvalErr Int).map fun q => CVal.mk .int (if op = .division then q else z)) = .ub ∧ x = -2 ^ 127 ∧ y = -1) := by
    rintro z hy0 rfl hz
    by_cases hov : x = -2 ^ 127 ∧ y = -1
    · refine .inr ⟨?_, hov⟩
      obtain ⟨rfl, rfl⟩ := hov
      rw [signed128_ub (by decide)]; rfl
    · have := tdiv_signed hx hy0 hov
      rw [signed128_ok this]
      refine .inl ⟨_, rfl, rfl, trivial, ?_⟩
      show InI128 _
      split
      · exact this
      · exact hz
  cases op with
  | binary_plus =>
    cases h
    rcases arith (x + y) rfl with h | h
    · exact .inl h
    · exact .inr (.inr ⟨h.1, .inl ⟨_, rfl, h.2⟩⟩)
  | binary_minus =>
    cases h
    rcases arith (x - y) rfl with h | h
    · exact .inl h
    · exact .inr (.inr ⟨h.1, .inl ⟨_, rfl, h.2⟩⟩)
  | multiplication =>
    cases h
    rcases arith (x * y) rfl with h | h
    · exact .inl h
    · exact .inr (.inr ⟨h.1, .inl ⟨_, rfl, h.2⟩⟩)
  | division =>
    cases h
    by_cases hy0 : y = 0
    · subst hy0; exact .inr (.inl ⟨rfl, .inl rfl, rfl⟩)
    · have e : evalBinaryEqual ⟨.int, x⟩ .division ⟨.int, y⟩
          = (signed128 (x.tdiv y)).map fun q => ⟨.int, q⟩ := if_neg hy0
      rw [e]
      rcases div 0 hy0 rfl (by decide) with h | h
      · exact .inl h
      · exact .inr (.inr ⟨h.1, .inr ⟨.inl rfl, h.2⟩⟩)
  | remainder =>
    cases h
    by_cases hy0 : y = 0
    · subst hy0; exact .inr (.inl ⟨rfl, .inr rfl, rfl⟩)
    · have e : evalBinaryEqual ⟨.int, x⟩ .remainder ⟨.int, y⟩
          = (signed128 (x.tdiv y)).map fun _ => ⟨.int, x.tmod y⟩ := if_neg hy0
      rw [e]
      rcases div (x.tmod y) hy0 rfl (tmod_signed hx) with h | h
      · exact .inl h
      · exact .inr (.inr ⟨h.1, .inr ⟨.inr rfl, h.2⟩⟩)
  | less_than => cases h; exact .inl ⟨_, rfl, rfl, wf_ofBool _⟩
  | greater_than => cases h; exact .inl ⟨_, rfl, rfl, wf_ofBool _⟩
  | less_or_equal => cases h; exact .inl ⟨_, rfl, rfl, wf_ofBool _⟩
  | greater_or_equal => cases h; exact .inl ⟨_, rfl, rfl, wf_ofBool _⟩
  | equals => cases h; exact .inl ⟨_, rfl, rfl, wf_ofBool _⟩
  | not_equals => cases h; exact .inl ⟨_, rfl, rfl, wf_ofBool _⟩
  | conversion => exact absurd rfl hconv
  | _ => first | (exact absurd hop (by decide)) | cases h

/-- Outcomes of the evaluation after conversion, common type `Uint(w)`. -/
theorem evalBinaryEqual_uint {w : Nat} (hw : 0 < w ∧ w < 128) {x y : Int}
    (hx : InType (.uint w) x) (hy : InType (.uint w) y)
    {op : ExprType} {t : CType} (hop : op.isBinary = true) (hconv : op ≠ .conversion)
    (h : checkBinaryCommon op (.uint w) = .ok t) :
    (∃ u, evalBinaryEqual ⟨.uint w, x⟩ op ⟨.uint w, y⟩ = .ok u ∧ u.type = t ∧ WF u) ∨
    (evalBinaryEqual ⟨.uint w, x⟩ op ⟨.uint w, y⟩ = .err .division_by_zero ∧
      (op = .division ∨ op = .remainder) ∧ y = 0) ∨
    (evalBinaryEqual ⟨.uint w, x⟩ op ⟨.uint w, y⟩ = .ub ∧
      (op = .shift_left ∨ op = .shift_right) ∧ 128 ≤ y) := by
  have hx0 : 0 ≤ x := hx.1
  have hx1 : x < 2 ^ w := hx.2
  have hy0 : 0 ≤ y := hy.1
  have hy1 : y < 2 ^ w := hy.2
  have hxi : InI128 x := inI128_of_uint hw.2 hx
  have tr : ∀ f, WF (transformUint2 ⟨.uint w, x⟩ ⟨.uint w, y⟩ f) := by
    intro f; rw [transformUint2_eq hw.2]; exact wf_uint_mod hw _
  have sh : ∀ f, (∃ u, shiftGuard (toU128 y) (transformUint2 ⟨.uint w, x⟩ ⟨.uint w, y⟩ f) = .ok u
        ∧ u.type = .uint w ∧ WF u) ∨
      (shiftGuard (toU128 y) (transformUint2 ⟨.uint w, x⟩ ⟨.uint w, y⟩ f) = .ub ∧ 128 ≤ y) := by
    intro f
    rw [uint_toU128 hw.2 hy0 hy1]
    by_cases hs : y.toNat < 128
    · exact .inl ⟨_, if_pos hs, rfl, tr f⟩
    · exact .inr ⟨if_neg hs, by omega⟩
  have hq : y ≠ 0 → 0 ≤ x.tdiv y ∧ x.tdiv y < 2 ^ w ∧ 0 ≤ x.tmod y ∧ x.tmod y < 2 ^ w := by
    intro hne
    rw [Int.tdiv_eq_ediv_of_nonneg hx0, Int.tmod_eq_emod_of_nonneg hx0]
    have h1 := Int.ediv_nonneg hx0 hy0
    have h2 := Int.ediv_le_self y hx0
    have h3 := Int.emod_nonneg x hne
    have h4 := Int.emod_lt_of_pos x (show 0 < y by omega)
    omega
  cases op with
  | division =>
    cases h
    by_cases hne : y = 0
    · subst hne; exact .inr (.inl ⟨rfl, .inl rfl, rfl⟩)
    · have e : evalBinaryEqual ⟨.uint w, x⟩ .division ⟨.uint w, y⟩
          = (signed128 (x.tdiv y)).map fun q => ⟨.uint w, q⟩ := if_neg hne
      obtain ⟨h1, h2, -, -⟩ := hq hne
      have := two_pow_lt_of_lt_int hw.2
      rw [e, signed128_ok (by omega)]
      exact .inl ⟨_, rfl, rfl, hw, h1, h2⟩
  | remainder =>
    cases h
    by_cases hne : y = 0
    · subst hne; exact .inr (.inl ⟨rfl, .inr rfl, rfl⟩)
    · have e : evalBinaryEqual ⟨.uint w, x⟩ .remainder ⟨.uint w, y⟩
          = (signed128 (x.tdiv y)).map fun _ => ⟨.uint w, x.tmod y⟩ := if_neg hne
      obtain ⟨h1, h2, h3, h4⟩ := hq hne
      have := two_pow_lt_of_lt_int hw.2
      rw [e, signed128_ok (by omega)]
      exact .inl ⟨_, rfl, rfl, hw, h3, h4⟩
  | shift_left =>
    cases h
    rcases sh _ with h | h
    · exact .inl h
    · exact .inr (.inr ⟨h.1, .inl rfl, h.2⟩)
  | shift_right =>
    cases h
    rcases sh _ with h | h
    · exact .inl h
    · exact .inr (.inr ⟨h.1, .inr rfl, h.2⟩)
  | binary_plus => cases h; exact .inl ⟨_, rfl, rfl, tr _⟩
  | binary_minus => cases h; exact .inl ⟨_, rfl, rfl, tr _⟩
  | multiplication => cases h; exact .inl ⟨_, rfl, rfl, tr _⟩
  | bitwise_and => cases h; exact .inl ⟨_, rfl, rfl, tr _⟩
  | bitwise_or => cases h; exact .inl ⟨_, rfl, rfl, tr _⟩
  | bitwise_xor => cases h; exact .inl ⟨_, rfl, rfl, tr _⟩
  | less_than => cases h; exact .inl ⟨_, rfl, rfl, wf_ofBool _⟩
  | greater_than => cases h; exact .inl ⟨_, rfl, rfl, wf_ofBool _⟩
  | less_or_equal => cases h; exact .inl ⟨_, rfl, rfl, wf_ofBool _⟩
  | greater_or_equal => cases h; exact .inl ⟨_, rfl, rfl, wf_ofBool _⟩
  | equals => cases h; exact .inl ⟨_, rfl, rfl, wf_ofBool _⟩
  | not_equals => cases h; exact .inl ⟨_, rfl, rfl, wf_ofBool _⟩
  | conversion => exact absurd rfl hconv
  | _ => first | (exact absurd hop (by decide)) | cases h

/-- Both operands `Bool`. -/
theorem evalBinary_bool {x y : Int} {op : ExprType} {t : CType} (hconv : op ≠ .conversion)
    (hne : op ≠ .equals ∧ op ≠ .not_equals)
    (h : checkBinary .bool op .bool = .ok t) :
    t = .bool ∧ ((op = .logical_and ∧
        evalBinary ⟨.bool, x⟩ op ⟨.bool, y⟩ = .ok (CVal.ofBool (x ≠ 0 && y ≠ 0))) ∨
      (op = .logical_or ∧
        evalBinary ⟨.bool, x⟩ op ⟨.bool, y⟩ = .ok (CVal.ofBool (x ≠ 0 || y ≠ 0)))) := by
  cases op with
  | logical_and => cases h; exact ⟨rfl, .inl ⟨rfl, rfl⟩⟩
  | logical_or => cases h; exact ⟨rfl, .inr ⟨rfl, rfl⟩⟩
  | equals => exact absurd rfl hne.1
  | not_equals => exact absurd rfl hne.2
  | conversion => exact absurd rfl hconv
  | _ => first | cases h | (exfalso; revert h; decide)

end Bms
