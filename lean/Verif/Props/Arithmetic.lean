import Verif.Lemmas.Operators

/-!
# Properties C01-C06: integer operators

Each theorem is about `evalBinary` / `evalUnary`, the models of `evaluate_binary_operator` and
`evaluate_unary_operator`. `Operands t l r` (Verif/Spec/Operators.lean) says that `l`, `r` are
well-formed integer operands with common type `t`, including the mixed `Int`/`Uint(N)` case.
-/

namespace Bms

open Spec

/-! ## C01: Uint arithmetic is arithmetic modulo 2^N -/

/-- **C01.** `+`, `-`, `*` on operands with common type `Uint(w)` succeed with the `Uint(w)`
value that is congruent to the exact result modulo `2^w` (and therefore lies in `[0, 2^w)`). -/
theorem C01_uint_arith_mod {w : Nat} {l r : CVal} (h : Operands (.uint w) l r)
    {op : ExprType} {z : Int} (hz : exactArith op l.int r.int = some z) :
    evalBinary l op r = .ok ⟨.uint w, z % 2 ^ w⟩ ∧ 0 ≤ z % 2 ^ w ∧ z % 2 ^ w < 2 ^ w := by
  refine ⟨?_, emod_two_pow_range z w⟩
  have hw := operands_uint_width h
  obtain ⟨hx, hy⟩ := operands_inType h
  have ha := uint_toU128 hw.2 hx.1 hx.2
  have hb := uint_toU128 hw.2 hy.1 hy.2
  have hb' := toU128_lt r.int
  have hla : ((l.int.toNat : Nat) : Int) = l.int := Int.toNat_of_nonneg hx.1
  have hra : ((r.int.toNat : Nat) : Int) = r.int := Int.toNat_of_nonneg hy.1
  cases op <;> simp only [exactArith, Option.some.injEq, reduceCtorEq] at hz
  · subst hz
    rw [evalBinary_uint h _ rfl rfl]
    show Outcome.ok (transformUint2 _ _ fun x y => (x + y) % 2 ^ 128) = _
    rw [transformUint2_eq hw.2]
    have := uint_add_mod hw.2 (toU128 l.int) (toU128 r.int)
    rw [ha, hb, hla, hra] at this
    rw [ha, hb]
    rw [this]
  · subst hz
    rw [evalBinary_uint h _ rfl rfl]
    show Outcome.ok (transformUint2 _ _ fun x y => (x + (2 ^ 128 - y)) % 2 ^ 128) = _
    rw [transformUint2_eq hw.2]
    have := uint_sub_mod hw.2 (toU128 l.int) (toU128 r.int) hb'
    rw [ha, hb, hla, hra] at this
    rw [ha, hb]
    rw [this]
  · subst hz
    rw [evalBinary_uint h _ rfl rfl]
    show Outcome.ok (transformUint2 _ _ fun x y => (x * y) % 2 ^ 128) = _
    rw [transformUint2_eq hw.2]
    have := uint_mul_mod hw.2 (toU128 l.int) (toU128 r.int)
    rw [ha, hb, hla, hra] at this
    rw [ha, hb]
    rw [this]

/-- Non-vacuity of `C01_uint_arith_mod`: 200 + 100 wraps in `Uint(8)`, the second operand an
`Int` constant. -/
example : Operands (.uint 8) ⟨.uint 8, 200⟩ ⟨.int, 100⟩ ∧
    exactArith .binary_plus 200 100 = some 300 ∧
    evalBinary ⟨.uint 8, 200⟩ .binary_plus ⟨.int, 100⟩ = .ok ⟨.uint 8, 44⟩ :=
  ⟨.uintInt (by decide) (by decide) (by decide), rfl, by decide⟩

/-- **C01, unary minus.** Negation of a `Uint(w)` value is negation modulo `2^w`. -/
theorem C01_uint_neg_mod {w : Nat} (hw : 0 < w ∧ w < 128) {x : Int} (hx : InType (.uint w) x) :
    evalUnary .unary_minus ⟨.uint w, x⟩ = .ok ⟨.uint w, (-x) % 2 ^ w⟩ := by
  show CVal.transformUint ⟨.uint w, x⟩ (fun x => (2 ^ 128 - x) % 2 ^ 128) = _
  have hb := toU128_lt x
  rw [transformUint_eq hw.2]
  have := uint_sub_mod hw.2 0 (toU128 x) hb
  rw [Nat.zero_add] at this
  rw [this, uint_toU128 hw.2 hx.1 hx.2]
  congr 3
  have := Int.toNat_of_nonneg hx.1
  omega

example : evalUnary .unary_minus ⟨.uint 8, 1⟩ = .ok ⟨.uint 8, 255⟩ := by decide

/-- **C01, unary plus** is the identity on integers. -/
theorem C01_unary_plus {v : CVal} (hv : v.type.isInteger = true) :
    evalUnary .unary_plus v = .ok v := by
  obtain ⟨t, x⟩ := v
  cases t <;> first | rfl | (exact absurd hv (by simp [CType.isInteger]))

/-! ## C02: Int arithmetic is exact or flagged -/

/-- **C02.** On `Int` operands `+`, `-`, `*` return the exact result if it fits 128 bits; they
have undefined behaviour exactly if it does not. -/
theorem C02_int_arith_exact {l r : CVal} (h : Operands .int l r) {op : ExprType} {z : Int}
    (hz : exactArith op l.int r.int = some z) :
    evalBinary l op r =
      if -2 ^ 127 ≤ z ∧ z < 2 ^ 127 then .ok ⟨.int, z⟩ else .ub := by
  have key : ∀ z : Int, ((signed128 z : Outcome EvalErr Int).map CVal.ofInt) =
      if -2 ^ 127 ≤ z ∧ z < 2 ^ 127 then .ok ⟨.int, z⟩ else .ub := by
    intro z
    split
    · next h => rw [signed128_ok h]; rfl
    · next h => rw [signed128_ub h]; rfl
  cases op <;> simp only [exactArith, Option.some.injEq, reduceCtorEq] at hz <;> subst hz <;>
    rw [evalBinary_int h _ rfl rfl rfl] <;> exact key _

example : Operands .int ⟨.int, 3⟩ ⟨.int, -5⟩ ∧
    evalBinary ⟨.int, 3⟩ .multiplication ⟨.int, -5⟩ = .ok ⟨.int, -15⟩ :=
  ⟨.int (by decide) (by decide), by decide⟩

/-- **C02, unary minus.** Exact for every `Int` except the most negative one. -/
theorem C02_int_neg_exact {x : Int} (hx : InType .int x) :
    evalUnary .unary_minus ⟨.int, x⟩ = if x = -2 ^ 127 then .ub else .ok ⟨.int, -x⟩ := by
  show ((signed128 (-x) : Outcome EvalErr Int).map fun x => (⟨.int, x⟩ : CVal)) = _
  have hx' : -2 ^ 127 ≤ x ∧ x < 2 ^ 127 := hx
  by_cases h : x = -2 ^ 127
  · rw [signed128_ub (by omega), if_pos h]; rfl
  · rw [signed128_ok (by omega), if_neg h]; rfl

/-- The README calls `Int` an infinite precision integer. It is not: adding 1 to the largest
128-bit integer is undefined behaviour (negation of unconditional exactness). -/
theorem C02_not_infinite_precision :
    ¬ ∀ x y : Int, InType .int x → InType .int y →
      evalBinary ⟨.int, x⟩ .binary_plus ⟨.int, y⟩ = .ok ⟨.int, x + y⟩ := by
  intro h
  have := h (2 ^ 127 - 1) 1 (by decide) (by decide)
  revert this
  decide

/-! ## C03: division and remainder -/

theorem evalDivision {t : CType} {l r : CVal} (h : Operands t l r) :
    evalBinary l .division r =
      if r.int = 0 then .err .division_by_zero
      else (signed128 (l.int.tdiv r.int)).map fun q => ⟨t, q⟩ := by
  cases t with
  | int => rw [evalBinary_int h _ rfl rfl rfl]; rfl
  | uint w => rw [evalBinary_uint h _ rfl rfl]; rfl
  | void => cases h
  | bool => cases h

theorem evalRemainder {t : CType} {l r : CVal} (h : Operands t l r) :
    evalBinary l .remainder r =
      if r.int = 0 then .err .division_by_zero
      else (signed128 (l.int.tdiv r.int)).map fun _ => ⟨t, l.int.tmod r.int⟩ := by
  cases t with
  | int => rw [evalBinary_int h _ rfl rfl rfl]; rfl
  | uint w => rw [evalBinary_uint h _ rfl rfl]; rfl
  | void => cases h
  | bool => cases h

theorem operands_inI128 {t : CType} {l r : CVal} (h : Operands t l r) :
    InI128 l.int ∧ InI128 r.int := by
  cases h with
  | int hx hy => exact ⟨hx, hy⟩
  | uint hw hx hy => exact ⟨inI128_of_uint hw.2 hx, inI128_of_uint hw.2 hy⟩
  | uintInt hw hx hy => exact ⟨inI128_of_uint hw.2 hx, inI128_of_uint hw.2 hy⟩
  | intUint hw hx hy => exact ⟨inI128_of_uint hw.2 hx, inI128_of_uint hw.2 hy⟩

/-- **C03, zero divisor.** Division and remainder by zero are reported as an error for every
dividend and type. -/
theorem C03_division_by_zero {t : CType} {l r : CVal} (h : Operands t l r) (h0 : r.int = 0) :
    evalBinary l .division r = .err .division_by_zero ∧
    evalBinary l .remainder r = .err .division_by_zero := by
  rw [evalDivision h, evalRemainder h, if_pos h0, if_pos h0]; exact ⟨rfl, rfl⟩

/-- **C03, law of truncated division.** For a non-zero divisor and except for the most negative
`Int` divided by -1, both operators succeed, and the quotient `q` and remainder `m` satisfy
`x = q * y + m`, `|m| < |y|`, and `m` is zero or has the sign of `x`. -/
theorem C03_truncated_division {t : CType} {l r : CVal} (h : Operands t l r) (h0 : r.int ≠ 0)
    (hmin : ¬ (l.int = -2 ^ 127 ∧ r.int = -1)) :
    ∃ q m : Int, evalBinary l .division r = .ok ⟨t, q⟩ ∧
      evalBinary l .remainder r = .ok ⟨t, m⟩ ∧
      l.int = q * r.int + m ∧ m.natAbs < r.int.natAbs ∧ (0 ≤ l.int → 0 ≤ m) ∧
      (l.int ≤ 0 → m ≤ 0) := by
  have hq := tdiv_signed (operands_inI128 h).1 h0 hmin
  refine ⟨l.int.tdiv r.int, l.int.tmod r.int, ?_, ?_, ?_, ?_, ?_, ?_⟩
  · rw [evalDivision h, if_neg h0]; unfold signed128; rw [if_pos hq]; rfl
  · rw [evalRemainder h, if_neg h0]; unfold signed128; rw [if_pos hq]; rfl
  · have := Int.mul_tdiv_add_tmod l.int r.int
    rw [Int.mul_comm] at this; exact this.symm
  · rw [Int.natAbs_tmod]; exact Nat.mod_lt _ (by omega)
  · intro hl; exact Int.tmod_nonneg _ hl
  · intro hl
    have := Int.tmod_nonneg r.int (a := -l.int) (by omega)
    rw [Int.neg_tmod] at this; omega

/-- **C03, the one overflowing pair.** -/
theorem C03_division_overflow :
    evalBinary ⟨.int, -2 ^ 127⟩ .division ⟨.int, -1⟩ = .ub ∧
    evalBinary ⟨.int, -2 ^ 127⟩ .remainder ⟨.int, -1⟩ = .ub := by decide

example : Operands .int ⟨.int, -7⟩ ⟨.int, 2⟩ ∧
    evalBinary ⟨.int, -7⟩ .division ⟨.int, 2⟩ = .ok ⟨.int, -3⟩ ∧
    evalBinary ⟨.int, -7⟩ .remainder ⟨.int, 2⟩ = .ok ⟨.int, -1⟩ :=
  ⟨.int (by decide) (by decide), by decide, by decide⟩

/-! ## C04: bitwise operators act bit by bit -/

theorem bits_lt_two_pow {w n i : Nat} (hn : n < 2 ^ w) (hi : w ≤ i) : n.testBit i = false :=
  Nat.testBit_lt_two_pow (Nat.lt_of_lt_of_le hn (Nat.pow_le_pow_right (by decide) hi))

/-- **C04.** For `&`, `|`, `^` on operands of common type `Uint(w)`, evaluation succeeds with a
`Uint(w)` value `z` whose every bit (below and above `w`) is the Boolean function of the bits
of the operands; in particular bits at or above `w` are zero. -/
theorem C04_bitwise {w : Nat} {l r : CVal} (h : Operands (.uint w) l r) {op : ExprType}
    {f : Bool → Bool → Bool} (hf : bitFun op = some f) :
    ∃ z : Nat, evalBinary l op r = .ok ⟨.uint w, z⟩ ∧ z < 2 ^ w ∧
      ∀ i, z.testBit i = f (l.int.toNat.testBit i) (r.int.toNat.testBit i) := by
  have hw := operands_uint_width h
  obtain ⟨hx, hy⟩ := operands_inType h
  have ha := uint_toU128 hw.2 hx.1 hx.2
  have hb := uint_toU128 hw.2 hy.1 hy.2
  have hlt : l.int.toNat < 2 ^ w := by
    have := hx.2; have h1 := Int.toNat_of_nonneg hx.1
    rw [← h1] at this; exact_mod_cast this
  have hrt : r.int.toNat < 2 ^ w := by
    have := hy.2; have h1 := Int.toNat_of_nonneg hy.1
    rw [← h1] at this; exact_mod_cast this
  cases op <;> simp only [bitFun, Option.some.injEq, reduceCtorEq] at hf <;> subst hf
  · refine ⟨l.int.toNat &&& r.int.toNat, ?_, Nat.and_lt_two_pow _ hrt, ?_⟩
    · rw [evalBinary_uint h _ rfl rfl]
      show Outcome.ok (transformUint2 _ _ fun x y => x &&& y) = _
      rw [transformUint2_eq hw.2, ha, hb, Nat.mod_eq_of_lt (Nat.and_lt_two_pow _ hrt)]
    · intro i; exact Nat.testBit_and _ _ _
  · refine ⟨l.int.toNat ||| r.int.toNat, ?_, Nat.or_lt_two_pow hlt hrt, ?_⟩
    · rw [evalBinary_uint h _ rfl rfl]
      show Outcome.ok (transformUint2 _ _ fun x y => x ||| y) = _
      rw [transformUint2_eq hw.2, ha, hb, Nat.mod_eq_of_lt (Nat.or_lt_two_pow hlt hrt)]
    · intro i; exact Nat.testBit_or _ _ _
  · refine ⟨l.int.toNat ^^^ r.int.toNat, ?_, Nat.xor_lt_two_pow hlt hrt, ?_⟩
    · rw [evalBinary_uint h _ rfl rfl]
      show Outcome.ok (transformUint2 _ _ fun x y => x ^^^ y) = _
      rw [transformUint2_eq hw.2, ha, hb, Nat.mod_eq_of_lt (Nat.xor_lt_two_pow hlt hrt)]
    · intro i; rw [Nat.testBit_xor]

example : Operands (.uint 4) ⟨.uint 4, 12⟩ ⟨.uint 4, 10⟩ ∧
    bitFun .bitwise_xor = some (fun a b => a != b) ∧
    evalBinary ⟨.uint 4, 12⟩ .bitwise_xor ⟨.uint 4, 10⟩ = .ok ⟨.uint 4, 6⟩ :=
  ⟨.uint (by decide) (by decide) (by decide), rfl, by decide⟩

/-- **C04, complement.** Bit `i` of `~x` on `Uint(w)` is the negated bit of `x` below `w` and
zero from `w` on. -/
theorem C04_bitwise_not {w : Nat} (hw : 0 < w ∧ w < 128) {x : Int} (hx : InType (.uint w) x) :
    ∃ z : Nat, evalUnary .bitwise_not ⟨.uint w, x⟩ = .ok ⟨.uint w, z⟩ ∧ z < 2 ^ w ∧
      ∀ i, z.testBit i = (decide (i < w) && !x.toNat.testBit i) := by
  refine ⟨((2 ^ 128 - 1) ^^^ x.toNat) % 2 ^ w, ?_, Nat.mod_lt _ (Nat.two_pow_pos w), ?_⟩
  · show CVal.transformUint ⟨.uint w, x⟩ (fun x => (2 ^ 128 - 1) ^^^ x) = _
    rw [transformUint_eq hw.2, uint_toU128 hw.2 hx.1 hx.2]
  · intro i
    rw [Nat.testBit_mod_two_pow, Nat.testBit_xor, Nat.testBit_two_pow_sub_one]
    by_cases hi : i < w
    · have : i < 128 := by omega
      simp [hi, this]
    · simp [hi]

example : evalUnary .bitwise_not ⟨.uint 4, 5⟩ = .ok ⟨.uint 4, 10⟩ := by decide

/-- **C04, `Int` has no bitwise operators**: they are rejected as type errors, so that no
representation of negative numbers is observable. -/
theorem C04_int_bitwise_rejected {l r : CVal} (h : Operands .int l r) {op : ExprType}
    (hop : op.isBinaryBitwise = true) :
    evalBinary l op r = .err .type_error := by
  have hb : op.isBinary = true := by cases op <;> first | rfl | (exact absurd hop (by decide))
  rw [evalBinary_operands h op hb]
  simp [checkBinaryCommon, hop]

/-! ## C05: shifts -/

/-- **C05.** For shift amounts below 128, `x << s` is `(x * 2^s) mod 2^w` and `x >> s` is the
flooring quotient by `2^s`. For amounts of 128 or more the behaviour is undefined. -/
theorem C05_shift {w : Nat} {l r : CVal} (h : Operands (.uint w) l r) :
    evalBinary l .shift_left r =
      (if r.int < 128 then .ok ⟨.uint w, (l.int * 2 ^ r.int.toNat) % 2 ^ w⟩ else .ub) ∧
    evalBinary l .shift_right r =
      (if r.int < 128 then .ok ⟨.uint w, l.int / 2 ^ r.int.toNat⟩ else .ub) := by
  have hw := operands_uint_width h
  obtain ⟨hx, hy⟩ := operands_inType h
  have ha := uint_toU128 hw.2 hx.1 hx.2
  have hb := uint_toU128 hw.2 hy.1 hy.2
  have hla : ((l.int.toNat : Nat) : Int) = l.int := Int.toNat_of_nonneg hx.1
  have hra : ((r.int.toNat : Nat) : Int) = r.int := Int.toNat_of_nonneg hy.1
  have hiff : r.int.toNat < 128 ↔ r.int < 128 := by omega
  constructor
  · rw [evalBinary_uint h _ rfl rfl]
    show shiftGuard (toU128 r.int)
      (transformUint2 ⟨.uint w, l.int⟩ ⟨.uint w, r.int⟩ fun x y => (x <<< y) % 2 ^ 128) = _
    rw [transformUint2_eq hw.2, ha, hb]
    unfold shiftGuard
    by_cases hs : r.int < 128
    · rw [if_pos hs, if_pos (hiff.mpr hs)]
      have := uint_mul_mod hw.2 l.int.toNat (2 ^ r.int.toNat)
      rw [← Nat.shiftLeft_eq, hla] at this
      rw [this]
      push_cast; rfl
    · rw [if_neg hs, if_neg (fun h => hs (hiff.mp h))]
  · rw [evalBinary_uint h _ rfl rfl]
    show shiftGuard (toU128 r.int)
      (transformUint2 ⟨.uint w, l.int⟩ ⟨.uint w, r.int⟩ fun x y => x >>> y) = _
    rw [transformUint2_eq hw.2, ha, hb]
    unfold shiftGuard
    by_cases hs : r.int < 128
    · rw [if_pos hs, if_pos (hiff.mpr hs), Nat.shiftRight_eq_div_pow]
      have hlt : l.int.toNat < 2 ^ w := by
        have := hx.2; rw [← hla] at this; exact_mod_cast this
      have : l.int.toNat / 2 ^ r.int.toNat < 2 ^ w :=
        Nat.lt_of_le_of_lt (Nat.div_le_self _ _) hlt
      rw [Nat.mod_eq_of_lt this]
      congr 2
      push_cast
      rw [hla]
    · rw [if_neg hs, if_neg (fun h => hs (hiff.mp h))]

example : Operands (.uint 8) ⟨.uint 8, 0x81⟩ ⟨.uint 8, 4⟩ ∧
    evalBinary ⟨.uint 8, 0x81⟩ .shift_left ⟨.uint 8, 4⟩ = .ok ⟨.uint 8, 0x10⟩ ∧
    evalBinary ⟨.uint 8, 0x81⟩ .shift_right ⟨.uint 8, 4⟩ = .ok ⟨.uint 8, 0x8⟩ :=
  ⟨.uint (by decide) (by decide) (by decide), by decide, by decide⟩

/-- **C05, consequence.** Shifting by the width or more (but less than 128) gives 0 and is not an
error, although `Evaluation_Error_Code::shift_too_much` is documented as "Shift by operand size
or more". -/
theorem C05_shift_by_width_is_zero {w : Nat} {l r : CVal} (h : Operands (.uint w) l r)
    (hs : (w : Int) ≤ r.int) (hs' : r.int < 128) :
    evalBinary l .shift_left r = .ok ⟨.uint w, 0⟩ ∧
    evalBinary l .shift_right r = .ok ⟨.uint w, 0⟩ := by
  obtain ⟨hx, hy⟩ := operands_inType h
  obtain ⟨h1, h2⟩ := C05_shift h
  have hle : w ≤ r.int.toNat := by omega
  rw [h1, h2, if_pos hs', if_pos hs']
  constructor
  · congr 2
    obtain ⟨k, hk⟩ := Nat.exists_eq_add_of_le hle
    rw [hk, Int.pow_add, ← Int.mul_assoc, Int.mul_comm l.int, Int.mul_assoc]
    exact Int.mul_emod_right _ _
  · congr 2
    apply Int.ediv_eq_zero_of_lt hx.1
    have : (2 : Nat) ^ w ≤ 2 ^ r.int.toNat := Nat.pow_le_pow_right (by decide) hle
    have : (2 : Int) ^ w ≤ 2 ^ r.int.toNat := by exact_mod_cast this
    exact Int.lt_of_lt_of_le hx.2 this

/-- **C05, undefined behaviour is reachable** from well-formed `Uint(8)` operands. -/
theorem C05_shift_undefined_reachable :
    Operands (.uint 8) ⟨.uint 8, 1⟩ ⟨.uint 8, 128⟩ ∧
    evalBinary ⟨.uint 8, 1⟩ .shift_left ⟨.uint 8, 128⟩ = .ub :=
  ⟨.uint (by decide) (by decide) (by decide), by decide⟩

/-! ## C06: comparisons -/

/-- **C06.** The six comparison operators return the Boolean truth value of the mathematical
relation between the operands. -/
theorem C06_comparison {t : CType} {l r : CVal} (h : Operands t l r) {op : ExprType} {b : Bool}
    (hb : exactCompare op l.int r.int = some b) :
    evalBinary l op r = .ok ⟨.bool, if b then 1 else 0⟩ := by
  cases t with
  | void => cases h
  | bool => cases h
  | int =>
    cases op <;> simp only [exactCompare, Option.some.injEq, reduceCtorEq] at hb <;> subst hb <;>
      (rw [evalBinary_int h _ rfl rfl rfl]; rfl)
  | uint w =>
    have hw := operands_uint_width h
    obtain ⟨hx, hy⟩ := operands_inType h
    have hla : ((l.int.toNat : Nat) : Int) = l.int := Int.toNat_of_nonneg hx.1
    have hra : ((r.int.toNat : Nat) : Int) = r.int := Int.toNat_of_nonneg hy.1
    have key : ∀ f : Nat → Nat → Bool, compareUint ⟨.uint w, l.int⟩ ⟨.uint w, r.int⟩ f =
        CVal.ofBool (f l.int.toNat r.int.toNat) := by
      intro f
      unfold compareUint
      rw [uint_toU128 hw.2 hx.1 hx.2, uint_toU128 hw.2 hy.1 hy.2]
    have e1 : (l.int.toNat < r.int.toNat) ↔ l.int < r.int := by omega
    have e2 : (l.int.toNat ≤ r.int.toNat) ↔ l.int ≤ r.int := by omega
    have e3 : (l.int.toNat > r.int.toNat) ↔ l.int > r.int := by omega
    have e4 : (l.int.toNat ≥ r.int.toNat) ↔ l.int ≥ r.int := by omega
    cases op <;> simp only [exactCompare, Option.some.injEq, reduceCtorEq] at hb <;> subst hb <;>
      rw [evalBinary_uint h _ rfl rfl]
    · rfl
    · rfl
    · show Outcome.ok (compareUint _ _ fun x y => decide (x < y)) = _
      rw [key]; simp only [e1]; rfl
    · show Outcome.ok (compareUint _ _ fun x y => decide (x > y)) = _
      rw [key]; simp only [e3]; rfl
    · show Outcome.ok (compareUint _ _ fun x y => decide (x ≤ y)) = _
      rw [key]; simp only [e2]; rfl
    · show Outcome.ok (compareUint _ _ fun x y => decide (x ≥ y)) = _
      rw [key]; simp only [e4]; rfl

/-- **C06, trichotomy** for all operands: exactly one of `<`, `==`, `>` is true, and the other
three operators are the negations of `==`, `>`, `<`. -/
theorem C06_trichotomy {t : CType} {l r : CVal} (h : Operands t l r) :
    ∃ lt eq gt : Bool,
      evalBinary l .less_than r = .ok (CVal.ofBool lt) ∧
      evalBinary l .equals r = .ok (CVal.ofBool eq) ∧
      evalBinary l .greater_than r = .ok (CVal.ofBool gt) ∧
      evalBinary l .greater_or_equal r = .ok (CVal.ofBool (!lt)) ∧
      evalBinary l .not_equals r = .ok (CVal.ofBool (!eq)) ∧
      evalBinary l .less_or_equal r = .ok (CVal.ofBool (!gt)) ∧
      [lt, eq, gt].count true = 1 := by
  refine ⟨decide (l.int < r.int), decide (l.int = r.int), decide (l.int > r.int),
    C06_comparison h rfl, C06_comparison h rfl, C06_comparison h rfl,
    C06_comparison h ?_, C06_comparison h ?_, C06_comparison h ?_, ?_⟩
  · simp only [exactCompare, Option.some.injEq]
    by_cases hc : l.int < r.int <;> simp [hc] <;> omega
  · simp only [exactCompare, Option.some.injEq]
    by_cases hc : l.int = r.int <;> simp [hc]
  · simp only [exactCompare, Option.some.injEq]
    by_cases hc : l.int > r.int <;> simp [hc] <;> omega
  · rcases Int.lt_trichotomy l.int r.int with hc | hc | hc
    · have h1 : ¬ l.int = r.int := by omega
      have h2 : ¬ l.int > r.int := by omega
      simp [hc, h1, h2]
    · have h1 : ¬ l.int < r.int := by omega
      have h2 : ¬ l.int > r.int := by omega
      simp [hc]
    · have h1 : ¬ l.int < r.int := by omega
      have h2 : ¬ l.int = r.int := by omega
      simp [hc, h1, h2]

example : Operands (.uint 8) ⟨.int, 7⟩ ⟨.uint 8, 200⟩ ∧
    evalBinary ⟨.int, 7⟩ .less_than ⟨.uint 8, 200⟩ = .ok CVal.tt :=
  ⟨.intUint (by decide) (by decide) (by decide), by decide⟩

end Bms
