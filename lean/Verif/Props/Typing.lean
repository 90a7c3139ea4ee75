import Verif.Lemmas.Operators

/-!
# Properties C07-C14: operand types, conversions, checking versus evaluation
-/

namespace Bms

open Spec

/-! ## C07: common type -/

/-- **C07, table.** When two types have a common type, and which. -/
theorem C07_common_type_iff (a b t : CType) :
    getCommonType a b = .ok t ↔
      (a = b ∧ t = a) ∨ (a = .int ∧ b = t ∧ ∃ w, t = .uint w) ∨
      (b = .int ∧ a = t ∧ ∃ w, t = .uint w) := by
  cases a <;> cases b <;> simp [getCommonType] <;> grind

/-- **C07, errors.** Two `Uint`s of different width are `incompatible_widths`; everything else
without common type is `incompatible_types`; nothing throws. -/
theorem C07_common_type_error (a b : CType) :
    (∃ v w, v ≠ w ∧ a = .uint v ∧ b = .uint w ∧ getCommonType a b = .err .incompatible_widths) ∨
    ((¬ ∃ v w, a = .uint v ∧ b = .uint w) ∧ getCommonType a b = .err .incompatible_types) ∨
    (∃ t, getCommonType a b = .ok t) := by
  cases a <;> cases b <;> simp [getCommonType]
  next v w => by_cases h : v = w <;> simp [h]

/-- **C07, symmetry.** -/
theorem C07_common_type_comm (a b : CType) : getCommonType a b = getCommonType b a := by
  cases a <;> cases b <;> simp [getCommonType] <;> grind

/-- **C07, the common type is one of the operands, and both operands convert to it.** -/
theorem C07_common_type_sound {a b t : CType} (h : getCommonType a b = .ok t) :
    (t = a ∨ t = b) ∧ a.isConvertibleTo t = true ∧ b.isConvertibleTo t = true := by
  rw [C07_common_type_iff] at h
  rcases h with ⟨rfl, rfl⟩ | ⟨rfl, rfl, w, rfl⟩ | ⟨rfl, rfl, w, rfl⟩ <;>
    simp [CType.isConvertibleTo]

example : getCommonType .int (.uint 8) = .ok (.uint 8) ∧
    getCommonType (.uint 7) (.uint 8) = .err .incompatible_widths ∧
    getCommonType .bool .int = .err .incompatible_types := by decide

/-! ## C08: lossless conversion -/

/-- What a lossless conversion has to do, in terms of ranges. -/
def Spec.losslessConversion (v : CVal) (t : CType) : Outcome EvalErr CVal :=
  match v.type, t with
  | .int, .uint w =>
    if 0 ≤ v.int ∧ v.int < 2 ^ w then .ok ⟨.uint w, v.int⟩ else .err .int_to_uint_range_error
  | s, t => if s = t then .ok v else .err .type_error

/-- **C08.** Lossless conversion of every well-formed value to every type that can exist: same
type gives the same value, `Int` to `Uint(w)` succeeds exactly for values in `[0, 2^w)` and
keeps the value, everything else is a type error. -/
theorem C08_lossless_conversion {v : CVal} (hv : WF v) {t : CType} (ht : t.WF) :
    evalConversion v t = losslessConversion v t := by
  obtain ⟨s, x⟩ := v
  unfold evalConversion losslessConversion
  cases s <;> cases t <;> simp only [] <;>
    first
    | (simp [CVal.convertTo, CType.isConvertibleTo]; done)
    | skip
  · exact convert_int_uint ht.2 hv.2
  · next a b =>
    by_cases hab : a = b
    · subst hab; simp [convertTo_same']
    · simp [CVal.convertTo, CType.isConvertibleTo, hab]

/-- **C08, no value change.** -/
theorem C08_conversion_keeps_value {v u : CVal} (hv : WF v) {t : CType} (ht : t.WF)
    (h : evalConversion v t = .ok u) : u.type = t ∧ u.int = v.int ∧ WF u := by
  rw [C08_lossless_conversion hv ht] at h
  obtain ⟨s, x⟩ := v
  unfold losslessConversion at h
  obtain ⟨hs, hx⟩ := hv
  split at h
  · next w h1 h2 =>
    subst h2
    split at h
    · next hr => cases h; exact ⟨rfl, rfl, ht, hr⟩
    · cases h
  · split at h
    · next heq => cases h; exact ⟨heq, rfl, hs, hx⟩
    · cases h

/-- **C08, idempotence.** -/
theorem C08_conversion_idempotent {v u : CVal} (hv : WF v) {t : CType} (ht : t.WF)
    (h : evalConversion v t = .ok u) : evalConversion u t = .ok u := by
  obtain ⟨rfl, -, -⟩ := C08_conversion_keeps_value hv ht h
  exact convertTo_same u _

/-- **C08, in binary operators.** If one operand is `Uint(w)` and the other an `Int` that
`Uint(w)` cannot hold, every operator that is meaningful for `Uint` fails with
`int_to_uint_range_error`. -/
theorem C08_mixed_operand_range {w : Nat} (hw : 0 < w ∧ w < 128) {x y : Int}
    (hy : InType .int y) (hout : ¬ (0 ≤ y ∧ y < 2 ^ w)) {op : ExprType}
    (hop : op.isBinary = true) (hlog : op.isBinaryLogical = false) :
    evalBinary ⟨.uint w, x⟩ op ⟨.int, y⟩ = .err .int_to_uint_range_error ∧
    evalBinary ⟨.int, y⟩ op ⟨.uint w, x⟩ = .err .int_to_uint_range_error := by
  have hc := convert_int_uint hw.2 (x := y) hy
  rw [if_neg hout] at hc
  constructor
  · simp [evalBinary, checkBinary, hop, getCommonType, checkBinaryCommon, hlog, convertToEqual,
      convertTo_same', hc]
  · simp [evalBinary, checkBinary, hop, getCommonType, checkBinaryCommon, hlog, convertToEqual, hc]

example : evalBinary ⟨.uint 8, 3⟩ .binary_plus ⟨.int, 256⟩ = .err .int_to_uint_range_error ∧
    InType .int 256 ∧ ¬ ((0 : Int) ≤ 256 ∧ (256 : Int) < 2 ^ 8) := by decide

example : evalConversion ⟨.int, 255⟩ (.uint 8) = .ok ⟨.uint 8, 255⟩ ∧
    evalConversion ⟨.int, -1⟩ (.uint 8) = .err .int_to_uint_range_error ∧
    WF ⟨.int, -1⟩ := by decide

/-! ## C09: truncating conversion -/

/-- **C09.** Truncating conversion of an `Int` to `Uint(w)` is reduction modulo `2^w`. -/
theorem C09_truncating_conversion {w : Nat} (hw : 0 < w ∧ w < 128) (x : Int) :
    CVal.convertTo ⟨.int, x⟩ (.uint w) .truncating_numeric = .ok ⟨.uint w, x % 2 ^ w⟩ :=
  convert_int_uint_trunc hw.2 x

/-- **C09, agreement.** Where the lossless conversion succeeds the truncating one gives the same
value, for all types. -/
theorem C09_truncating_agrees {v u : CVal} (hv : WF v) {t : CType} (ht : t.WF)
    (h : v.convertTo t .lossless_numeric = .ok u) :
    v.convertTo t .truncating_numeric = .ok u := by
  have h' : evalConversion v t = .ok u := h
  obtain ⟨hut, hui, -⟩ := C08_conversion_keeps_value hv ht h'
  rw [C08_lossless_conversion hv ht] at h'
  obtain ⟨s, x⟩ := v
  unfold losslessConversion at h'
  split at h'
  · split at h'
    · next hr =>
      next heq =>
      simp only at heq; subst heq
      cases h'
      rw [convert_int_uint_trunc ht.2, Int.emod_eq_of_lt hr.1 hr.2]
    · cases h'
  · split at h'
    · next heq => cases h'; simp only at heq; subst heq; exact convertTo_same' _ _ _
    · cases h'

example : CVal.convertTo ⟨.int, -1⟩ (.uint 8) .truncating_numeric = .ok ⟨.uint 8, 255⟩ := by decide

/-! ## C10: type checking predicts evaluation -/

/-- **C10, unary.** If the check accepts with type `t`, evaluation never reports a type error
and never throws, and a result has type `t` (undefined behaviour is possible only for negating
the most negative `Int`). If the check rejects, evaluation reports a type error. -/
theorem C10_unary (op : ExprType) {v : CVal} (hv : WF v) :
    (∀ t, checkUnary op v.type = .ok t →
      (∃ u, evalUnary op v = .ok u ∧ u.type = t) ∨
      (evalUnary op v = .ub ∧ op = .unary_minus ∧ v = ⟨.int, -2 ^ 127⟩)) ∧
    (∀ e, checkUnary op v.type = .err e → evalUnary op v = .err .type_error) := by
  obtain ⟨s, x⟩ := v
  constructor
  · intro t ht
    cases s with
    | void => cases op <;> simp [checkUnary, ExprType.isPrefixUnary] at ht
    | bool =>
      cases op <;> simp [checkUnary, ExprType.isPrefixUnary, ExprType.isUnaryArithmetic] at ht
      subst ht
      exact .inl ⟨_, rfl, rfl⟩
    | int =>
      cases op <;> simp [checkUnary, ExprType.isPrefixUnary] at ht
      · subst ht; exact .inl ⟨_, rfl, rfl⟩
      · subst ht
        by_cases hx : x = -2 ^ 127
        · right
          refine ⟨?_, rfl, by rw [hx]⟩
          show ((signed128 (-x) : Outcome EvalErr Int).map fun x => (⟨.int, x⟩ : CVal)) = _
          rw [signed128_ub (by omega)]; rfl
        · left
          have hx' : -2 ^ 127 ≤ x ∧ x < 2 ^ 127 := hv.2
          refine ⟨⟨.int, -x⟩, ?_, rfl⟩
          show ((signed128 (-x) : Outcome EvalErr Int).map fun x => (⟨.int, x⟩ : CVal)) = _
          rw [signed128_ok (by omega)]; rfl
    | uint w =>
      have hw : 0 < w ∧ w < 128 := hv.1
      cases op <;> simp [checkUnary, ExprType.isPrefixUnary] at ht
      · subst ht; exact .inl ⟨_, rfl, rfl⟩
      · subst ht
        exact .inl ⟨_, transformUint_eq hw.2 x (fun x => (2 ^ 128 - x) % 2 ^ 128), rfl⟩
      · subst ht
        exact .inl ⟨_, transformUint_eq hw.2 x (fun x => (2 ^ 128 - 1) ^^^ x), rfl⟩
  · intro e he
    simp [evalUnary, he]

example : checkUnary .bitwise_not (.uint 8) = .ok (.uint 8) ∧ WF ⟨.uint 8, 3⟩ ∧
    checkUnary .logical_not .int = .err .int_logical := by decide

/-- **C10, binary, rejected operands.** -/
theorem C10_binary_rejected {l r : CVal} {op : ExprType} {e : CheckErr}
    (h : checkBinary l.type op r.type = .err e) : evalBinary l op r = .err .type_error := by
  simp [evalBinary, h]

/-- The check itself never throws and has no undefined behaviour. -/
theorem C10_check_total (l r : CType) (op : ExprType) :
    (∃ t, checkBinary l op r = .ok t) ∨ (∃ e, checkBinary l op r = .err e) := by
  have hcommon : ∀ t, (∃ u, checkBinaryCommon op t = .ok u) ∨ ∃ e, checkBinaryCommon op t = .err e := by
    intro t
    unfold checkBinaryCommon
    cases t <;> simp only [] <;> (repeat' split) <;> simp
  unfold checkBinary
  split
  · exact .inr ⟨_, rfl⟩
  split
  · exact .inr ⟨_, rfl⟩
  rcases C07_common_type_error l r with ⟨_, _, _, _, _, h⟩ | ⟨_, h⟩ | ⟨t, h⟩
  · exact .inr ⟨_, by rw [h]; rfl⟩
  · exact .inr ⟨_, by rw [h]; rfl⟩
  · rw [h]; exact hcommon t

/-- Undefined behaviour that an accepted binary operator can have: `Int` arithmetic whose exact
result is out of range, or a shift by 128 or more. -/
def Spec.UndefinedBinary (l : CVal) (op : ExprType) (r : CVal) : Prop :=
  (l.type = .int ∧ r.type = .int ∧
    ((∃ z, exactArith op l.int r.int = some z ∧ ¬ InType .int z) ∨
     ((op = .division ∨ op = .remainder) ∧ l.int = -2 ^ 127 ∧ r.int = -1))) ∨
  ((op = .shift_left ∨ op = .shift_right) ∧ 128 ≤ r.int)

/-- **C10, binary, accepted operands.** Every accepted combination evaluates to a value of the
predicted type, or fails with `division_by_zero` (exactly if the divisor is zero) or
`int_to_uint_range_error` (only for mixed operands), or has the undefined behaviour described by
`UndefinedBinary`. It never reports a type error and never throws.

Partial: `Bool == Bool`, `Bool != Bool` and the code `conversion`, which the check accepts but
evaluation answers by throwing, are excluded; see the two theorems that follow. -/
theorem C10_binary_accepted_partial {l r : CVal} (hl : WF l) (hr : WF r) {op : ExprType}
    {t : CType} (hconv : op ≠ .conversion)
    (hbool : ¬ ((op = .equals ∨ op = .not_equals) ∧ l.type = .bool ∧ r.type = .bool))
    (h : checkBinary l.type op r.type = .ok t) :
    (∃ u, evalBinary l op r = .ok u ∧ u.type = t) ∨
    (evalBinary l op r = .err .division_by_zero ∧ (op = .division ∨ op = .remainder) ∧ r.int = 0) ∨
    (evalBinary l op r = .err .int_to_uint_range_error ∧ l.type ≠ r.type) ∨
    (evalBinary l op r = .ub ∧ UndefinedBinary l op r) := by
  rcases checked_operands hl hr h with ⟨c, hc⟩ | ⟨hlb, hrb⟩ | ⟨hne, he⟩
  · have hop := checkBinary_isBinary h
    have hcc := checkBinary_common h (getCommonType_operands hc)
    rw [evalBinary_operands hc op hop, hcc]
    simp only [Outcome.mapErr_ok, Outcome.ok_bind]
    have hin := operands_inType hc
    cases c with
    | void => cases hc
    | bool => cases hc
    | int =>
      have hlr : l.type = .int ∧ r.type = .int := by cases hc; exact ⟨rfl, rfl⟩
      rcases evalBinaryEqual_int hin.1 hin.2 hop hconv hcc with ⟨u, hu, ht, -⟩ | h | h
      · exact .inl ⟨u, hu, ht⟩
      · exact .inr (.inl h)
      · exact .inr (.inr (.inr ⟨h.1, .inl ⟨hlr.1, hlr.2, h.2⟩⟩))
    | uint w =>
      rcases evalBinaryEqual_uint (operands_uint_width hc) hin.1 hin.2 hop hconv hcc with
        ⟨u, hu, ht, -⟩ | h | h
      · exact .inl ⟨u, hu, ht⟩
      · exact .inr (.inl h)
      · exact .inr (.inr (.inr ⟨h.1, .inr h.2⟩))
  · obtain ⟨lt, x⟩ := l
    obtain ⟨rt, y⟩ := r
    simp only at hlb hrb
    subst hlb hrb
    have hne : op ≠ .equals ∧ op ≠ .not_equals :=
      ⟨fun e => hbool ⟨.inl e, rfl, rfl⟩, fun e => hbool ⟨.inr e, rfl, rfl⟩⟩
    obtain ⟨rfl, h | h⟩ := evalBinary_bool (x := x) (y := y) hconv hne h
    · exact .inl ⟨_, h.2, rfl⟩
    · exact .inl ⟨_, h.2, rfl⟩
  · exact .inr (.inr (.inl ⟨he, hne⟩))

example : checkBinary (.uint 8) .shift_left .int = .ok (.uint 8) ∧ WF ⟨.uint 8, 3⟩ ∧
    WF ⟨.int, 2⟩ ∧ evalBinary ⟨.uint 8, 3⟩ .shift_left ⟨.int, 2⟩ = .ok ⟨.uint 8, 12⟩ := by decide

/-- **C10, violated: equality of `Bool`s.** The check accepts `==` and `!=` on two `Bool`s with
result type `Bool`, yet evaluation throws for all four pairs of values. -/
theorem C10_bool_equality_throws (a b : Bool) :
    checkBinary .bool .equals .bool = .ok .bool ∧
    checkBinary .bool .not_equals .bool = .ok .bool ∧
    evalBinary (CVal.ofBool a) .equals (CVal.ofBool b) = .throws ∧
    evalBinary (CVal.ofBool a) .not_equals (CVal.ofBool b) = .throws := by
  cases a <;> cases b <;> decide

/-- **C10, violated: the code `conversion`** is accepted as binary operator on two `Int`s and
evaluation throws. (No source program produces it.) -/
theorem C10_conversion_code_throws :
    checkBinary .int .conversion .int = .ok .int ∧
    evalBinary ⟨.int, 1⟩ .conversion ⟨.int, 2⟩ = .throws := by decide

/-- **C10, if-expression.** Accepted: a value of the common type, or a range error for an `Int`
operand that does not fit; rejected: a type error. -/
theorem C10_if {l c r : CVal} (hl : WF l) (hr : WF r) :
    (∀ t, checkIf l.type c.type r.type = .ok t →
      (∃ u, evalIf l c r = .ok u ∧ u.type = t) ∨
      (evalIf l c r = .err .int_to_uint_range_error ∧ l.type ≠ r.type)) ∧
    (∀ e, checkIf l.type c.type r.type = .err e → evalIf l c r = .err .type_error) := by
  constructor
  · intro t ht
    have hc : getCommonType l.type r.type = .ok t := by
      unfold checkIf at ht; split at ht
      · cases ht
      · exact ht
    have hcw : t.WF := by
      rw [C07_common_type_iff] at hc
      rcases hc with ⟨-, rfl⟩ | ⟨-, rfl, -⟩ | ⟨-, rfl, -⟩
      · exact hl.1
      · exact hr.1
      · exact hl.1
    have hev : evalIf l c r = evalConversion (if c.int ≠ 0 then l else r) t := by
      simp [evalIf, ht, evalConversion]
    rw [hev]
    have key : ∀ v : CVal, WF v → (v.type = l.type ∨ v.type = r.type) →
        (∃ u, evalConversion v t = .ok u ∧ u.type = t) ∨
        (evalConversion v t = .err .int_to_uint_range_error ∧ l.type ≠ r.type) := by
      intro v hv hlr
      rw [C08_lossless_conversion hv hcw]
      rw [C07_common_type_iff] at hc
      obtain ⟨vt, x⟩ := v
      simp only at hlr
      unfold losslessConversion
      rcases hc with ⟨h1, rfl⟩ | ⟨h1, h2, w, rfl⟩ | ⟨h1, h2, w, rfl⟩
      · have hvt : vt = l.type := by rcases hlr with h | h <;> simp [h, h1]
        subst hvt
        generalize l.type = lt
        left
        cases lt <;> exact ⟨_, if_pos rfl, rfl⟩
      · rw [h1, h2] at hlr ⊢
        rcases hlr with rfl | rfl
        · simp only
          split
          · exact .inl ⟨_, rfl, rfl⟩
          · exact .inr ⟨rfl, by simp⟩
        · exact .inl ⟨_, if_pos rfl, rfl⟩
      · rw [h1, h2] at hlr ⊢
        rcases hlr with rfl | rfl
        · exact .inl ⟨_, if_pos rfl, rfl⟩
        · simp only
          split
          · exact .inl ⟨_, rfl, rfl⟩
          · exact .inr ⟨rfl, by simp⟩
    split
    · exact key l hl (.inl rfl)
    · exact key r hr (.inr rfl)
  · intro e he
    simp [evalIf, he]

example : checkIf .int .bool (.uint 8) = .ok (.uint 8) ∧
    evalIf ⟨.int, 3⟩ CVal.tt ⟨.uint 8, 4⟩ = .ok ⟨.uint 8, 3⟩ ∧
    checkIf .int .int .int = .err .condition_not_bool := by decide

/-! ## C11: evaluation preserves well-formedness -/

/-- **C11, conversion.** -/
theorem C11_conversion_wf {v u : CVal} (hv : WF v) {t : CType} (ht : t.WF) {k : ConvKind}
    (h : v.convertTo t k = .ok u) : WF u ∧ u.type = t := by
  cases k with
  | lossless_numeric =>
    have := C08_conversion_keeps_value hv ht h
    exact ⟨this.2.2, this.1⟩
  | truncating_numeric =>
    obtain ⟨s, x⟩ := v
    by_cases hst : s = t
    · subst hst
      rw [convertTo_same'] at h
      cases h; exact ⟨hv, rfl⟩
    · cases s <;> cases t <;>
        first
        | (exact absurd rfl hst)
        | (simp [CVal.convertTo, CType.isConvertibleTo, hst] at h; done)
        | skip
      next w =>
        rw [convert_int_uint_trunc ht.2] at h
        cases h
        exact ⟨⟨ht, emod_two_pow_range x w⟩, rfl⟩

/-- **C11, unary operators.** -/
theorem C11_unary_wf {op : ExprType} {v u : CVal} (hv : WF v) (h : evalUnary op v = .ok u) :
    WF u := by
  obtain ⟨s, x⟩ := v
  cases s with
  | void => cases op <;> cases h
  | bool =>
    cases op <;> first | cases h | skip
    have hx : x = 0 ∨ x = 1 := hv.2
    rcases hx with rfl | rfl <;> decide
  | int =>
    cases op <;> first | cases h | skip
    · exact hv
    · have hb : (signed128 (-x) : Outcome EvalErr Int).map (fun x => (⟨.int, x⟩ : CVal)) = .ok u := h
      by_cases hx : -2 ^ 127 ≤ -x ∧ -x < 2 ^ 127
      · rw [signed128_ok hx] at hb; cases hb; exact ⟨trivial, hx⟩
      · rw [signed128_ub hx] at hb; cases hb
  | uint w =>
    have hw : 0 < w ∧ w < 128 := hv.1
    cases op <;> first | cases h | skip
    · exact hv
    · have hb := transformUint_eq hw.2 x (fun x => (2 ^ 128 - x) % 2 ^ 128)
      have : evalUnary .unary_minus ⟨.uint w, x⟩
        = CVal.transformUint ⟨.uint w, x⟩ (fun x => (2 ^ 128 - x) % 2 ^ 128) := rfl
      rw [this, hb] at h
      cases h; exact wf_uint_mod hw _
    · have hb := transformUint_eq hw.2 x (fun x => (2 ^ 128 - 1) ^^^ x)
      have : evalUnary .bitwise_not ⟨.uint w, x⟩
        = CVal.transformUint ⟨.uint w, x⟩ (fun x => (2 ^ 128 - 1) ^^^ x) := rfl
      rw [this, hb] at h
      cases h; exact wf_uint_mod hw _

/-- **C11, binary operators**, all operator codes. -/
theorem C11_binary_wf {op : ExprType} {l r u : CVal} (hl : WF l) (hr : WF r)
    (h : evalBinary l op r = .ok u) : WF u := by
  have hck : ∃ t, checkBinary l.type op r.type = .ok t := by
    rcases C10_check_total l.type r.type op with ht | ⟨e, he⟩
    · exact ht
    · rw [C10_binary_rejected he] at h; cases h
  obtain ⟨t, ht⟩ := hck
  have hop := checkBinary_isBinary ht
  rcases checked_operands hl hr ht with ⟨c, hc⟩ | ⟨hlb, hrb⟩ | ⟨hne, he⟩
  · have hcc := checkBinary_common ht (getCommonType_operands hc)
    rw [evalBinary_operands hc op hop, hcc] at h
    simp only [Outcome.mapErr_ok, Outcome.ok_bind] at h
    have hin := operands_inType hc
    by_cases hconv : op = .conversion
    · subst hconv
      cases c <;> cases h
    cases c with
    | void => cases hc
    | bool => cases hc
    | int =>
      rcases evalBinaryEqual_int hin.1 hin.2 hop hconv hcc with ⟨v, hv, -, hw⟩ | h' | h'
      · rw [hv] at h; cases h; exact hw
      · rw [h'.1] at h; cases h
      · rw [h'.1] at h; cases h
    | uint w =>
      rcases evalBinaryEqual_uint (operands_uint_width hc) hin.1 hin.2 hop hconv hcc with
        ⟨v, hv, -, hw⟩ | h' | h'
      · rw [hv] at h; cases h; exact hw
      · rw [h'.1] at h; cases h
      · rw [h'.1] at h; cases h
  · obtain ⟨lt, x⟩ := l
    obtain ⟨rt, y⟩ := r
    simp only at hlb hrb
    subst hlb hrb
    have e : evalBinary ⟨.bool, x⟩ op ⟨.bool, y⟩ = evalBinaryBool ⟨.bool, x⟩ op ⟨.bool, y⟩ := by
      simp [evalBinary, ht, convertToEqual, getCommonType, convertTo_same', evalBinaryEqual,
        CType.isInteger]
    rw [e] at h
    unfold evalBinaryBool at h
    split at h <;> cases h <;> exact wf_ofBool _
  · rw [he] at h; cases h

/-- **C11, if-expression.** -/
theorem C11_if_wf {l c r u : CVal} (hl : WF l) (hr : WF r)
    (h : evalIf l c r = .ok u) : WF u := by
  simp only [evalIf, Outcome.bind_eq_ok] at h
  obtain ⟨t, ht, h⟩ := h
  have ht' : checkIf l.type c.type r.type = .ok t := by
    cases hq : checkIf l.type c.type r.type <;> rw [hq] at ht <;> cases ht; rfl
  have hc : getCommonType l.type r.type = .ok t := by
    unfold checkIf at ht'; split at ht'
    · cases ht'
    · exact ht'
  have hcw : t.WF := by
    rcases (C07_common_type_sound hc).1 with rfl | rfl
    · exact hl.1
    · exact hr.1
  split at h
  · exact (C11_conversion_wf hl hcw h).1
  · exact (C11_conversion_wf hr hcw h).1

example : WF ⟨.uint 8, 200⟩ ∧ evalBinary ⟨.uint 8, 200⟩ .binary_plus ⟨.uint 8, 100⟩
    = .ok ⟨.uint 8, 44⟩ := by decide

/-! ## C12: evaluation of partially unknown operands -/

/-- `V`, computed with partial knowledge, is sound for the concrete computation `C`:
* a returned value describes the concrete result, and if it is known then the concrete
  computation does return exactly that value;
* a reported error is the error of the concrete computation. -/
def Spec.SoundFolding (V : Outcome EvalErr Value) (C : Outcome EvalErr CVal) : Prop :=
  (∀ v, V = .ok v →
    (∀ u, C = .ok u → Describes v u) ∧ (∀ x, v.val = some x → C = .ok ⟨v.type, x⟩)) ∧
  (∀ e, V = .err e → C = .err e)

theorem soundFolding_err (e : EvalErr) : SoundFolding (.err e) (.err e) :=
  ⟨fun _ hv => (by cases hv), fun e he => by cases he; rfl⟩

theorem soundFolding_throws (C : Outcome EvalErr CVal) : SoundFolding .throws C :=
  ⟨fun _ hv => (by cases hv), fun e he => (by cases he)⟩

theorem soundFolding_unknown {C : Outcome EvalErr CVal} {t : CType}
    (h : ∀ u, C = .ok u → u.type = t) : SoundFolding (.ok (Value.unknownOf t)) C := by
  refine ⟨fun v hv => ?_, fun e he => (by cases he)⟩
  cases hv
  exact ⟨fun u hu => ⟨(h u hu).symm, fun x hx => (by cases hx)⟩, fun x hx => (by cases hx)⟩

theorem soundFolding_known (C : Outcome EvalErr CVal) :
    SoundFolding (C.map Value.known) C := by
  cases C with
  | ok u =>
    constructor
    · intro v hv; cases hv
      refine ⟨fun u' hu => ?_, fun x hx => ?_⟩
      · cases hu; exact ⟨rfl, fun x hx => by cases hx; rfl⟩
      · cases hx; rfl
    · intro e he; cases he
  | err e => exact soundFolding_err e
  | throws => exact soundFolding_throws _
  | ub => exact ⟨fun _ hv => (by cases hv), fun e he => (by cases he)⟩

/-- A known value describes only one concrete value. -/
theorem describes_known {v : Value} {c : CVal} (h : Describes v c) {x : Int}
    (hx : v.val = some x) : c = ⟨v.type, x⟩ := by
  obtain ⟨h1, h2⟩ := h
  rw [h1, h2 x hx]

theorem convertTo_ok_type {v u : CVal} {t : CType} {k : ConvKind}
    (h : v.convertTo t k = .ok u) : u.type = t := by
  simp only [CVal.convertTo] at h
  split at h
  · next heq => cases h; exact heq
  split at h
  · cases h
  split at h
  · split at h
    · cases h
    · cases h; rfl
  · cases h

theorem convertTo_ne_throws (v : CVal) (t : CType) (k : ConvKind) :
    v.convertTo t k ≠ .throws := by
  intro h
  simp only [CVal.convertTo] at h
  split at h
  · cases h
  split at h
  · cases h
  split at h
  · split at h <;> cases h
  · next h1 h2 h3 =>
    revert h1 h2 h3
    generalize v.type = s
    cases s <;> cases t <;> simp [CType.isConvertibleTo, CType.isUint]

theorem valueConvertTo_ne_throws (v : Value) (t : CType) (k : ConvKind) :
    v.convertTo t k ≠ .throws := by
  unfold Value.convertTo
  split
  · simp
  · split
    · simp
    · next x _ =>
      have := convertTo_ne_throws ⟨v.type, x⟩ t k
      cases h : CVal.convertTo ⟨v.type, x⟩ t k <;> simp_all

theorem valueConvertTo_known {v v' : Value} {t : CType} {k : ConvKind}
    (h : v.convertTo t k = .ok v') :
    v'.type = t ∧ (v.val = none → v'.val = none) ∧
    (∀ x, v.val = some x → ∃ y, v'.val = some y ∧
      CVal.convertTo ⟨v.type, x⟩ t k = .ok ⟨t, y⟩) := by
  unfold Value.convertTo at h
  split at h
  · cases h
  · split at h
    · next hv => cases h; simp [Value.unknownOf, hv]
    · next x hx =>
      cases hc : CVal.convertTo ⟨v.type, x⟩ t k with
      | ok u =>
        rw [hc] at h; cases h
        have := convertTo_ok_type hc
        subst this
        refine ⟨rfl, by simp [hx], fun y hy => ?_⟩
        rw [hx] at hy; cases hy
        exact ⟨u.int, rfl, hc⟩
      | _ => rw [hc] at h; cases h

theorem convertTo_not_convertible {v : CVal} {t : CType} {k : ConvKind}
    (h : ¬ v.type.isConvertibleTo t = true) : v.convertTo t k = .err .type_error := by
  unfold CVal.convertTo
  rw [if_neg, if_pos h]
  rintro rfl; simp [CType.isConvertibleTo] at h

/-- **C12, conversion.** -/
theorem C12_conversion {v : Value} {c : CVal} (hd : Describes v c) (t : CType) :
    SoundFolding (evalConversionV v t) (evalConversion c t) := by
  unfold evalConversionV Value.convertTo
  split
  · next hn =>
    rw [hd.1] at hn
    unfold evalConversion
    rw [convertTo_not_convertible hn]
    exact soundFolding_err _
  · cases hv : v.val with
    | none => exact soundFolding_unknown fun u hu => convertTo_ok_type hu
    | some x =>
      rw [describes_known hd hv]
      exact soundFolding_known _

/-- **C12, unary operators.** -/
theorem C12_unary {v : Value} {c : CVal} (hd : Describes v c) (hc : WF c) (op : ExprType) :
    SoundFolding (evalUnaryV op v) (evalUnary op c) := by
  unfold evalUnaryV
  cases hck : checkUnary op v.type with
  | err e =>
    rw [hd.1] at hck
    rw [(C10_unary op hc).2 e hck]
    exact soundFolding_err _
  | throws => exact soundFolding_throws _
  | ub => exact ⟨fun _ hv => (by cases hv), fun e he => (by cases he)⟩
  | ok t =>
    cases hv : v.val with
    | some x =>
      rw [describes_known hd hv]
      exact soundFolding_known _
    | none =>
      have : v = Value.unknownOf c.type := by
        obtain ⟨vt, vv⟩ := v
        simp only at hv; rw [hv, ← hd.1]; rfl
      simp only [Outcome.mapErr_ok, Outcome.ok_bind]
      rw [this]
      apply soundFolding_unknown
      intro u hu
      rw [hd.1] at hck
      rcases (C10_unary op hc).1 t hck with ⟨w, hw, ht⟩ | ⟨hub, -⟩
      · rw [hw] at hu; cases hu
        rw [ht]
        revert hck
        unfold checkUnary
        split
        · intro h; cases h
        · cases c.type <;> simp only [] <;> (repeat' split) <;> intro h <;> cases h <;> rfl
      · rw [hub] at hu; cases hu

/-- The concrete evaluation on already converted operands is the evaluation on the original
operands. -/
theorem evalBinary_converted {l r l' r' : CVal} {c : CType} {op : ExprType}
    (hc : getCommonType l.type r.type = .ok c)
    (hl : l.convertTo c .lossless_numeric = .ok l')
    (hr : r.convertTo c .lossless_numeric = .ok r') :
    evalBinary l' op r' = evalBinary l op r := by
  have hlt := convertTo_ok_type hl
  have hrt := convertTo_ok_type hr
  obtain ⟨lt, x⟩ := l'
  obtain ⟨rt, y⟩ := r'
  simp only at hlt hrt
  rw [hlt] at hl ⊢
  rw [hrt] at hr ⊢
  have e1 : convertToEqual l r = .ok (⟨c, x⟩, ⟨c, y⟩) := by
    simp [convertToEqual, hc, hl, hr]
  have e2 : convertToEqual ⟨c, x⟩ ⟨c, y⟩ = .ok (⟨c, x⟩, ⟨c, y⟩) := by
    simp [convertToEqual, getCommonType, convertTo_same']
  have e3 : checkBinary c op c = checkBinary l.type op r.type := by
    unfold checkBinary
    rw [hc]
    have : getCommonType c c = .ok c := by simp [getCommonType]
    rw [this]
    split
    · rfl
    · have : (c = .void ∨ c = .void) ↔ (l.type = .void ∨ r.type = .void) := by
        rw [C07_common_type_iff] at hc
        rcases hc with ⟨h, rfl⟩ | ⟨h, rfl, w, hw⟩ | ⟨h, rfl, w, hw⟩
        · rw [h]
        · simp [h, hw]
        · simp [h, hw]
      simp only [this]
  unfold evalBinary
  rw [e1, e2, e3]

/-- **C12, binary operators.** For every operator, every pair of `Value`s and every pair of
well-formed concrete values they describe, folding is sound. (Folding may throw; see
`C12_uint_known_divisor_throws`.) -/
theorem C12_binary {a b : Value} {ca cb : CVal} (ha : Describes a ca) (hb : Describes b cb)
    (hwa : WF ca) (hwb : WF cb) (op : ExprType) :
    SoundFolding (evalBinaryV a op b) (evalBinary ca op cb) := by
  unfold evalBinaryV
  rcases C10_check_total a.type b.type op with ⟨t, ht⟩ | ⟨e, he⟩
  · rw [ht]
    simp only [Outcome.mapErr_ok, Outcome.ok_bind]
    obtain ⟨hav, hbv, c, hcc⟩ := checkBinary_getCommon ht
    have hcc' := hcc
    have ht' := ht
    rw [ha.1, hb.1] at hcc' ht'
    have htype : ∀ u, evalBinary ca op cb = .ok u → u.type = t := by
      intro u hu
      by_cases hconv : op = .conversion
      · subst hconv
        exfalso
        have := checked_operands hwa hwb ht'
        rcases this with ⟨c', hc'⟩ | ⟨h1, h2⟩ | ⟨-, h⟩
        · rw [evalBinary_operands hc' _ rfl] at hu
          cases c' <;> cases hc' <;> cases hu
        · obtain ⟨x1, x⟩ := ca
          obtain ⟨y1, y⟩ := cb
          simp only at h1 h2
          subst h1 h2
          cases hu
        · rw [h] at hu; cases hu
      by_cases hbool : (op = .equals ∨ op = .not_equals) ∧ ca.type = .bool ∧ cb.type = .bool
      · obtain ⟨h0, h1, h2⟩ := hbool
        obtain ⟨x1, x⟩ := ca
        obtain ⟨y1, y⟩ := cb
        simp only at h1 h2
        subst h1 h2
        rcases h0 with rfl | rfl <;> cases hu
      rcases C10_binary_accepted_partial hwa hwb hconv hbool ht' with
        ⟨v, hv, hvt⟩ | h | h | h
      · rw [hv] at hu; cases hu; exact hvt
      · rw [h.1] at hu; cases hu
      · rw [h.1] at hu; cases hu
      · rw [h.1] at hu; cases hu
    have hconvA := C12_conversion ha c
    have hconvB := C12_conversion hb c
    unfold evalConversionV evalConversion at hconvA hconvB
    have herr : ∀ e, (ca.convertTo c .lossless_numeric = .err e ∨
        ((∃ l, ca.convertTo c .lossless_numeric = .ok l) ∧
          cb.convertTo c .lossless_numeric = .err e)) → evalBinary ca op cb = .err e := by
      intro e he
      unfold evalBinary convertToEqual
      rw [ht', hcc']
      rcases he with he | ⟨⟨l, hl⟩, he⟩
      · simp [he]
      · simp [hl, he]
    have hconvt := C07_common_type_sound hcc
    have unk : ∀ v : Value, v.type.isConvertibleTo c = true → v.val = none →
        v.convertTo c .lossless_numeric = .ok (Value.unknownOf c) := by
      intro v h1 h2; simp [Value.convertTo, h1, h2]
    have kno : ∀ (v : Value) (x : Int), v.type.isConvertibleTo c = true → v.val = some x →
        v.convertTo c .lossless_numeric =
          (CVal.convertTo ⟨v.type, x⟩ c .lossless_numeric).map Value.known := by
      intro v x h1 h2; simp [Value.convertTo, h1, h2]
    simp only [convertToEqualV, hcc, Outcome.mapErr_ok, Outcome.ok_bind]
    cases hav' : a.val with
    | none =>
      rw [unk a hconvt.2.1 hav']
      cases hbv' : b.val with
      | none =>
        rw [unk b hconvt.2.2 hbv']
        exact soundFolding_unknown htype
      | some y =>
        rw [kno b y hconvt.2.2 hbv', ← describes_known hb hbv']
        cases hcb : cb.convertTo c .lossless_numeric with
        | ok r' =>
          have hr't := convertTo_ok_type hcb
          simp only [Outcome.map_ok, Outcome.ok_bind, Value.known, Value.unknownOf]
          have hchk : ∀ e, checkKnownRhs op ⟨c, none⟩ ⟨r'.type, some r'.int⟩ = .err e →
              evalBinary ca op cb = .err e := by
            intro e he
            by_cases hci : c = .int
            · subst hci
              have hai : ca.type = .int ∧ cb.type = .int := by
                rw [C07_common_type_iff] at hcc'
                rcases hcc' with ⟨h1, h2⟩ | ⟨h1, h2, w, h3⟩ | ⟨h1, h2, w, h3⟩
                · exact ⟨h2.symm, by rw [← h1, ← h2]⟩
                · cases h3
                · cases h3
              have hr' : r' = cb := by
                rw [← hai.2, convertTo_same] at hcb; cases hcb; rfl
              subst hr'
              rw [hai.2] at he
              rw [hai.1, hai.2] at ht'
              obtain ⟨x1, x⟩ := ca
              obtain ⟨y1, y⟩ := r'
              obtain ⟨h1, h2⟩ := hai
              simp only at h1 h2
              subst h1 h2
              cases op <;> first
                | (cases he; done)
                | (cases ht'; done)
                | skip
              all_goals
                by_cases hy : y = 0
                · subst hy
                  have : e = .division_by_zero := by cases he; rfl
                  rw [this]; rfl
                · simp [checkKnownRhs, Value.asInt, hy] at he
            · exfalso
              cases op <;> first
                | (cases he; done)
                | (simp [checkKnownRhs, Value.asInt, hr't, hci] at he)
          cases hk : checkKnownRhs op ⟨c, none⟩ ⟨r'.type, some r'.int⟩ with
          | ok _ => exact soundFolding_unknown htype
          | err e => rw [hchk e hk]; exact soundFolding_err e
          | throws => exact soundFolding_throws _
          | ub => exact ⟨fun _ hv => (by cases hv), fun e he => (by cases he)⟩
        | err e =>
          have hac : ca.type = c := by
            rw [C07_common_type_iff] at hcc'
            rcases hcc' with ⟨h1, h2⟩ | ⟨h1, h2, w, h3⟩ | ⟨h1, h2, w, h3⟩
            · exact h2.symm
            · rw [← h2, convertTo_same] at hcb; cases hcb
            · exact h2
          rw [herr e (.inr ⟨⟨ca, by rw [← hac]; exact convertTo_same _ _⟩, hcb⟩)]
          exact soundFolding_err e
        | throws => exact soundFolding_throws _
        | ub => exact ⟨fun _ hv => (by cases hv), fun e he => (by cases he)⟩
    | some x =>
      rw [kno a x hconvt.2.1 hav', ← describes_known ha hav']
      cases hca : ca.convertTo c .lossless_numeric with
      | err e => rw [herr e (.inl hca)]; exact soundFolding_err e
      | throws => exact soundFolding_throws _
      | ub => exact ⟨fun _ hv => (by cases hv), fun e he => (by cases he)⟩
      | ok l' =>
        cases hbv' : b.val with
        | none =>
          rw [unk b hconvt.2.2 hbv']
          exact soundFolding_unknown htype
        | some y =>
          rw [kno b y hconvt.2.2 hbv', ← describes_known hb hbv']
          cases hcb : cb.convertTo c .lossless_numeric with
          | err e => rw [herr e (.inr ⟨⟨l', hca⟩, hcb⟩)]; exact soundFolding_err e
          | throws => exact soundFolding_throws _
          | ub => exact ⟨fun _ hv => (by cases hv), fun e he => (by cases he)⟩
          | ok r' =>
            rw [← evalBinary_converted hcc' hca hcb]
            exact soundFolding_known _
  · rw [he]
    rw [ha.1, hb.1] at he
    rw [C10_binary_rejected he]
    exact soundFolding_err _


example : Describes (Value.unknownOf .int) ⟨.int, 7⟩ ∧
    evalBinaryV (Value.unknownOf .int) .division (.known ⟨.int, 0⟩) = .err .division_by_zero ∧
    evalBinaryV (.known ⟨.int, 7⟩) .binary_plus (.known ⟨.uint 8, 250⟩)
      = .ok (.known ⟨.uint 8, 1⟩) := by
  refine ⟨⟨rfl, fun x hx => (by cases hx)⟩, by decide, by decide⟩

/-- **C12, when folding throws.** Folding a binary operator throws only for `Bool` equality, the
code `conversion`, or (the case that matters) `/ % << >>` with an unknown left and a known right
operand whose common type is a `Uint`. -/
theorem C12_binary_clean_partial {a b : Value} (ha : a.type.WF) (hb : b.type.WF)
    (hka : ∀ x, a.val = some x → InType a.type x) (hkb : ∀ x, b.val = some x → InType b.type x)
    {op : ExprType} (hconv : op ≠ .conversion)
    (hbool : ¬ ((op = .equals ∨ op = .not_equals) ∧ a.type = .bool ∧ b.type = .bool))
    (huint : ¬ (a.val = none ∧ b.val ≠ none ∧ (a.type.isUint ∨ b.type.isUint) ∧
      (op = .division ∨ op = .remainder ∨ op = .shift_left ∨ op = .shift_right))) :
    evalBinaryV a op b ≠ .throws := by
  unfold evalBinaryV
  rcases (C10_check_total a.type b.type op).symm with ⟨e, he⟩ | ⟨t, ht⟩
  · simp [he]
  obtain ⟨hav, hbv, c, hcc⟩ := checkBinary_getCommon ht
  simp only [ht, convertToEqualV, hcc, Outcome.mapErr_ok, Outcome.ok_bind]
  cases hl : a.convertTo c .lossless_numeric with
  | err e => simp
  | throws => exact absurd hl (valueConvertTo_ne_throws _ _ _)
  | ub => simp
  | ok l =>
  cases hr : b.convertTo c .lossless_numeric with
  | err e => simp
  | throws => exact absurd hr (valueConvertTo_ne_throws _ _ _)
  | ub => simp
  | ok r =>
  simp only [Outcome.ok_bind]
  obtain ⟨hl1, hl2, hl3⟩ := valueConvertTo_known hl
  obtain ⟨hr1, hr2, hr3⟩ := valueConvertTo_known hr
  cases hva : a.val with
  | none =>
    cases hvb : b.val with
    | none => simp [hl2 hva, hr2 hvb]
    | some y =>
      obtain ⟨y', hy', -⟩ := hr3 y hvb
      simp only [hl2 hva, hy']
      by_cases hci : c = .int
      · have : checkKnownRhs op l r ≠ .throws := by
          simp only [checkKnownRhs, Value.asInt, hy', hr1, hci, if_true, Outcome.ok_bind]
          (repeat' split) <;> simp
        cases hk : checkKnownRhs op l r <;> simp_all
      · by_cases hdiv : op = .division ∨ op = .remainder ∨ op = .shift_left ∨ op = .shift_right
        · exfalso
          apply huint
          refine ⟨hva, by simp [hvb], ?_, hdiv⟩
          have hcm := checkBinary_common ht hcc
          rcases (C07_common_type_sound hcc).1 with h | h
          · left; rw [← h]
            cases c with
            | void => cases hcm
            | bool => rcases hdiv with h | h | h | h <;> subst h <;> cases hcm
            | int => exact absurd rfl hci
            | uint w => rfl
          · right; rw [← h]
            cases c with
            | void => cases hcm
            | bool => rcases hdiv with h | h | h | h <;> subst h <;> cases hcm
            | int => exact absurd rfl hci
            | uint w => rfl
        · have : checkKnownRhs op l r = .ok () := by
            unfold checkKnownRhs
            rw [if_neg (fun h => hdiv (by rcases h with h | h <;> simp [h])),
              if_neg (fun h => hdiv (by rcases h with h | h <;> simp [h]))]
          simp [this]
  | some x =>
    obtain ⟨x', hx', hxc⟩ := hl3 x hva
    cases hvb : b.val with
    | none => simp [hx', hr2 hvb]
    | some y =>
      obtain ⟨y', hy', hyc⟩ := hr3 y hvb
      simp only [hx', hy', hl1, hr1]
      rw [evalBinary_converted (l := ⟨a.type, x⟩) (r := ⟨b.type, y⟩) hcc hxc hyc]
      rcases C10_binary_accepted_partial (l := ⟨a.type, x⟩) (r := ⟨b.type, y⟩)
        ⟨ha, hka x hva⟩ ⟨hb, hkb y hvb⟩ hconv hbool ht with ⟨u, hu, -⟩ | h | h | h
      · simp [hu]
      · simp [h.1]
      · simp [h.1]
      · simp [h.1]

/-- **C12, violated: folding throws.** For every width `w` and every constant `c` in range,
dividing an unknown `Uint(w)` by the constant, taking the remainder, or shifting it by the
constant makes folding throw, although the concrete evaluation is defined whenever `c ≠ 0`. -/
theorem C12_uint_known_divisor_throws {w : Nat} (hw : 0 < w ∧ w < 128) {c : Int}
    (hc : InType (.uint w) c) {op : ExprType}
    (hop : op = .division ∨ op = .remainder ∨ op = .shift_left ∨ op = .shift_right) :
    evalBinaryV (Value.unknownOf (.uint w)) op (.known ⟨.int, c⟩) = .throws ∧
    evalBinaryV (Value.unknownOf (.uint w)) op (.known ⟨.uint w, c⟩) = .throws := by
  have hcv := convert_int_uint hw.2 (inI128_of_uint hw.2 hc)
  rw [if_pos (show 0 ≤ c ∧ c < 2 ^ w from hc)] at hcv
  have h1 : Value.convertTo (.known ⟨.int, c⟩) (.uint w) .lossless_numeric
      = .ok (.known ⟨.uint w, c⟩) := by
    simp [Value.convertTo, Value.known, CType.isConvertibleTo, hcv]
  have h2 : Value.convertTo (.known ⟨.uint w, c⟩) (.uint w) .lossless_numeric
      = .ok (.known ⟨.uint w, c⟩) := by
    simp [Value.convertTo, Value.known, CType.isConvertibleTo, convertTo_same']
  have h3 : Value.convertTo (.unknownOf (.uint w)) (.uint w) .lossless_numeric
      = .ok (.unknownOf (.uint w)) := by
    simp [Value.convertTo, Value.unknownOf, CType.isConvertibleTo]
  have key : ∀ v : Value, (v.type = .int ∨ v.type = .uint w) →
      v.convertTo (.uint w) .lossless_numeric = .ok (.known ⟨.uint w, c⟩) →
      evalBinaryV (Value.unknownOf (.uint w)) op v = .throws := by
    intro v hv hconv
    have hcom : getCommonType (.uint w) v.type = .ok (.uint w) := by
      rcases hv with hv | hv <;> simp [hv, getCommonType]
    have hck : checkBinary (.uint w) op v.type = .ok (.uint w) := by
      unfold checkBinary
      rw [hcom]
      rcases hop with rfl | rfl | rfl | rfl <;> rcases hv with hv | hv <;> rw [hv] <;> rfl
    simp only [evalBinaryV, Value.unknownOf, hck, convertToEqualV, hcom, Outcome.mapErr_ok,
      Outcome.ok_bind]
    rw [show (Value.mk (CType.uint w) none) = Value.unknownOf (.uint w) from rfl, h3, hconv]
    rcases hop with rfl | rfl | rfl | rfl <;> rfl
  exact ⟨key _ (.inl rfl) h1, key _ (.inr rfl) h2⟩

example : evalBinary ⟨.uint 8, 100⟩ .division ⟨.int, 2⟩ = .ok ⟨.uint 8, 50⟩ := by decide

/-- **C12, if-expression.** -/
theorem C12_if {a k b : Value} {ca ck cb : CVal} (ha : Describes a ca) (hk : Describes k ck)
    (hb : Describes b cb) :
    SoundFolding (evalIfV a k b) (evalIf ca ck cb) := by
  unfold evalIfV evalIf
  rw [ha.1, hk.1, hb.1]
  cases hck : checkIf ca.type ck.type cb.type with
  | err e => exact soundFolding_err _
  | throws => exact soundFolding_throws _
  | ub => exact ⟨fun _ hv => (by cases hv), fun e he => (by cases he)⟩
  | ok t =>
    simp only [Outcome.mapErr_ok, Outcome.ok_bind]
    have hbool : ck.type = .bool := by
      unfold checkIf at hck
      split at hck
      · cases hck
      · next h => simpa using h
    cases hv : k.val with
    | none =>
      simp only [Value.isKnown, hv, Option.isSome_none, Bool.false_eq_true, not_false_eq_true,
        if_true]
      exact soundFolding_unknown fun u hu => convertTo_ok_type hu
    | some x =>
      have hx := hk.2 x hv
      subst hx
      simp only [Value.isKnown, hv, Option.isSome_some, not_true_eq_false, if_false, Value.asBool,
        hk.1, hbool, if_true, Outcome.ok_bind]
      by_cases h0 : ck.int = 0
      · simp only [h0, ne_eq, not_true_eq_false, decide_false, Bool.false_eq_true, if_false]
        exact C12_conversion hb t
      · simp only [h0, ne_eq, not_false_eq_true, decide_true, if_true]
        exact C12_conversion ha t

/-- Element-wise description of argument lists. -/
inductive Spec.DescribesAll : List Value → List CVal → Prop
  | nil : DescribesAll [] []
  | cons {v c vs cs} : Describes v c → DescribesAll vs cs → DescribesAll (v :: vs) (c :: cs)

/-- **C12, builtin functions.** -/
theorem C12_builtin {vs : List Value} {cs : List CVal} (h : DescribesAll vs cs) (f : Builtin) :
    SoundFolding (evalBuiltinV f vs) (evalBuiltin f cs) := by
  have htypes : vs.map Value.type = cs.map CVal.type := by
    induction h with
    | nil => rfl
    | cons h1 _ ih => simp [h1.1, ih]
  have hconc : vs.any (fun a => !a.isKnown) = false →
      (concreteAll vs : Outcome EvalErr _) = .ok cs := by
    clear htypes
    induction h with
    | nil => intro _; rfl
    | @cons v c vs cs h1 _ ih =>
      intro hk
      simp only [List.any_cons, Bool.or_eq_false_iff, Bool.not_eq_false', Value.isKnown,
        Option.isSome_iff_exists] at hk
      obtain ⟨⟨x, hx⟩, hk⟩ := hk
      have hc := describes_known h1 hx
      rw [concreteAll, ih hk]
      simp [Value.concrete, hx, hc]
  unfold evalBuiltinV evalBuiltin
  rw [htypes]
  cases hck : checkBuiltin f (cs.map CVal.type) with
  | err e => exact soundFolding_err _
  | throws => exact soundFolding_throws _
  | ub => exact ⟨fun _ hv => (by cases hv), fun e he => (by cases he)⟩
  | ok t =>
    simp only [Outcome.mapErr_ok, Outcome.ok_bind]
    by_cases hany : vs.any (fun a => !a.isKnown) = true
    · rw [if_pos hany]
      apply soundFolding_unknown
      intro u hu
      cases f
      have ht : t = .void := by
        unfold checkBuiltin at hck
        split at hck
        · cases hck
        · simp only at hck; split at hck
          · cases hck
          · cases hck; rfl
      subst ht
      simp only [unsafeEvalBuiltin, hck, Outcome.mapErr_ok, Outcome.ok_bind] at hu
      split at hu
      · cases hu
      · split at hu
        · cases hu
        · cases hu; rfl
    · rw [if_neg hany, hconc (by simpa using hany)]
      exact soundFolding_known _

/-! ## C13: the builtin `assert` -/

/-- **C13.** `assert` applied to any list of well-formed values: it returns `Void` exactly for
the single argument `true`, fails with `assertion_fail` exactly for the single argument `false`,
and reports a type error for every other list. -/
theorem C13_assert (args : List CVal) (h : ∀ a ∈ args, WF a) :
    evalBuiltin .assert args =
      if args = [CVal.tt] then .ok CVal.void
      else if args = [CVal.ff] then .err .assertion_fail
      else .err .type_error := by
  match args with
  | [] => rfl
  | a :: b :: rest =>
    have h1 : ¬ (a :: b :: rest = [CVal.tt]) := by simp
    have h2 : ¬ (a :: b :: rest = [CVal.ff]) := by simp
    rw [if_neg h1, if_neg h2]
    simp [evalBuiltin, checkBuiltin, Builtin.paramTypes]
  | [⟨t, x⟩] =>
    have ha := h ⟨t, x⟩ (by simp)
    cases t with
    | bool =>
      have hx : x = 0 ∨ x = 1 := ha.2
      rcases hx with rfl | rfl <;> decide
    | _ => simp [evalBuiltin, checkBuiltin, Builtin.paramTypes, CVal.tt, CVal.ff]

example : evalBuiltin .assert [CVal.tt] = .ok CVal.void ∧
    evalBuiltin .assert [CVal.ff] = .err .assertion_fail ∧
    evalBuiltin .assert [⟨.int, 1⟩] = .err .type_error := by decide

/-! ## C14: if-expressions -/

/-- **C14.** An if-expression whose operands have common type `t` returns the chosen operand
converted losslessly to `t`. -/
theorem C14_if_expression {l r : CVal} {t : CType} (b : Bool)
    (h : getCommonType l.type r.type = .ok t) :
    evalIf l (CVal.ofBool b) r = evalConversion (if b then l else r) t := by
  cases b <;> simp [evalIf, checkIf, CVal.ofBool, h, evalConversion]

/-- **C14, the operand that is not chosen does not matter**: replacing it by any other value of
its type gives the same outcome. -/
theorem C14_unchosen_irrelevant {l r l' r' : CVal} (hl : l.type = l'.type) (hr : r.type = r'.type) :
    evalIf l CVal.tt r = evalIf l CVal.tt r' ∧ evalIf l CVal.ff r = evalIf l' CVal.ff r := by
  constructor
  · simp [evalIf, hr, CVal.tt]
  · simp [evalIf, hl, CVal.ff]

/-- **C14, the integer value of the chosen operand is kept.** -/
theorem C14_if_value {l r u : CVal} (hl : WF l) (hr : WF r) (b : Bool)
    (h : evalIf l (CVal.ofBool b) r = .ok u) :
    u.int = (if b then l else r).int ∧ getCommonType l.type r.type = .ok u.type := by
  cases hc : getCommonType l.type r.type with
  | ok t =>
    rw [C14_if_expression b hc] at h
    have hcw : t.WF := by
      rcases (C07_common_type_sound hc).1 with rfl | rfl
      · exact hl.1
      · exact hr.1
    have hw : WF (if b then l else r) := by split <;> assumption
    have := C08_conversion_keeps_value hw hcw h
    exact ⟨this.2.1, by rw [this.1]⟩
  | _ => simp [evalIf, checkIf, CVal.ofBool, hc] at h

example : evalIf ⟨.int, 3⟩ (CVal.ofBool false) ⟨.uint 8, 4⟩ = .ok ⟨.uint 8, 4⟩ ∧
    evalIf ⟨.int, 300⟩ (CVal.ofBool true) ⟨.uint 8, 4⟩ = .err .int_to_uint_range_error := by decide

end Bms
