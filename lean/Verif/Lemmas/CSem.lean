import Verif.Spec.CSem
import Verif.Lemmas.Source
import Verif.Props.Arithmetic

/-!
# Lemmas: values in C and in BMS
-/

namespace Bms.C

open Spec (Operands InType WF exactArith exactCompare bitFun)

/-! ## Results -/

namespace CRes

@[simp] theorem ok_bind {α β : Type} (a : α) (f : α → CRes β) : (CRes.ok a >>= f) = f a := rfl
@[simp] theorem undef_bind {α β : Type} (f : α → CRes β) : (CRes.undef >>= f) = .undef := rfl
@[simp] theorem aborts_bind {α β : Type} (f : α → CRes β) : (CRes.aborts >>= f) = .aborts := rfl
@[simp] theorem timeout_bind {α β : Type} (f : α → CRes β) : (CRes.timeout >>= f) = .timeout := rfl

end CRes

/-- The result has the property, or it is undefined where this is allowed. -/
def Agrees {α : Type} (strict : Bool) (P : α → Prop) : CRes α → Prop
  | .ok a => P a
  | .undef => strict = false
  | _ => False

theorem Agrees.bind {α β : Type} {strict : Bool} {P : α → Prop} {Q : β → Prop} {x : CRes α} {f : α → CRes β}
    (h : Agrees strict P x) (hf : ∀ a, P a → Agrees strict Q (f a)) : Agrees strict Q (x >>= f) := by
  cases x with
  | ok a => exact hf a h
  | undef => exact h
  | aborts => exact h.elim
  | timeout => exact h.elim

theorem Agrees.mono {α : Type} {strict : Bool} {P Q : α → Prop} {x : CRes α}
    (h : Agrees strict P x) (hf : ∀ a, P a → Q a) : Agrees strict Q x := by
  cases x with
  | ok a => exact hf a h
  | undef => exact h
  | aborts => exact h.elim
  | timeout => exact h.elim

/-! ## Types -/

/-- The type in C of an expression of this type; `f`: it has its own type, and not that of a number. -/
def FitsTy : CType → Bool → VTy → Prop
  | .void, _, ty => ty = .void
  | .bool, _, ty => ty = .bool ∨ ty = .int
  | .int, _, ty => ty = .int
  | .uint w, true, ty => 32 ≤ w ∧ (ty = .uint w ∨ ty = .bits w)
  | .uint w, false, ty => 32 ≤ w ∧ ty = .int

/-- The value in C for a value in BMS. -/
def Rep (f : Bool) (v : CVal) (c : CV) : Prop :=
  FitsTy v.type f c.type ∧ c.int = v.int ∧ c.type.Holds c.int

theorem fits_void {t : CType} {f : Bool} {ty : VTy} (h : FitsTy t f ty) (ht : t ≠ .void) : ty ≠ .void := by
  rintro rfl
  cases t with
  | void => exact ht rfl
  | bool => rcases h with h | h <;> cases h
  | int => cases h
  | uint w =>
    cases f with
    | true => rcases h with ⟨-, h | h⟩ <;> cases h
    | false => cases h.2

theorem typeIs_fits {t : CType} {ty : Ty} (h : TypeIs t ty) (hw : t = .void ∨ Wide t) : FitsTy t true ty.value := by
  cases h with
  | void => rfl
  | bool => exact .inl rfl
  | int => rfl
  | exact => exact ⟨hw.resolve_left (by simp), .inl rfl⟩
  | bits => exact ⟨hw.resolve_left (by simp), .inr rfl⟩

theorem usual_int_wide {w : Nat} (hw : 32 ≤ w) {a : VTy} (ha : a = .uint w ∨ a = .bits w) :
    (usual .int a = .uint w ∨ usual .int a = .bits w) ∧ (usual a .int = .uint w ∨ usual a .int = .bits w) := by
  have hw' : ¬ w < 32 := by omega
  rcases ha with rfl | rfl
  · constructor <;> left <;>
      (simp [usual, VTy.promote, hw', VTy.signed, VTy.rank, VTy.width, hw]; try omega)
  · by_cases h : w = 32
    · subst h
      constructor <;> left <;> decide
    · have h1 : 65 ≤ 2 * w := by omega
      constructor <;> right <;> simp [usual, VTy.promote, VTy.signed, VTy.rank, VTy.width, h1]

theorem usual_wide {w : Nat} (hw : 32 ≤ w) {a b : VTy} (ha : a = .uint w ∨ a = .bits w)
    (hb : b = .uint w ∨ b = .bits w) : usual a b = .uint w ∨ usual a b = .bits w := by
  have hw' : ¬ w < 32 := by omega
  rcases ha with rfl | rfl <;> rcases hb with rfl | rfl <;>
    simp [usual, VTy.promote, hw', VTy.signed, VTy.rank, VTy.width]

theorem usual_int : usual .int .int = .int := rfl

theorem usual_fits {s s' t : CType} {f f' : Bool} {a b : VTy} (hc : Common s s' t) (ha : FitsTy s f a)
    (hb : FitsTy s' f' b) : FitsTy t ((decide (s = t) && f) || (decide (s' = t) && f')) (usual a b) := by
  cases hc with
  | same ht =>
    rcases ht with rfl | ⟨w, rfl⟩
    · cases ha; cases hb; rfl
    · simp only [decide_true, Bool.true_and]
      cases f <;> cases f'
      · obtain ⟨h1, rfl⟩ := ha; obtain ⟨-, rfl⟩ := hb; exact ⟨h1, rfl⟩
      · obtain ⟨h1, rfl⟩ := ha; obtain ⟨-, hb⟩ := hb; exact ⟨h1, (usual_int_wide h1 hb).1⟩
      · obtain ⟨h1, ha⟩ := ha; obtain ⟨-, rfl⟩ := hb; exact ⟨h1, (usual_int_wide h1 ha).2⟩
      · obtain ⟨h1, ha⟩ := ha; obtain ⟨-, hb⟩ := hb; exact ⟨h1, usual_wide h1 ha hb⟩
  | left =>
    cases ha
    simp only [decide_true, Bool.true_and, reduceCtorEq, decide_false, Bool.false_and, Bool.false_or, Bool.or_false]
    cases f'
    · obtain ⟨h1, rfl⟩ := hb; exact ⟨h1, rfl⟩
    · obtain ⟨h1, hb⟩ := hb; exact ⟨h1, (usual_int_wide h1 hb).1⟩
  | right =>
    cases hb
    simp only [decide_true, Bool.true_and, reduceCtorEq, decide_false, Bool.false_and, Bool.false_or, Bool.or_false]
    cases f
    · obtain ⟨h1, rfl⟩ := ha; exact ⟨h1, rfl⟩
    · obtain ⟨h1, ha⟩ := ha; exact ⟨h1, (usual_int_wide h1 ha).2⟩

/-! ## Operators -/

theorem convert_holds {u : VTy} {c : CV} (hu : u ≠ .void) (hc : c.type ≠ .void) (h : u.Holds c.int) :
    convert u c = .ok ⟨u, c.int⟩ := by
  unfold convert
  rw [if_neg hu, if_neg hc]
  cases u with
  | void => exact absurd rfl hu
  | bool => rw [if_pos rfl]; rcases h with h | h <;> rw [h] <;> rfl
  | int => rw [if_neg (by simp)]; exact if_pos h
  | long => rw [if_neg (by simp)]; exact if_pos h
  | uint w => rw [if_neg (by simp)]; exact congrArg (fun x => CRes.ok (CV.mk (.uint w) x)) (Int.emod_eq_of_lt h.1 h.2)
  | bits w => rw [if_neg (by simp)]; exact congrArg (fun x => CRes.ok (CV.mk (.bits w) x)) (Int.emod_eq_of_lt h.1 h.2)

theorem operands_of {l r u : CVal} {op : ExprType} {t : CType} (hl : WF l) (hr : WF r)
    (hc : Common l.type r.type t) (h : evalBinary l op r = .ok u) : Operands t l r := by
  have hck : ∃ t, checkBinary l.type op r.type = .ok t := by
    rcases C10_check_total l.type r.type op with ht | ⟨e, he⟩
    · exact ht
    · rw [C10_binary_rejected he] at h; cases h
  obtain ⟨t', ht⟩ := hck
  rcases checked_operands hl hr ht with ⟨c, hc'⟩ | ⟨hlb, hrb⟩ | ⟨hne, he⟩
  · have : c = t := by
      obtain ⟨lt, x⟩ := l
      obtain ⟨rt, y⟩ := r
      dsimp only at hc
      cases hc' <;> cases hc <;> rfl
    rw [← this]; exact hc'
  · rw [hlb, hrb] at hc
    cases hc with
    | same hh => rcases hh with hh | ⟨w, hh⟩ <;> cases hh
  · rw [he] at h; cases h

/-- The type of an operation in C. -/
theorem unsigned_of_fits {w : Nat} {u : VTy} (h : FitsTy (.uint w) true u) : 32 ≤ w ∧ u.width = w ∧ u.signed = false ∧
    u ≠ .void ∧ (∀ z, u.reduce z = .ok ⟨u, z % 2 ^ w⟩) ∧ (∀ z, u.Holds z ↔ 0 ≤ z ∧ z < 2 ^ w) := by
  obtain ⟨h1, rfl | rfl⟩ := h <;> exact ⟨h1, rfl, rfl, by simp, fun _ => rfl, fun _ => Iff.rfl⟩

theorem toBits_eq {u : VTy} {w : Nat} (hu : u.width = w) {x : Int} (h0 : 0 ≤ x) (h1 : x < 2 ^ w) :
    u.toBits x = x.toNat := by
  unfold VTy.toBits
  rw [hu, Int.emod_eq_of_lt h0 h1]

theorem ofBits_eq {u : VTy} (hu : u.signed = false) (n : Nat) : u.ofBits n = ⟨u, n⟩ := by
  unfold VTy.ofBits
  rw [hu]
  simp

theorem rep_uint {w : Nat} {u : VTy} (h : FitsTy (.uint w) true u) {z : Int} (h0 : 0 ≤ z) (h1 : z < 2 ^ w) :
    Rep true ⟨.uint w, z⟩ ⟨u, z⟩ :=
  ⟨h, rfl, ((unsigned_of_fits h).2.2.2.2.2 z).mpr ⟨h0, h1⟩⟩

theorem nat_lt {w : Nat} {x : Int} (h0 : 0 ≤ x) (h1 : x < 2 ^ w) : x.toNat < 2 ^ w := by
  have h : ((2 ^ w : Nat) : Int) = 2 ^ w := by simp
  omega

theorem operate_uint {w : Nat} {l r v : CVal} {op : ExprType} {op' : BinOp} {u : VTy} (hop : isCalculation op = true)
    (ho : (op, op') ∈ binOps) (hO : Operands (.uint w) l r) (hu : FitsTy (.uint w) true u)
    (h : evalBinary l op r = .ok v) :
    ∃ c, operate op' u l.int r.int = .ok c ∧ v.type = .uint w ∧ Rep true v c := by
  obtain ⟨-, hwid, hsg, -, hred, hhol⟩ := unsigned_of_fits hu
  obtain ⟨⟨hx0, hx1⟩, hy0, hy1⟩ := operands_inType hO
  have hpos : (0 : Int) < 2 ^ w := Int.pow_pos (by decide)
  have arith : ∀ z, exactArith op l.int r.int = some z →
      ∃ c, u.reduce z = .ok c ∧ v.type = .uint w ∧ Rep true v c := by
    intro z hz
    obtain ⟨h1, h2, h3⟩ := C01_uint_arith_mod hO hz
    rw [h] at h1
    cases h1
    exact ⟨_, hred z, rfl, rep_uint hu h2 h3⟩
  have bits : ∀ f (z : Nat), bitFun op = some f → z < 2 ^ w →
      (∀ i, z.testBit i = f (l.int.toNat.testBit i) (r.int.toNat.testBit i)) →
      ∃ c, CRes.ok (u.ofBits z) = .ok c ∧ v.type = .uint w ∧ Rep true v c := by
    intro f z hf hz ht
    obtain ⟨z', h1, h2, h3⟩ := C04_bitwise hO hf
    rw [h] at h1
    cases h1
    have : z = z' := Nat.eq_of_testBit_eq fun i => (ht i).trans (h3 i).symm
    subst this
    refine ⟨_, rfl, rfl, ?_⟩
    rw [ofBits_eq hsg]
    refine rep_uint hu (by omega) ?_
    exact_mod_cast h2
  have hlt := nat_lt hx0 hx1
  have hrt := nat_lt hy0 hy1
  have tl := toBits_eq hwid hx0 hx1
  have tr := toBits_eq hwid hy0 hy1
  cases op <;> first | (exact absurd hop (by decide)) | skip
  case binary_plus => have : op' = .add := by simpa [binOps] using ho
                      subst this; exact arith _ rfl
  case binary_minus => have : op' = .sub := by simpa [binOps] using ho
                       subst this; exact arith _ rfl
  case multiplication => have : op' = .mul := by simpa [binOps] using ho
                         subst this; exact arith _ rfl
  case division =>
    have : op' = .div := by simpa [binOps] using ho
    subst this
    rw [evalDivision hO] at h
    by_cases h0 : r.int = 0
    · rw [if_pos h0] at h; cases h
    rw [if_neg h0] at h
    have hq0 : 0 ≤ l.int.tdiv r.int := Int.tdiv_nonneg hx0 hy0
    have hq1 : l.int.tdiv r.int ≤ l.int := Int.tdiv_le_self _ hx0
    have hv : v = ⟨.uint w, l.int.tdiv r.int⟩ := by
      unfold signed128 at h
      by_cases hh : InI128 (l.int.tdiv r.int)
      · rw [if_pos hh] at h; cases h; rfl
      · rw [if_neg hh] at h; cases h
    subst hv
    refine ⟨⟨u, l.int.tdiv r.int⟩, ?_, rfl, rep_uint hu hq0 (by omega)⟩
    simp only [operate]
    rw [if_neg h0, hred, Int.emod_eq_of_lt hq0 (by omega)]
  case remainder =>
    have : op' = .rem := by simpa [binOps] using ho
    subst this
    rw [evalRemainder hO] at h
    by_cases h0 : r.int = 0
    · rw [if_pos h0] at h; cases h
    rw [if_neg h0] at h
    have hq0 : 0 ≤ l.int.tmod r.int := Int.tmod_nonneg _ hx0
    have hq1 : l.int.tmod r.int < r.int := Int.tmod_lt_of_pos _ (by omega)
    have hv : v = ⟨.uint w, l.int.tmod r.int⟩ := by
      unfold signed128 at h
      by_cases hh : InI128 (l.int.tdiv r.int)
      · rw [if_pos hh] at h; cases h; rfl
      · rw [if_neg hh] at h; cases h
    subst hv
    refine ⟨⟨u, l.int.tmod r.int⟩, ?_, rfl, rep_uint hu hq0 (by omega)⟩
    simp only [operate]
    rw [if_neg h0, hred, CRes.ok_bind, hred, Int.emod_eq_of_lt hq0 (by omega)]
  case bitwise_and =>
    have : op' = .band := by simpa [binOps] using ho
    subst this
    simp only [operate]
    rw [tl, tr]
    exact bits _ _ rfl (Nat.and_lt_two_pow _ hrt) fun i => Nat.testBit_and ..
  case bitwise_or =>
    have : op' = .bor := by simpa [binOps] using ho
    subst this
    simp only [operate]
    rw [tl, tr]
    exact bits _ _ rfl (Nat.or_lt_two_pow hlt hrt) fun i => Nat.testBit_or ..
  case bitwise_xor =>
    have : op' = .bxor := by simpa [binOps] using ho
    subst this
    simp only [operate]
    rw [tl, tr]
    exact bits _ _ rfl (Nat.xor_lt_two_pow hlt hrt) fun i => by rw [Nat.testBit_xor]

theorem reduce_int (z : Int) (v : CVal) (hv : v = ⟨.int, z⟩) :
    Agrees false (fun c => v.type = .int ∧ Rep true v c) (VTy.int.reduce z) := by
  subst hv
  by_cases h : VTy.int.Holds z
  · have : VTy.int.reduce z = .ok ⟨.int, z⟩ := if_pos h
    rw [this]
    exact ⟨rfl, rfl, rfl, h⟩
  · have : VTy.int.reduce z = .undef := if_neg h
    rw [this]
    rfl

theorem operate_int {l r v : CVal} {op : ExprType} {op' : BinOp} (hop : isCalculation op = true)
    (ho : (op, op') ∈ binOps) (hO : Operands .int l r) (h : evalBinary l op r = .ok v) :
    Agrees false (fun c => v.type = .int ∧ Rep true v c) (operate op' .int l.int r.int) := by
  have arith : ∀ z, exactArith op l.int r.int = some z →
      Agrees false (fun c => v.type = .int ∧ Rep true v c) (VTy.int.reduce z) := by
    intro z hz
    refine reduce_int z v ?_
    rw [C02_int_arith_exact hO hz] at h
    by_cases hh : -2 ^ 127 ≤ z ∧ z < 2 ^ 127
    · rw [if_pos hh] at h; cases h; rfl
    · rw [if_neg hh] at h; cases h
  cases op <;> first | (exact absurd hop (by decide)) | skip
  case binary_plus => have : op' = .add := by simpa [binOps] using ho
                      subst this; exact arith _ rfl
  case binary_minus => have : op' = .sub := by simpa [binOps] using ho
                       subst this; exact arith _ rfl
  case multiplication => have : op' = .mul := by simpa [binOps] using ho
                         subst this; exact arith _ rfl
  case division =>
    have : op' = .div := by simpa [binOps] using ho
    subst this
    rw [evalDivision hO] at h
    simp only [operate]
    by_cases h0 : r.int = 0
    · rw [if_pos h0] at h; cases h
    rw [if_neg h0] at h ⊢
    refine reduce_int _ v ?_
    unfold signed128 at h
    by_cases hh : InI128 (l.int.tdiv r.int)
    · rw [if_pos hh] at h; cases h; rfl
    · rw [if_neg hh] at h; cases h
  case remainder =>
    have : op' = .rem := by simpa [binOps] using ho
    subst this
    rw [evalRemainder hO] at h
    simp only [operate]
    by_cases h0 : r.int = 0
    · rw [if_pos h0] at h; cases h
    rw [if_neg h0] at h ⊢
    refine (reduce_int _ ⟨.int, l.int.tdiv r.int⟩ rfl).bind fun _ _ => reduce_int _ v ?_
    unfold signed128 at h
    by_cases hh : InI128 (l.int.tdiv r.int)
    · rw [if_pos hh] at h; cases h; rfl
    · rw [if_neg hh] at h; cases h
  all_goals rw [C04_int_bitwise_rejected hO (by rfl)] at h; cases h

theorem common_not_void {s s' t : CType} (h : Common s s' t) : s ≠ .void ∧ s' ≠ .void ∧ t ≠ .void := by
  cases h with
  | same h => rcases h with rfl | ⟨w, rfl⟩ <;> simp
  | left => simp
  | right => simp

/-- Operators that compute an integer. -/
theorem binary_calculation {strict : Bool} {t : CType} {l r v : CVal} {c d : CV} {f f' : Bool} {op : ExprType}
    {op' : BinOp} (hop : isCalculation op = true) (ho : (op, op') ∈ binOps) (hl : WF l) (hr : WF r)
    (hc : Common l.type r.type t) (hs : t = .int → strict = false)
    (hf : t ≠ .int → (l.type = t ∧ f = true) ∨ (r.type = t ∧ f' = true)) (h1 : Rep f l c) (h2 : Rep f' r d)
    (h : evalBinary l op r = .ok v) :
    Agrees strict (fun c => v.type = t ∧ Rep true v c) (binary op' c d) := by
  have hO := operands_of hl hr hc h
  have hu := usual_fits hc h1.1 h2.1
  obtain ⟨n1, n2, n3⟩ := common_not_void hc
  have e1 : c.type ≠ .void := fits_void h1.1 n1
  have e2 : d.type ≠ .void := fits_void h2.1 n2
  have e3 : usual c.type d.type ≠ .void := fits_void hu n3
  have hsh : ¬ (op' = .shl ∨ op' = .shr) := by
    rintro (rfl | rfl)
    · have : op = .shift_left := by simpa [binOps] using ho
      subst this; cases hop
    · have : op = .shift_right := by simpa [binOps] using ho
      subst this; cases hop
  have hb : (usual c.type d.type).Holds c.int → (usual c.type d.type).Holds d.int →
      binary op' c d = operate op' (usual c.type d.type) l.int r.int := by
    intro g1 g2
    unfold binary
    rw [if_neg (by simp [e1, e2]), if_neg hsh]
    dsimp only
    rw [convert_holds e3 e1 g1, CRes.ok_bind, convert_holds e3 e2 g2, CRes.ok_bind, h1.2.1, h2.2.1]
  by_cases ht : t = .int
  · subst ht
    have hlr : l.type = .int ∧ r.type = .int := by
      generalize l.type = a at hc
      generalize r.type = b at hc
      cases hc; exact ⟨rfl, rfl⟩
    have hci : c.type = .int := by have := h1.1; rw [hlr.1] at this; exact this
    have hdi : d.type = .int := by have := h2.1; rw [hlr.2] at this; exact this
    have hu' : usual c.type d.type = .int := by rw [hci, hdi]; rfl
    have g1 := h1.2.2
    have g2 := h2.2.2
    rw [hci] at g1
    rw [hdi] at g2
    rw [hb (by rw [hu']; exact g1) (by rw [hu']; exact g2), hu', hs rfl]
    exact operate_int hop ho hO h
  · obtain ⟨w, rfl⟩ : ∃ w, t = .uint w := by
      generalize l.type = a at hc
      generalize r.type = b at hc
      cases hc with
      | same hh => rcases hh with rfl | ⟨w, rfl⟩
                   · exact absurd rfl ht
                   · exact ⟨w, rfl⟩
      | left => exact ⟨_, rfl⟩
      | right => exact ⟨_, rfl⟩
    have hflag : ((decide (l.type = .uint w) && f) || (decide (r.type = .uint w) && f')) = true := by
      rcases hf ht with ⟨a, b⟩ | ⟨a, b⟩ <;> rw [a, b] <;> simp
    rw [hflag] at hu
    obtain ⟨-, -, -, -, -, hhol⟩ := unsigned_of_fits hu
    obtain ⟨i1, i2⟩ := operands_inType hO
    rw [hb ((hhol _).mpr (by rw [h1.2.1]; exact i1)) ((hhol _).mpr (by rw [h2.2.1]; exact i2))]
    obtain ⟨c', q1, q2, q3⟩ := operate_uint hop ho hO hu h
    rw [q1]
    exact ⟨q2, q3⟩

theorem rep_truth (b : Bool) : Rep false ⟨.bool, if b then 1 else 0⟩ (.truth b) := by
  cases b
  · exact ⟨.inr rfl, rfl, by decide⟩
  · exact ⟨.inr rfl, rfl, by decide⟩

/-- Comparisons. -/
theorem binary_comparison {strict : Bool} {t : CType} {l r v : CVal} {c d : CV} {f f' : Bool} {op : ExprType}
    {op' : BinOp} (hop : isComparison op = true) (ho : (op, op') ∈ binOps) (hl : WF l) (hr : WF r)
    (hc : Common l.type r.type t) (h1 : Rep f l c) (h2 : Rep f' r d) (h : evalBinary l op r = .ok v) :
    Agrees strict (fun c => v.type = .bool ∧ Rep false v c) (binary op' c d) := by
  have hO := operands_of hl hr hc h
  have hu := usual_fits hc h1.1 h2.1
  obtain ⟨n1, n2, n3⟩ := common_not_void hc
  have e1 : c.type ≠ .void := fits_void h1.1 n1
  have e2 : d.type ≠ .void := fits_void h2.1 n2
  have e3 : usual c.type d.type ≠ .void := fits_void hu n3
  have hsh : ¬ (op' = .shl ∨ op' = .shr) := by
    rintro (rfl | rfl)
    · have : op = .shift_left := by simpa [binOps] using ho
      subst this; cases hop
    · have : op = .shift_right := by simpa [binOps] using ho
      subst this; cases hop
  have holds : (usual c.type d.type).Holds c.int ∧ (usual c.type d.type).Holds d.int := by
    obtain ⟨i1, i2⟩ := operands_inType hO
    generalize hlt : l.type = a at hc hu
    generalize hrt : r.type = b at hc hu
    have F1 := h1.1
    have F2 := h2.1
    have H1 := h1.2.2
    have H2 := h2.2.2
    rw [hlt] at F1
    rw [hrt] at F2
    have wide : ∀ {w}, t = .uint w → FitsTy (.uint w) true (usual c.type d.type) →
        (usual c.type d.type).Holds c.int ∧ (usual c.type d.type).Holds d.int := by
      rintro w rfl hu
      obtain ⟨-, -, -, -, -, hhol⟩ := unsigned_of_fits hu
      exact ⟨(hhol _).mpr (by rw [h1.2.1]; exact i1), (hhol _).mpr (by rw [h2.2.1]; exact i2)⟩
    have narrow : c.type = .int → d.type = .int →
        (usual c.type d.type).Holds c.int ∧ (usual c.type d.type).Holds d.int := by
      intro a1 a2
      rw [a1] at H1 ⊢
      rw [a2] at H2 ⊢
      exact ⟨H1, H2⟩
    cases hc with
    | same hh =>
      rcases hh with rfl | ⟨w, rfl⟩
      · exact narrow F1 F2
      · cases f
        · cases f'
          · exact narrow F1.2 F2.2
          · exact wide rfl (by simpa using hu)
        · exact wide rfl (by simpa using hu)
    | left =>
      cases f'
      · exact narrow F1 F2.2
      · exact wide rfl (by simpa using hu)
    | right =>
      cases f
      · exact narrow F1.2 F2
      · exact wide rfl (by simpa using hu)
  have hb : binary op' c d = operate op' (usual c.type d.type) l.int r.int := by
    unfold binary
    rw [if_neg (by simp [e1, e2]), if_neg hsh]
    dsimp only
    rw [convert_holds e3 e1 holds.1, CRes.ok_bind, convert_holds e3 e2 holds.2, CRes.ok_bind, h1.2.1, h2.2.1]
  rw [hb]
  have key : ∀ b, exactCompare op l.int r.int = some b → operate op' (usual c.type d.type) l.int r.int = .ok (.truth b) →
      Agrees strict (fun c => v.type = .bool ∧ Rep false v c) (operate op' (usual c.type d.type) l.int r.int) := by
    intro b hb hq
    rw [C06_comparison hO hb] at h
    cases h
    rw [hq]
    exact ⟨rfl, rep_truth b⟩
  cases op <;> first | (exact absurd hop (by decide)) | skip
  case equals => have : op' = .eq := by simpa [binOps] using ho
                 subst this; exact key _ rfl rfl
  case not_equals => have : op' = .ne := by simpa [binOps] using ho
                     subst this; exact key _ rfl rfl
  case less_than => have : op' = .lt := by simpa [binOps] using ho
                    subst this; exact key _ rfl rfl
  case greater_than => have : op' = .gt := by simpa [binOps] using ho
                       subst this; exact key _ rfl rfl
  case less_or_equal => have : op' = .le := by simpa [binOps] using ho
                        subst this; exact key _ rfl rfl
  case greater_or_equal => have : op' = .ge := by simpa [binOps] using ho
                           subst this; exact key _ rfl rfl

/-- Shifts. -/
theorem binary_shift {strict : Bool} {w : Nat} {l r v : CVal} {c d : CV} {f : Bool} {op : ExprType}
    {op' : BinOp} (hop : op = .shift_left ∨ op = .shift_right) (ho : (op, op') ∈ binOps) (hl : WF l) (hr : WF r)
    (hlt : l.type = .uint w) (hs : strict = false ∨ r.int < w) (h1 : Rep true l c) (h2 : Rep f r d)
    (h : evalBinary l op r = .ok v) :
    Agrees strict (fun c => v.type = .uint w ∧ Rep true v c) (binary op' c d) := by
  have hck : ∃ t, checkBinary l.type op r.type = .ok t := by
    rcases C10_check_total l.type r.type op with ht | ⟨e, he⟩
    · exact ht
    · rw [C10_binary_rejected he] at h; cases h
  obtain ⟨t', ht'⟩ := hck
  have hO : Operands (.uint w) l r := by
    rcases checked_operands hl hr ht' with ⟨t, hO⟩ | ⟨hlb, hrb⟩ | ⟨hne, he⟩
    · obtain ⟨lt, x⟩ := l
      dsimp only at hlt
      subst hlt
      cases hO <;> (first | exact .uint (by assumption) (by assumption) (by assumption) | exact .uintInt (by assumption) (by assumption) (by assumption))
    · rw [hlt] at hlb; cases hlb
    · rw [he] at h; cases h
  have h1' := h1.1
  rw [hlt] at h1'
  obtain ⟨hw32, hwid, hsg, hnv, hred, hhol⟩ := unsigned_of_fits h1'
  obtain ⟨⟨hx0, hx1⟩, hy0, hy1⟩ := operands_inType hO
  have hprom : c.type.promote = c.type := by
    rcases h1'.2 with e | e <;> rw [e]
    · show (if w < 32 then VTy.int else .uint w) = _
      rw [if_neg (by omega)]
    · rfl
  have e2 : d.type ≠ .void := by
    refine fits_void h2.1 ?_
    intro e
    exact operands_not_void hO (.inr e)
  obtain ⟨s1, s2⟩ := C05_shift hO
  have hpos : (0 : Int) < 2 ^ w := Int.pow_pos (by decide)
  have hsh : op' = .shl ∨ op' = .shr := by
    rcases hop with rfl | rfl
    · left; simpa [binOps] using ho
    · right; simpa [binOps] using ho
  unfold binary
  rw [if_neg (by simp [hnv, e2]), if_pos hsh, hprom, h1.2.1, h2.2.1]
  unfold shift
  by_cases hn : r.int < 0 ∨ (c.type.width : Int) ≤ r.int
  · rw [if_pos hn]
    rcases hs with hs | hs
    · exact hs
    · rw [hwid] at hn; omega
  rw [if_neg hn, if_neg (by rw [hsg]; simp)]
  rcases hop with rfl | rfl
  · have : op' = .shl := by simpa [binOps] using ho
    subst this
    rw [if_pos rfl, hred]
    rw [s1] at h
    by_cases h128 : r.int < 128
    · rw [if_pos h128] at h
      cases h
      exact ⟨rfl, rep_uint h1' (Int.emod_nonneg _ (by omega)) (Int.emod_lt_of_pos _ hpos)⟩
    · rw [if_neg h128] at h; cases h
  · have : op' = .shr := by simpa [binOps] using ho
    subst this
    rw [if_neg (by simp), hred]
    rw [s2] at h
    by_cases h128 : r.int < 128
    · rw [if_pos h128] at h
      cases h
      have q0 : 0 ≤ l.int / 2 ^ r.int.toNat := Int.ediv_nonneg hx0 (Int.pow_nonneg (by decide))
      have q1 : l.int / 2 ^ r.int.toNat < 2 ^ w := Int.lt_of_le_of_lt (Int.ediv_le_self _ hx0) hx1
      rw [Int.emod_eq_of_lt q0 q1]
      exact ⟨rfl, rep_uint h1' q0 q1⟩
    · rw [if_neg h128] at h; cases h

/-! ## Other operations -/

theorem truthOf_rep {f : Bool} {v : CVal} {b : Bool} {c : CV} (hv : v = CVal.ofBool b) (h : Rep f v c) :
    truthOf c = .ok b := by
  subst hv
  unfold truthOf
  rw [if_neg (fits_void h.1 (by cases b <;> simp [CVal.ofBool])), h.2.1]
  cases b <;> rfl

/-- Conversions that succeed keep the value. -/
theorem convert_rep {f g : Bool} {v u : CVal} {c : CV} {t : CType} {ty : VTy} (hv : WF v) (ht : t.WF)
    (ht' : FitsTy t g ty) (hty : ty = .int → c.type = .int ∨ c.type = .bool) (hn : t ≠ .void) (h1 : Rep f v c)
    (h : evalConversion v t = .ok u) :
    convert ty c = .ok ⟨ty, u.int⟩ ∧ u.type = t ∧ WF u ∧ Rep g u ⟨ty, u.int⟩ := by
  obtain ⟨a1, a2, a3⟩ := C08_conversion_keeps_value hv ht h
  have hcn : c.type ≠ .void := by
    refine fits_void h1.1 ?_
    intro e
    obtain ⟨s, x⟩ := v
    dsimp only at e
    subst e
    rw [C08_lossless_conversion hv ht] at h
    unfold Spec.losslessConversion at h
    dsimp only at h
    rw [if_neg (Ne.symm hn)] at h
    cases h
  have hi : c.int = u.int := by rw [h1.2.1, a2]
  have hh : ty.Holds c.int := by
    have a4 := a3.2
    rw [a1] at a4
    rw [hi]
    cases t with
    | void => exact absurd rfl hn
    | bool =>
      rcases ht' with rfl | rfl
      · exact a4
      · rcases a4 with a4 | a4 <;> rw [a4] <;> decide
    | int =>
      cases ht'
      have := h1.2.2
      rw [hi] at this
      rcases hty rfl with e | e
      · rwa [e] at this
      · rw [e] at this
        rcases this with e | e <;> rw [e] <;> decide
    | uint w =>
      cases g with
      | true => exact ((unsigned_of_fits ht').2.2.2.2.2 _).mpr a4
      | false =>
        obtain ⟨-, rfl⟩ := ht'
        have := h1.2.2
        rw [hi] at this
        rcases hty rfl with e | e
        · rwa [e] at this
        · rw [e] at this
          rcases this with e | e <;> rw [e] <;> decide
  refine ⟨?_, a1, a3, ?_, rfl, ?_⟩
  · rw [convert_holds (fits_void ht' hn) hcn hh, hi]
  · rw [a1]; exact ht'
  · rw [← hi]; exact hh

/-- Conversion to the type of a variable, parameter or result. -/
theorem convert_type {f : Bool} {v u : CVal} {c : CV} {t : CType} {ty : VTy} (hv : WF v) (ht : t.WF)
    (ht' : FitsTy t true ty) (hn : t ≠ .void) (h1 : Rep f v c) (h : evalConversion v t = .ok u) :
    convert ty c = .ok ⟨ty, u.int⟩ ∧ u.type = t ∧ WF u ∧ Rep true u ⟨ty, u.int⟩ := by
  refine convert_rep hv ht ht' ?_ hn h1 h
  rintro rfl
  rw [C08_lossless_conversion hv ht] at h
  obtain ⟨s, x⟩ := v
  unfold Spec.losslessConversion at h
  have F := h1.1
  dsimp only at F
  cases t with
  | void => cases ht'
  | uint w => rcases ht'.2 with e | e <;> cases e
  | bool =>
    cases s with
    | bool => exact F.symm
    | _ => cases h
  | int =>
    cases s with
    | int => exact .inl F
    | _ => cases h

/-- Operators with one operand. -/
theorem unary_plus {strict f : Bool} {v u : CVal} {c : CV} (hb : v.type ≠ .bool) (hn : v.type ≠ .void)
    (h1 : Rep f v c) (h : evalUnary .unary_plus v = .ok u) :
    Agrees strict (fun c => u.type = v.type ∧ Rep f u c) (unary .plus c) := by
  have hint : v.type.isInteger = true := by
    cases e : v.type <;> first | rfl | exact absurd e hb | exact absurd e hn
  rw [C01_unary_plus hint] at h
  cases h
  have hprom : c.type.promote = c.type := by
    have := h1.1
    cases e : v.type with
    | bool => exact absurd e hb
    | void => exact absurd e hn
    | int => rw [e] at this; have this : c.type = .int := this; rw [this]; rfl
    | uint w =>
      rw [e] at this
      cases f with
      | false => rw [this.2]; rfl
      | true =>
        rcases this.2 with g | g <;> rw [g]
        · show (if w < 32 then VTy.int else .uint w) = _
          rw [if_neg (by have := this.1; omega)]
        · rfl
  unfold unary
  rw [if_neg (fits_void h1.1 hn)]
  dsimp only
  rw [hprom]
  exact ⟨rfl, h1⟩

theorem unary_minus {strict f : Bool} {v u : CVal} {c : CV} (hv : WF v) (hb : v.type ≠ .bool) (hn : v.type ≠ .void)
    (hs : v.type = .int → strict = false) (hf : v.type ≠ .int → f = true) (h1 : Rep f v c)
    (h : evalUnary .unary_minus v = .ok u) :
    Agrees strict (fun c => u.type = v.type ∧ Rep true u c) (unary .minus c) := by
  unfold unary
  rw [if_neg (fits_void h1.1 hn)]
  dsimp only
  rw [h1.2.1]
  obtain ⟨s, x⟩ := v
  dsimp only at *
  cases s with
  | bool => exact absurd rfl hb
  | void => exact absurd rfl hn
  | int =>
    have F : c.type = .int := h1.1
    rw [F, hs rfl]
    refine reduce_int _ u ?_
    rw [C02_int_neg_exact hv.2] at h
    by_cases hx : x = -2 ^ 127
    · rw [if_pos hx] at h; cases h
    · rw [if_neg hx] at h; cases h; rfl
  | uint w =>
    have hf' := hf (by simp)
    subst hf'
    have F : FitsTy (.uint w) true c.type := h1.1
    obtain ⟨-, hwid, hsg, hnv, hred, hhol⟩ := unsigned_of_fits F
    have hprom : c.type.promote = c.type := by
      rcases F.2 with g | g <;> rw [g]
      · show (if w < 32 then VTy.int else .uint w) = _
        rw [if_neg (by have := F.1; omega)]
      · rfl
    have hw : 0 < w ∧ w < 128 := hv.1
    rw [C01_uint_neg_mod hw hv.2] at h
    cases h
    rw [hprom, hred]
    have hpos : (0 : Int) < 2 ^ w := Int.pow_pos (by decide)
    exact ⟨rfl, rep_uint F (Int.emod_nonneg _ (by omega)) (Int.emod_lt_of_pos _ hpos)⟩

theorem unary_bnot {strict : Bool} {w : Nat} {v u : CVal} {c : CV} (hv : WF v) (hw : v.type = .uint w)
    (h1 : Rep true v c) (h : evalUnary .bitwise_not v = .ok u) :
    Agrees strict (fun c => u.type = .uint w ∧ Rep true u c) (unary .bnot c) := by
  obtain ⟨s, x⟩ := v
  dsimp only at hw
  subst hw
  unfold unary
  rw [if_neg (fits_void h1.1 (by simp))]
  dsimp only
  have F : FitsTy (.uint w) true c.type := h1.1
  obtain ⟨-, hwid, hsg, hnv, hred, hhol⟩ := unsigned_of_fits F
  have hprom : c.type.promote = c.type := by
    rcases F.2 with g | g <;> rw [g]
    · show (if w < 32 then VTy.int else .uint w) = _
      rw [if_neg (by have := F.1; omega)]
    · rfl
  have hx : 0 ≤ x ∧ x < 2 ^ w := hv.2
  have e : c.int = x := h1.2.1
  obtain ⟨z, g1, g2, g3⟩ := C04_bitwise_not hv.1 hv.2
  rw [g1] at h
  cases h
  rw [hprom, hwid, e, toBits_eq hwid hx.1 hx.2, ofBits_eq hsg]
  have hz : (2 ^ w - 1) ^^^ x.toNat = z := by
    refine Nat.eq_of_testBit_eq fun i => ?_
    rw [g3, Nat.testBit_xor, Nat.testBit_two_pow_sub_one]
    by_cases hi : i < w
    · simp [hi]
    · have : x.toNat.testBit i = false :=
        Nat.testBit_lt_two_pow (Nat.lt_of_lt_of_le (nat_lt hx.1 hx.2) (Nat.pow_le_pow_right (by decide) (by omega)))
      simp [hi, this]
  rw [hz]
  exact ⟨rfl, rep_uint F (by omega) (by exact_mod_cast g2)⟩

theorem unary_lnot {strict f : Bool} {v u : CVal} {c : CV} (hv : WF v) (hb : v.type = .bool)
    (h1 : Rep f v c) (h : evalUnary .logical_not v = .ok u) :
    Agrees strict (fun c => u.type = .bool ∧ Rep false u c) (unary .lnot c) := by
  obtain ⟨s, x⟩ := v
  dsimp only at hb
  subst hb
  unfold unary
  rw [if_neg (fits_void h1.1 (by simp))]
  dsimp only
  have e : c.int = x := h1.2.1
  rw [e]
  rcases hv.2 with e | e
  · dsimp only at e
    subst e
    have : u = ⟨.bool, 1⟩ := by
      have g : evalUnary .logical_not ⟨.bool, 0⟩ = .ok ⟨.bool, 1⟩ := by decide
      rw [g] at h; cases h; rfl
    subst this
    exact ⟨rfl, rep_truth true⟩
  · dsimp only at e
    subst e
    have : u = ⟨.bool, 0⟩ := by
      have g : evalUnary .logical_not ⟨.bool, 1⟩ = .ok ⟨.bool, 0⟩ := by decide
      rw [g] at h; cases h; rfl
    subst this
    exact ⟨rfl, rep_truth false⟩

end Bms.C
