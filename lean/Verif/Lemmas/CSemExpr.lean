import Verif.Lemmas.CSem
import Verif.Lemmas.GenCTypes

/-!
# Lemmas: expressions compute the same in C
-/

namespace Bms.C

open Spec (Operands InType WF Meaning evalE evalArgs Res Frame)

/-- The functions that can be called and the constants agree. -/
structure Matches (A : Around) (M : Meaning) (F : List Char → Option Fun) : Prop where
  consts : M.consts = (programOf A.cs []).consts
  vars : ∀ k t, A.vars k = some t → t.WF
  assert : (∀ n ts t, A.fns n ≠ some ("assert".toList, ts, t)) → F "assert".toList = some assertFun
  fns : ∀ n x ts t, A.fns n = some (x, ts, t) → M.params n = some ts ∧ (∀ s ∈ ts, s.WF) ∧
    ∃ fn, F x = some fn ∧ TypeIs t fn.ret ∧ List.Forall₂ TypeIs ts fn.params ∧
      ∀ vs v, vs.map CVal.type = ts → (∀ v ∈ vs, WF v) → M.call n vs = .ok v →
        WF v ∧ v.type = t ∧ ∀ cs, List.Forall₂ (Rep true) vs cs → Agrees A.strict (Rep true v) (fn.call cs)

/-- The variables agree. -/
structure Sees (A : Around) (ρ : Visible) (σ : Frame) (E : Env) : Prop where
  none : ∀ x, ρ.lookup x = none → E.find x = none
  some : ∀ x n t, ρ.lookup x = some (some n) → A.vars n = some t → ∃ ty o, E.find x = some (ty, o) ∧
    t ≠ .void ∧ FitsTy t true ty ∧ ∀ v, σ n = some v → WF v ∧ v.type = t ∧ o = some v.int ∧ ty.Holds v.int

theorem binOp_unique {op : ExprType} {a b : BinOp} (h : (op, a) ∈ binOps) (h' : (op, b) ∈ binOps) : a = b := by
  revert h h'
  cases op <;> simp [binOps] <;> (intro h h'; rw [h, h'])

theorem binOps_logical {op : ExprType} {a : BinOp} (h : (op, a) ∈ binOps) :
    (a = .land ↔ op = .logical_and) ∧ (a = .lor ↔ op = .logical_or) ∧ (a = .shl ↔ op = .shift_left) ∧
    (a = .shr ↔ op = .shift_right) := by
  revert h
  cases op <;> simp [binOps] <;> (intro h; rw [h]; simp)

theorem binOps_calculation {op : ExprType} {a : BinOp} (h : (op, a) ∈ binOps) (hc : isCalculation op = true) :
    (a = .add ∨ a = .sub ∨ a = .mul ∨ a = .div ∨ a = .rem ∨ a = .band ∨ a = .bor ∨ a = .bxor) ∧
    ¬ (a = .shl ∨ a = .shr) := by
  revert h
  cases op <;> first | (exact absurd hc (by decide)) | (simp [binOps]; intro h; rw [h]; simp)

theorem binOps_other {op : ExprType} {a : BinOp} (h : (op, a) ∈ binOps)
    (hc : isComparison op = true ∨ op = .logical_and ∨ op = .logical_or) :
    ¬ (a = .add ∨ a = .sub ∨ a = .mul ∨ a = .div ∨ a = .rem ∨ a = .band ∨ a = .bor ∨ a = .bxor) ∧
    ¬ (a = .shl ∨ a = .shr) := by
  revert h
  cases op <;> first | (exact absurd hc (by decide)) | (simp [binOps]; intro h; rw [h]; simp)

theorem promote_fits {t : CType} {f : Bool} {ty : VTy} (h : FitsTy t f ty) (hb : t ≠ .bool) (hn : t ≠ .void) :
    ty.promote = ty := by
  cases t with
  | bool => exact absurd rfl hb
  | void => exact absurd rfl hn
  | int => cases h; rfl
  | uint w =>
    cases f with
    | false => obtain ⟨-, rfl⟩ := h; rfl
    | true =>
      obtain ⟨h1, rfl | rfl⟩ := h
      · show (if w < 32 then VTy.int else .uint w) = _
        rw [if_neg (by omega)]
      · rfl

theorem wide_not_void {t : CType} (h : Wide t) : t ≠ .void := by rintro rfl; exact h

theorem sameE_not_void {A : Around} {ρ : Visible} {e : AExpr} {t : CType} {f : Bool} {σ : Frame} {E : Env}
    (hs : Sees A ρ σ E) (h : SameE A ρ e t f) : t ≠ .void := by
  induction h using SameE.rec (motive_2 := fun _ _ _ => True) with
  | true_ => simp
  | false_ => simp
  | number => simp
  | constant _ h => exact wide_not_void h
  | var _ h1 h2 => obtain ⟨_, _, _, h, _⟩ := hs.some _ _ _ h1 h2; exact h
  | param h1 h2 => obtain ⟨_, _, _, h, _⟩ := hs.some _ _ _ h1 h2; exact h
  | conversion _ _ h => exact wide_not_void h
  | calculation _ _ _ h => exact (common_not_void h).2.2
  | shift => simp
  | comparison => simp
  | logical => simp
  | plus _ _ ih => exact ih
  | minus _ _ _ _ ih => exact ih
  | not_ => simp
  | complement => simp
  | ite _ _ _ h =>
    rcases h with h | ⟨-, -, rfl⟩
    · exact (common_not_void h).2.2
    · simp
  | call _ _ h => exact wide_not_void h
  | nil => trivial
  | cons => trivial

theorem usual_bool {a b : VTy} (ha : FitsTy .bool true a) (hb : FitsTy .bool true b) : usual a b = .int := by
  rcases ha with rfl | rfl <;> rcases hb with rfl | rfl <;> rfl

theorem number_type {n : Nat} (h : n < 2 ^ 31) : number n = .ok ⟨.int, n⟩ := if_pos h

theorem reduce_int_ok {z : Int} (h : VTy.int.Holds z) : VTy.int.reduce z = .ok ⟨.int, z⟩ := if_pos h

/-- The type of a constant in C. -/
theorem const_type (F : List Char → Option Fun) (E : Env) {t : CType} {v : Int} {c : CExpr} (h : ConstIs t v c)
    (hw : t = .bool ∨ Wide t) (h1 : -2 ^ 31 < v) (h2 : v < 2 ^ 31) :
    ∃ ty, typeC F E c = some ty ∧ FitsTy t false ty ∧ ∃ r, evalC F E c = .ok r ∧ r.type = ty ∧ r.int = v ∧ ty.Holds v := by
  cases h with
  | void => rcases hw with hw | hw <;> cases hw
  | true_ => exact ⟨.bool, by simp [typeC], .inl rfl, ⟨.bool, 1⟩, by simp [evalC], rfl, rfl, .inr rfl⟩
  | false_ => exact ⟨.bool, by simp [typeC], .inl rfl, ⟨.bool, 0⟩, by simp [evalC], rfl, rfl, .inl rfl⟩
  | int hn =>
    cases hn with
    | nonneg n =>
      have hlt : n < 2 ^ 31 := by omega
      exact ⟨.int, by simp only [typeC]; rw [if_pos hlt], rfl, ⟨.int, n⟩,
        by simp only [evalC]; exact number_type hlt, rfl, rfl, by show _ ∧ _; omega⟩
    | neg n =>
      have hlt : n + 1 < 2 ^ 31 := by omega
      refine ⟨.int, ?_, rfl, ⟨.int, -((n : Int) + 1)⟩, ?_, rfl, rfl, by show _ ∧ _; omega⟩
      · simp only [typeC]
        rw [if_neg (by simp), if_pos hlt]
        rfl
      · simp only [evalC]
        rw [number_type hlt, CRes.ok_bind]
        have : VTy.int.Holds (-((n + 1 : Nat) : Int)) := by show _ ∧ _; omega
        have h3 : unary .minus ⟨.int, ((n + 1 : Nat) : Int)⟩ = VTy.int.reduce (-((n + 1 : Nat) : Int)) := by
          unfold unary
          rw [if_neg (by simp)]
          rfl
        rw [h3, reduce_int_ok this]
        simp
  | @uint w n =>
    have hlt : n < 2 ^ 31 := by omega
    have hw' : 32 ≤ w := hw.resolve_left (by simp)
    exact ⟨.int, by simp only [typeC]; rw [if_pos hlt], ⟨hw', rfl⟩, ⟨.int, n⟩,
      by simp only [evalC]; exact number_type hlt, rfl, rfl, by show _ ∧ _; omega⟩

theorem typeOf_wf {t : AType} {ct : CType} (h : TypeOf t ct) : ct.WF := by
  cases h with
  | uint h1 h2 => exact ⟨by omega, by omega⟩
  | _ => trivial

theorem typeOf_erase {t : AType} {ct : CType} (h : TypeOf t ct) : t.eraseType = some ct := by
  cases h with
  | void => rfl
  | bool => rfl
  | int => rfl
  | @uint k cv w e h1 h2 =>
    have e1 : decide ((w : Int) ≤ 128) = true := by simp; omega
    have e2 : decide ((w : Int) > 1) = true := by simp; omega
    have e3 : (decide ((w : Int) > 0) && decide ((w : Int) < 128)) = true := by simp; omega
    simp only [AType.eraseType, AType.concreteType, CType.mkUint, Outcome.assert, Outcome.map]
    simp only [e1, e2, e3]
    rfl

/-- The type of an expression in C. -/
theorem sameE_type {A : Around} {M : Meaning} {F : List Char → Option Fun} {ρ : Visible} {σ : Frame} {E : Env}
    (hM : Matches A M F) (hs : Sees A ρ σ E) {e : AExpr} {t : CType} {f : Bool} (h : SameE A ρ e t f) :
    ∀ c, MeansE A.cs e c → ∃ ty, typeC F E c = some ty ∧ FitsTy t f ty := by
  induction h using SameE.rec (motive_2 := fun _ _ _ => True) with
  | true_ =>
    intro c hc
    cases hc with
    | literal hc =>
      obtain ⟨ty, h1, h2, -⟩ := const_type F E hc (.inl rfl) (by decide) (by decide)
      exact ⟨ty, h1, h2⟩
  | false_ =>
    intro c hc
    cases hc with
    | literal hc =>
      obtain ⟨ty, h1, h2, -⟩ := const_type F E hc (.inl rfl) (by decide) (by decide)
      exact ⟨ty, h1, h2⟩
  | number _ h0 hlt =>
    intro c hc
    cases hc with
    | literal hc =>
      obtain ⟨ty, h1, h2, -⟩ := const_type F E hc (.inr trivial) (by omega) hlt
      exact ⟨ty, h1, h2⟩
  | constant hcs hw hwf h0 hlt =>
    intro c hc
    cases hc with
    | constant hr hc =>
      obtain ⟨n, hn, hcs'⟩ := hr
      cases hn
      rw [hcs] at hcs'
      cases hcs'
      obtain ⟨ty, h1, h2, -⟩ := const_type F E hc (.inr hw) h0 hlt
      exact ⟨ty, h1, h2⟩
    | var hno => exact absurd ⟨_, rfl, hcs⟩ (hno _)
  | var hcs hl hv =>
    intro c hc
    cases hc with
    | constant hr hc =>
      obtain ⟨n, hn, hcs'⟩ := hr
      cases hn
      rw [hcs] at hcs'
      cases hcs'
    | var hno =>
      obtain ⟨ty, o, h1, h2, h3, h4⟩ := hs.some _ _ _ hl hv
      exact ⟨ty, by simp only [typeC]; rw [h1]; rfl, h3⟩
  | param hl hv =>
    intro c hc
    cases hc with
    | constant hr hc => obtain ⟨n, hn, hcs'⟩ := hr; cases hn
    | var hno =>
      obtain ⟨ty, o, h1, h2, h3, h4⟩ := hs.some _ _ _ hl hv
      exact ⟨ty, by simp only [typeC]; rw [h1]; rfl, h3⟩
  | conversion _ ht hw _ =>
    intro c hc
    cases hc with
    | conversion ht' hty hc =>
      have := typeOf_fun ht ht'
      subst this
      exact ⟨_, by simp only [typeC], typeIs_fits hty (.inr hw)⟩
  | calculation hop hl hr hcm hstr hfirm ihl ihr =>
    intro c hc
    cases hc with
    | binary ho hcl hcr =>
      obtain ⟨a, a1, a2⟩ := ihl _ hcl
      obtain ⟨b, b1, b2⟩ := ihr _ hcr
      obtain ⟨h1, h2⟩ := binOps_calculation ho hop
      refine ⟨usual a b, ?_, ?_⟩
      · simp only [typeC]
        rw [if_neg h2, if_pos h1, a1, b1]
        rfl
      · have := usual_fits hcm a2 b2
        rename CType => t
        by_cases ht : t = .int
        · subst ht; exact this
        · rcases hfirm ht with ⟨e1, e2⟩ | ⟨e1, e2⟩ <;> subst e1 <;> subst e2 <;> simpa using this
  | shift hop hl hr hstr ihl ihr =>
    intro c hc
    cases hc with
    | binary ho hcl hcr =>
      obtain ⟨a, a1, a2⟩ := ihl _ hcl
      obtain ⟨-, -, h1, h2⟩ := binOps_logical ho
      refine ⟨a, ?_, a2⟩
      simp only [typeC]
      rw [if_pos (by rcases hop with h | h; exacts [.inl (h1.mpr h), .inr (h2.mpr h)]), a1, Option.map_some,
        promote_fits a2 (by simp) (by simp)]
  | comparison hop hl hr hcm ihl ihr =>
    intro c hc
    cases hc with
    | binary ho hcl hcr =>
      obtain ⟨h1, h2⟩ := binOps_other ho (.inl hop)
      exact ⟨.int, by simp only [typeC]; rw [if_neg h2, if_neg h1], .inr rfl⟩
  | logical hop hl hr ihl ihr =>
    intro c hc
    cases hc with
    | binary ho hcl hcr =>
      obtain ⟨h1, h2⟩ := binOps_other ho (.inr hop)
      exact ⟨.int, by simp only [typeC]; rw [if_neg h2, if_neg h1], .inr rfl⟩
  | plus hl hb ih =>
    intro c hc
    cases hc with
    | @«prefix» _ _ _ _ op' _ ho hc =>
      obtain ⟨a, a1, a2⟩ := ih _ hc
      have : op' = UnOp.plus := by simpa [unOps] using ho
      subst this
      refine ⟨a, ?_, a2⟩
      simp only [typeC]
      rw [if_neg (by simp), a1, Option.map_some, promote_fits a2 hb (sameE_not_void hs hl)]
  | minus hl hb hstr hfirm ih =>
    intro c hc
    cases hc with
    | @«prefix» _ _ _ _ op' _ ho hc =>
      obtain ⟨a, a1, a2⟩ := ih _ hc
      have : op' = UnOp.minus := by simpa [unOps] using ho
      subst this
      refine ⟨a, ?_, ?_⟩
      · simp only [typeC]
        rw [if_neg (by simp), a1, Option.map_some, promote_fits a2 hb (sameE_not_void hs hl)]
      · rename CType => t
        cases t with
        | int => exact a2
        | bool => exact absurd rfl hb
        | void => exact a2
        | uint w => rw [hfirm (by simp)] at a2; exact a2
  | not_ hl ih =>
    intro c hc
    cases hc with
    | @«prefix» _ _ _ _ op' _ ho hc =>
      have : op' = UnOp.lnot := by simpa [unOps] using ho
      subst this
      exact ⟨.int, by simp [typeC], .inr rfl⟩
  | complement hl ih =>
    intro c hc
    cases hc with
    | @«prefix» _ _ _ _ op' _ ho hc =>
      obtain ⟨a, a1, a2⟩ := ih _ hc
      have : op' = UnOp.bnot := by simpa [unOps] using ho
      subst this
      refine ⟨a, ?_, a2⟩
      simp only [typeC]
      rw [if_neg (by simp), a1, Option.map_some, promote_fits a2 (by simp) (by simp)]
  | ite hl hc hr hcm ht _ ihl ihc ihr =>
    intro c hc
    cases hc with
    | ite hcl hcc hcr =>
      obtain ⟨a, a1, a2⟩ := ihl _ hcl
      obtain ⟨b, b1, b2⟩ := ihr _ hcr
      refine ⟨usual a b, ?_, ?_⟩
      · simp only [typeC]
        rw [a1, b1]
        rfl
      · rcases hcm with hcm | ⟨rfl, rfl, rfl⟩
        · exact usual_fits hcm a2 b2
        · rw [usual_bool a2 b2]; exact .inr rfl
  | call hfn hno hw _ _ =>
    intro c hc
    cases hc with
    | call hargs =>
      obtain ⟨-, -, fn, h1, h2, -⟩ := hM.fns _ _ _ _ hfn
      refine ⟨fn.ret.value, ?_, typeIs_fits h2 (.inr hw)⟩
      simp only [typeC]
      rw [if_pos (hs.none _ hno), h1]
      rfl
  | nil => trivial
  | cons => trivial

/-! ## Values -/

theorem constOf_known {cs : Consts} {n : Key} {t : CType} {v : Int} (h : cs n = some (some ⟨t, some v⟩)) :
    (programOf cs []).consts n = some ⟨t, v⟩ := by
  simp only [programOf]
  rw [h]

theorem constOf_none {cs : Consts} {n : Key} (h : cs n = none) : (programOf cs []).consts n = none := by
  simp only [programOf]
  rw [h]

theorem const_agrees (strict : Bool) (F : List Char → Option Fun) (E : Env) {t : CType} {v : Int} {c : CExpr}
    (h : ConstIs t v c) (hw : t = .bool ∨ Wide t) (h1 : -2 ^ 31 < v) (h2 : v < 2 ^ 31) :
    Agrees strict (Rep false ⟨t, v⟩) (evalC F E c) := by
  obtain ⟨ty, -, a2, r, a3, a4, a5, a6⟩ := const_type F E h hw h1 h2
  rw [a3]
  subst a4
  subst a5
  exact ⟨a2, rfl, a6⟩

theorem var_agrees {A : Around} {ρ : Visible} {σ : Frame} {E : Env} {F : List Char → Option Fun}
    (hs : Sees A ρ σ E) {x : Name} {n : Key} {t : CType} (hl : ρ.lookup x = some (some n)) (hv : A.vars n = some t)
    {v : CVal} (h : Spec.readVar σ n = .ok v) :
    WF v ∧ v.type = t ∧ Agrees A.strict (Rep true v) (evalC F E (.var x)) := by
  obtain ⟨ty, o, h1, h2, h3, h4⟩ := hs.some _ _ _ hl hv
  unfold Spec.readVar at h
  cases hσ : σ n with
  | none => rw [hσ] at h; cases h
  | some u =>
    rw [hσ] at h
    cases h
    obtain ⟨g1, g2, rfl, g3⟩ := h4 _ hσ
    refine ⟨g1, g2, ?_⟩
    simp only [evalC]
    rw [h1]
    exact ⟨by rw [g2]; exact h3, rfl, g3⟩

theorem evalE_cond {M : Meaning} {e : Expr} {σ : Frame} {b : Bool} (h : (evalE M e σ >>= Spec.asBool) = .ok b) :
    ∃ v, evalE M e σ = .ok v ∧ Spec.asBool v = .ok b := Res.bind_eq_ok.mp h

/-- Expressions compute the same in C. -/
theorem sameE_agrees {A : Around} {M : Meaning} {F : List Char → Option Fun} {ρ : Visible} {σ : Frame} {E : Env}
    (hM : Matches A M F) (hs : Sees A ρ σ E) {e : AExpr} {t : CType} {f : Bool} (h : SameE A ρ e t f) :
    ∀ c, MeansE A.cs e c → ∀ v, evalE M e.erase σ = .ok v →
      WF v ∧ v.type = t ∧ Agrees A.strict (Rep f v) (evalC F E c) := by
  refine SameE.rec
    (motive_1 := fun e t f _ => ∀ c, MeansE A.cs e c → ∀ v, evalE M e.erase σ = .ok v →
      WF v ∧ v.type = t ∧ Agrees A.strict (Rep f v) (evalC F E c))
    (motive_2 := fun es ts _ => ∀ cs tys vs, MeansEs A.cs es cs → (∀ t ∈ ts, t.WF) → List.Forall₂ TypeIs ts tys →
      evalArgs M ts (eraseAll es) σ = .ok vs → vs.map CVal.type = ts ∧ (∀ v ∈ vs, WF v) ∧
      Agrees A.strict (List.Forall₂ (Rep true) vs) (evalCs F E tys cs))
    ?true_ ?false_ ?number ?constant ?var ?param ?conversion ?calculation ?shift ?comparison ?logical ?plus ?minus
    ?not_ ?complement ?ite ?call ?nil ?cons h
  case true_ =>
    intro k c hc v hv
    simp only [AExpr.erase, eraseLit, evalE, Spec.litValue] at hv
    cases hv
    cases hc with
    | literal hc => exact ⟨⟨trivial, .inr rfl⟩, rfl, const_agrees _ F E hc (.inl rfl) (by decide) (by decide)⟩
  case false_ =>
    intro k c hc v hv
    simp only [AExpr.erase, eraseLit, evalE, Spec.litValue] at hv
    cases hv
    cases hc with
    | literal hc => exact ⟨⟨trivial, .inl rfl⟩, rfl, const_agrees _ F E hc (.inl rfl) (by decide) (by decide)⟩
  case number =>
    intro k text n hp h0 hlt c hc v hv
    simp only [AExpr.erase, eraseLit, evalE, Spec.litValue, hp, Option.map_some] at hv
    cases hv
    cases hc with
    | literal hc =>
      exact ⟨⟨trivial, by show -2 ^ 127 ≤ n ∧ n < 2 ^ 127; omega⟩, rfl,
        const_agrees _ F E hc (.inr trivial) (by omega) hlt⟩
  case constant =>
    intro k cv x n g t v hcs hw hwf h0 hlt c hc u hu
    simp only [AExpr.erase, evalE, hM.consts, constOf_known hcs] at hu
    cases hu
    cases hc with
    | constant hr hc =>
      obtain ⟨n, hn, hcs'⟩ := hr
      cases hn
      rw [hcs] at hcs'
      cases hcs'
      exact ⟨hwf, rfl, const_agrees _ F E hc (.inr hw) h0 hlt⟩
    | var hno => exact absurd ⟨_, rfl, hcs⟩ (hno _)
  case var =>
    intro k cv x n g t hcs hl hv c hc u hu
    simp only [AExpr.erase, evalE, hM.consts, constOf_none hcs] at hu
    cases hc with
    | constant hr hc =>
      obtain ⟨n, hn, hcs'⟩ := hr
      cases hn
      rw [hcs] at hcs'
      cases hcs'
    | var hno => exact var_agrees hs hl hv hu
  case param =>
    intro k cv x n g t hl hv c hc u hu
    simp only [AExpr.erase, evalE] at hu
    cases hc with
    | constant hr hc => obtain ⟨n, hn, hcs'⟩ := hr; cases hn
    | var hno => exact var_agrees hs hl hv hu
  case conversion =>
    intro k cv e s f t ct he ht hw ih c hc u hu
    simp only [AExpr.erase, evalE, typeOf_erase ht] at hu
    obtain ⟨v, h1, h2⟩ := Res.bind_eq_ok.mp hu
    cases hc with
    | conversion ht' hty hc =>
      have := typeOf_fun ht ht'
      subst this
      obtain ⟨g1, g2, g3⟩ := ih _ hc _ h1
      have h3 := Res.ofOutcome_eq_ok.mp h2
      have hn := wide_not_void hw
      obtain ⟨k1, -, k3⟩ := C08_conversion_keeps_value g1 (typeOf_wf ht) h3
      refine ⟨k3, k1, ?_⟩
      simp only [evalC]
      refine g3.bind fun d hd => ?_
      obtain ⟨k4, -, -, k5⟩ := convert_type g1 (typeOf_wf ht) (typeIs_fits hty (.inr hw)) hn hd h3
      rw [k4]
      exact k5
  case calculation =>
    intro k cv op l r s f s' f' t hop hl hr hcm hstr hfirm ihl ihr c hc u hu
    cases hc with
    | @binary _ _ _ _ _ op' l' r' ho hcl hcr =>
      obtain ⟨b1, b2, -⟩ := binOps_logical ho
      have n1 : op ≠ .logical_and := by rintro rfl; cases hop
      have n2 : op ≠ .logical_or := by rintro rfl; cases hop
      simp only [AExpr.erase, evalE, if_neg n1, if_neg n2] at hu
      obtain ⟨x, h1, hu⟩ := Res.bind_eq_ok.mp hu
      obtain ⟨y, h2, hu⟩ := Res.bind_eq_ok.mp hu
      have h3 := Res.ofOutcome_eq_ok.mp hu
      obtain ⟨x1, rfl, x3⟩ := ihl _ hcl _ h1
      obtain ⟨y1, rfl, y3⟩ := ihr _ hcr _ h2
      have hwf := C11_binary_wf x1 y1 h3
      simp only [evalC]
      rw [if_neg (fun e => n1 (b1.mp e)), if_neg (fun e => n2 (b2.mp e))]
      have key : u.type = t := by
        have hO := operands_of x1 y1 hcm h3
        have hft : FitsTy (.uint 32) true (.uint 32) := ⟨by decide, .inl rfl⟩
        cases t with
        | void => cases hO
        | bool => cases hO
        | int =>
          have := C10_check_total x.type y.type op
          by_cases hb : op.isBinaryBitwise = true
          · rw [C04_int_bitwise_rejected hO hb] at h3; cases h3
          · cases op <;> first | (exact absurd hop (by decide)) | (exact absurd rfl hb) | skip
            all_goals first
              | (rw [C02_int_arith_exact hO rfl] at h3
                 split at h3
                 · cases h3; rfl
                 · cases h3)
              | (first | rw [evalDivision hO] at h3 | rw [evalRemainder hO] at h3
                 split at h3
                 · cases h3
                 · unfold signed128 at h3
                   split at h3
                   · cases h3; rfl
                   · cases h3)
        | uint w =>
          cases op <;> first | (exact absurd hop (by decide)) | skip
          all_goals first
            | (have g := (C01_uint_arith_mod hO (op := .binary_plus) rfl).1
               rw [h3] at g; cases g; rfl)
            | (have g := (C01_uint_arith_mod hO (op := .binary_minus) rfl).1
               rw [h3] at g; cases g; rfl)
            | (have g := (C01_uint_arith_mod hO (op := .multiplication) rfl).1
               rw [h3] at g; cases g; rfl)
            | (obtain ⟨z, g, -⟩ := C04_bitwise hO (op := .bitwise_and) rfl
               rw [h3] at g; cases g; rfl)
            | (obtain ⟨z, g, -⟩ := C04_bitwise hO (op := .bitwise_or) rfl
               rw [h3] at g; cases g; rfl)
            | (obtain ⟨z, g, -⟩ := C04_bitwise hO (op := .bitwise_xor) rfl
               rw [h3] at g; cases g; rfl)
            | (first | rw [evalDivision hO] at h3 | rw [evalRemainder hO] at h3
               split at h3
               · cases h3
               · unfold signed128 at h3
                 split at h3
                 · cases h3; rfl
                 · cases h3)
      refine ⟨hwf, key, x3.bind fun a ha => y3.bind fun b hb => ?_⟩
      exact (binary_calculation hop ho x1 y1 hcm hstr hfirm ha hb h3).mono fun _ h => h.2
  case shift =>
    intro k cv op l r w s f hop hl hr hstr ihl ihr c hc u hu
    cases hc with
    | @binary _ _ _ _ _ op' l' r' ho hcl hcr =>
      obtain ⟨b1, b2, -⟩ := binOps_logical ho
      have n1 : op ≠ .logical_and := by rintro rfl; rcases hop with h | h <;> cases h
      have n2 : op ≠ .logical_or := by rintro rfl; rcases hop with h | h <;> cases h
      simp only [AExpr.erase, evalE, if_neg n1, if_neg n2] at hu
      obtain ⟨x, h1, hu⟩ := Res.bind_eq_ok.mp hu
      obtain ⟨y, h2, hu⟩ := Res.bind_eq_ok.mp hu
      have h3 := Res.ofOutcome_eq_ok.mp hu
      obtain ⟨x1, x2, x3⟩ := ihl _ hcl _ h1
      obtain ⟨y1, rfl, y3⟩ := ihr _ hcr _ h2
      have hwf := C11_binary_wf x1 y1 h3
      simp only [evalC]
      rw [if_neg (fun e => n1 (b1.mp e)), if_neg (fun e => n2 (b2.mp e))]
      have hlit : A.strict = false ∨ y.int < w := by
        rcases hstr with h | h
        · exact .inl h
        · right
          generalize hyt : y.type = yt at hr
          cases hr with
          | number hp h0 hlt =>
            simp only [AExpr.erase, eraseLit, evalE, Spec.litValue, hp, Option.map_some] at h2
            cases h2
            exact h
          | _ => exact h.elim
      have key : u.type = .uint w := by
        have hO : Operands (.uint w) x y := by
          obtain ⟨xt, xi⟩ := x
          dsimp only at x2
          subst x2
          have hck : ∃ t, checkBinary (.uint w) op y.type = .ok t := by
            rcases C10_check_total (.uint w) y.type op with ht | ⟨e, he⟩
            · exact ht
            · rw [C10_binary_rejected he] at h3; cases h3
          obtain ⟨t', ht'⟩ := hck
          rcases checked_operands x1 y1 ht' with ⟨t, hO⟩ | ⟨hlb, hrb⟩ | ⟨hne, he⟩
          · cases hO <;> (first | exact .uint (by assumption) (by assumption) (by assumption) | exact .uintInt (by assumption) (by assumption) (by assumption))
          · cases hlb
          · rw [he] at h3; cases h3
        obtain ⟨s1, s2⟩ := C05_shift hO
        rcases hop with rfl | rfl
        · rw [s1] at h3
          split at h3 <;> cases h3
          rfl
        · rw [s2] at h3
          split at h3 <;> cases h3
          rfl
      refine ⟨hwf, key, x3.bind fun a ha => y3.bind fun b hb => ?_⟩
      exact (binary_shift hop ho x1 y1 x2 hlit ha hb h3).mono fun _ h => h.2
  case comparison =>
    intro k cv op l r s f s' f' t hop hl hr hcm ihl ihr c hc u hu
    cases hc with
    | @binary _ _ _ _ _ op' l' r' ho hcl hcr =>
      obtain ⟨b1, b2, -⟩ := binOps_logical ho
      have n1 : op ≠ .logical_and := by rintro rfl; cases hop
      have n2 : op ≠ .logical_or := by rintro rfl; cases hop
      simp only [AExpr.erase, evalE, if_neg n1, if_neg n2] at hu
      obtain ⟨x, h1, hu⟩ := Res.bind_eq_ok.mp hu
      obtain ⟨y, h2, hu⟩ := Res.bind_eq_ok.mp hu
      have h3 := Res.ofOutcome_eq_ok.mp hu
      obtain ⟨x1, rfl, x3⟩ := ihl _ hcl _ h1
      obtain ⟨y1, rfl, y3⟩ := ihr _ hcr _ h2
      have hwf := C11_binary_wf x1 y1 h3
      simp only [evalC]
      rw [if_neg (fun e => n1 (b1.mp e)), if_neg (fun e => n2 (b2.mp e))]
      have key : u.type = .bool := by
        have hO := operands_of x1 y1 hcm h3
        cases op <;> first | (exact absurd hop (by decide)) | skip
        all_goals (rw [C06_comparison hO rfl] at h3; cases h3; rfl)
      refine ⟨hwf, key, x3.bind fun a ha => y3.bind fun b hb => ?_⟩
      exact (binary_comparison hop ho x1 y1 hcm ha hb h3).mono fun _ h => h.2
  case logical =>
    intro k cv op l r f f' hop hl hr ihl ihr c hc u hu
    cases hc with
    | @binary _ _ _ _ _ op' l' r' ho hcl hcr =>
      obtain ⟨b1, b2, -⟩ := binOps_logical ho
      rcases hop with rfl | rfl
      · rw [b1.mpr rfl]
        simp only [AExpr.erase, evalE, if_true] at hu
        obtain ⟨b, hb, hu⟩ := Res.bind_eq_ok.mp hu
        obtain ⟨x, h1, h2⟩ := evalE_cond hb
        obtain ⟨x1, x2, x3⟩ := ihl _ hcl _ h1
        simp only [evalC, if_true]
        have hx := asBool_ok h2 x1
        cases b with
        | false =>
          cases hu
          refine ⟨⟨trivial, .inl rfl⟩, rfl, ?_⟩
          refine Agrees.bind (P := fun b => b = false) (x3.bind fun a ha => ?_) ?_
          · rw [truthOf_rep hx ha]; rfl
          · rintro b rfl; exact rep_truth false
        | true =>
          simp only [if_true] at hu
          obtain ⟨b, hb, hu⟩ := Res.bind_eq_ok.mp hu
          obtain ⟨y, h3, h4⟩ := evalE_cond hb
          obtain ⟨y1, y2, y3⟩ := ihr _ hcr _ h3
          have hy := asBool_ok h4 y1
          cases hu
          refine ⟨ofBool_wf b, rfl, ?_⟩
          refine Agrees.bind (P := fun b => b = true) (x3.bind fun a ha => ?_) ?_
          · rw [truthOf_rep hx ha]; rfl
          · rintro b' rfl
            refine Agrees.bind (P := fun b' => b' = b) (y3.bind fun a ha => ?_) ?_
            · rw [truthOf_rep hy ha]; rfl
            · rintro b rfl; exact rep_truth b
      · rw [b2.mpr rfl]
        simp only [AExpr.erase, evalE, if_true, reduceCtorEq, if_false] at hu
        obtain ⟨b, hb, hu⟩ := Res.bind_eq_ok.mp hu
        obtain ⟨x, h1, h2⟩ := evalE_cond hb
        obtain ⟨x1, x2, x3⟩ := ihl _ hcl _ h1
        simp only [evalC, if_true, reduceCtorEq, if_false]
        have hx := asBool_ok h2 x1
        cases b with
        | true =>
          cases hu
          refine ⟨⟨trivial, .inr rfl⟩, rfl, ?_⟩
          refine Agrees.bind (P := fun b => b = true) (x3.bind fun a ha => ?_) ?_
          · rw [truthOf_rep hx ha]; rfl
          · rintro b rfl; exact rep_truth true
        | false =>
          simp only [Bool.false_eq_true, if_false] at hu
          obtain ⟨b, hb, hu⟩ := Res.bind_eq_ok.mp hu
          obtain ⟨y, h3, h4⟩ := evalE_cond hb
          obtain ⟨y1, y2, y3⟩ := ihr _ hcr _ h3
          have hy := asBool_ok h4 y1
          cases hu
          refine ⟨ofBool_wf b, rfl, ?_⟩
          refine Agrees.bind (P := fun b => b = false) (x3.bind fun a ha => ?_) ?_
          · rw [truthOf_rep hx ha]; rfl
          · rintro b' rfl
            refine Agrees.bind (P := fun b' => b' = b) (y3.bind fun a ha => ?_) ?_
            · rw [truthOf_rep hy ha]; rfl
            · rintro b rfl; exact rep_truth b
  case plus =>
    intro k cv e t f he hb ih c hc u hu
    cases hc with
    | @«prefix» _ _ _ _ op' _ ho hc =>
      have : op' = UnOp.plus := by simpa [unOps] using ho
      subst this
      simp only [AExpr.erase, evalE] at hu
      obtain ⟨x, h1, hu⟩ := Res.bind_eq_ok.mp hu
      have h3 := Res.ofOutcome_eq_ok.mp hu
      obtain ⟨x1, rfl, x3⟩ := ih _ hc _ h1
      have hn := sameE_not_void hs he
      have hint : x.type.isInteger = true := by
        cases e : x.type <;> first | rfl | exact absurd e hb | exact absurd e hn
      have hux : u = x := by rw [C01_unary_plus hint] at h3; cases h3; rfl
      refine ⟨C11_unary_wf x1 h3, by rw [hux], ?_⟩
      simp only [evalC]
      exact x3.bind fun a ha => (unary_plus hb hn ha h3).mono fun _ h => h.2
  case minus =>
    intro k cv e t f he hb hstr hfirm ih c hc u hu
    cases hc with
    | @«prefix» _ _ _ _ op' _ ho hc =>
      have : op' = UnOp.minus := by simpa [unOps] using ho
      subst this
      simp only [AExpr.erase, evalE] at hu
      obtain ⟨x, h1, hu⟩ := Res.bind_eq_ok.mp hu
      have h3 := Res.ofOutcome_eq_ok.mp hu
      obtain ⟨x1, rfl, x3⟩ := ih _ hc _ h1
      have hn := sameE_not_void hs he
      have key : u.type = x.type := by
        obtain ⟨s, y⟩ := x
        dsimp only at *
        cases s with
        | bool => exact absurd rfl hb
        | void => exact absurd rfl hn
        | int =>
          rw [C02_int_neg_exact x1.2] at h3
          split at h3 <;> cases h3
          rfl
        | uint w => rw [C01_uint_neg_mod x1.1 x1.2] at h3; cases h3; rfl
      refine ⟨C11_unary_wf x1 h3, key, ?_⟩
      simp only [evalC]
      exact x3.bind fun a ha => (unary_minus x1 hb hn hstr hfirm ha h3).mono fun _ h => h.2
  case not_ =>
    intro k cv e f he ih c hc u hu
    cases hc with
    | @«prefix» _ _ _ _ op' _ ho hc =>
      have : op' = UnOp.lnot := by simpa [unOps] using ho
      subst this
      simp only [AExpr.erase, evalE] at hu
      obtain ⟨x, h1, hu⟩ := Res.bind_eq_ok.mp hu
      have h3 := Res.ofOutcome_eq_ok.mp hu
      obtain ⟨x1, x2, x3⟩ := ih _ hc _ h1
      have key : u.type = .bool := by
        obtain ⟨s, y⟩ := x
        dsimp only at x2
        subst x2
        unfold evalUnary at h3
        simp only [checkUnary, ExprType.isPrefixUnary] at h3
        cases h3
        rfl
      refine ⟨C11_unary_wf x1 h3, key, ?_⟩
      simp only [evalC]
      exact x3.bind fun a ha => (unary_lnot x1 x2 ha h3).mono fun _ h => h.2
  case complement =>
    intro k cv e w he ih c hc u hu
    cases hc with
    | @«prefix» _ _ _ _ op' _ ho hc =>
      have : op' = UnOp.bnot := by simpa [unOps] using ho
      subst this
      simp only [AExpr.erase, evalE] at hu
      obtain ⟨x, h1, hu⟩ := Res.bind_eq_ok.mp hu
      have h3 := Res.ofOutcome_eq_ok.mp hu
      obtain ⟨x1, x2, x3⟩ := ih _ hc _ h1
      have key : u.type = .uint w := by
        obtain ⟨s, y⟩ := x
        dsimp only at x2
        subst x2
        obtain ⟨z, g, -⟩ := C04_bitwise_not x1.1 x1.2
        rw [h3] at g; cases g; rfl
      refine ⟨C11_unary_wf x1 h3, key, ?_⟩
      simp only [evalC]
      exact x3.bind fun a ha => (unary_bnot x1 x2 ha h3).mono fun _ h => h.2
  case ite =>
    intro k w l c r s f s' f' g t hl hc hr hcm ht twf ihl ihc ihr c' hc' u hu
    cases hc' with
    | @ite _ _ _ _ _ l' c' r' hcl hcc hcr =>
      simp only [AExpr.erase, evalE] at hu
      obtain ⟨b, hb, hu⟩ := Res.bind_eq_ok.mp hu
      obtain ⟨x, h1, h2⟩ := evalE_cond hb
      obtain ⟨x1, x2, x3⟩ := ihc _ hcc _ h1
      have hx := asBool_ok h2 x1
      obtain ⟨ta, a1, a2⟩ := sameE_type hM hs hl _ hcl
      obtain ⟨tb, b1, b2⟩ := sameE_type hM hs hr _ hcr
      obtain ⟨y, h3, hu⟩ := Res.bind_eq_ok.mp hu
      have h4 := Res.ofOutcome_eq_ok.mp hu
      rw [ht] at h4
      have hn : t ≠ .void := by
        rcases hcm with h | ⟨-, -, rfl⟩
        · exact (common_not_void h).2.2
        · simp
      have hfit : FitsTy t ((decide (s = t) && f) || (decide (s' = t) && f')) (usual ta tb) := by
        rcases hcm with h | ⟨rfl, rfl, rfl⟩
        · exact usual_fits h a2 b2
        · rw [usual_bool a2 b2]; exact .inr rfl
      have hint : usual ta tb = .int → ∀ d, (∃ t', t' = s ∧ FitsTy s f d) ∨ (∃ t', t' = s' ∧ FitsTy s' f' d) →
          d = .int ∨ d = .bool := by
        intro hi d hd
        rw [hi] at hfit
        rcases hcm with h | ⟨rfl, rfl, rfl⟩
        · cases h with
          | same hh =>
            rcases hh with rfl | ⟨w', rfl⟩
            · rcases hd with ⟨-, -, hd⟩ | ⟨-, -, hd⟩ <;> exact .inl hd
            · simp only [decide_true, Bool.true_and] at hfit
              cases f <;> cases f'
              · rcases hd with ⟨-, -, hd⟩ | ⟨-, -, hd⟩ <;> exact .inl hd.2
              all_goals rcases hfit.2 with e | e <;> cases e
          | left =>
            cases f'
            · rcases hd with ⟨-, -, hd⟩ | ⟨-, -, hd⟩
              · exact .inl hd
              · exact .inl hd.2
            · simp only [decide_true, Bool.true_and, Bool.or_true] at hfit
              rcases hfit.2 with e | e <;> cases e
          | right =>
            cases f
            · rcases hd with ⟨-, -, hd⟩ | ⟨-, -, hd⟩
              · exact .inl hd.2
              · exact .inl hd
            · simp only [decide_true, Bool.true_and, Bool.true_or] at hfit
              rcases hfit.2 with e | e <;> cases e
        · rcases hd with ⟨-, -, hd⟩ | ⟨-, -, hd⟩ <;> exact hd.symm
      have htw : t.WF → ∀ (c : CExpr) (fl : Bool) (s0 : CType), WF y → y.type = s0 →
          (s0 = s ∧ fl = f ∨ s0 = s' ∧ fl = f') → Agrees A.strict (Rep fl y) (evalC F E c) →
          WF u ∧ u.type = t ∧ Agrees A.strict (Rep ((decide (s = t) && f) || (decide (s' = t) && f')) u)
            (evalC F E c >>= convert (usual ta tb)) := by
        intro hwf c fl s0 y1 y2 hor y3
        obtain ⟨k1, -, k3⟩ := C08_conversion_keeps_value y1 hwf h4
        refine ⟨k3, k1, y3.bind fun d hd => ?_⟩
        obtain ⟨q1, -, -, q4⟩ := convert_rep y1 hwf hfit (fun hi => hint hi d.type (by
          have := hd.1
          rw [y2] at this
          rcases hor with ⟨rfl, rfl⟩ | ⟨rfl, rfl⟩
          · exact .inl ⟨_, rfl, this⟩
          · exact .inr ⟨_, rfl, this⟩)) hn hd h4
        rw [q1]
        exact q4
      have hcond : Agrees A.strict (fun b' => b' = b) (evalC F E c' >>= truthOf) :=
        x3.bind fun a ha => by rw [truthOf_rep hx ha]; rfl
      simp only [evalC]
      cases b with
      | true =>
        simp only [if_true] at h3
        obtain ⟨y1, y2, y3⟩ := ihl _ hcl _ h3
        obtain ⟨q1, q2, q3⟩ := htw twf _ f s y1 y2 (.inl ⟨rfl, rfl⟩) y3
        refine ⟨q1, q2, hcond.bind ?_⟩
        rintro b rfl
        rw [a1, b1]
        exact q3
      | false =>
        simp only [Bool.false_eq_true, if_false] at h3
        obtain ⟨y1, y2, y3⟩ := ihr _ hcr _ h3
        obtain ⟨q1, q2, q3⟩ := htw twf _ f' s' y1 y2 (.inr ⟨rfl, rfl⟩) y3
        refine ⟨q1, q2, hcond.bind ?_⟩
        rintro b rfl
        rw [a1, b1]
        exact q3
  case call =>
    intro k cv st x n args ts t hfn hno hw hargs ih c hc u hu
    cases hc with
    | call hc =>
      obtain ⟨m1, m2, fn, m3, m4, m5, m6⟩ := hM.fns _ _ _ _ hfn
      simp only [AExpr.erase, evalE, m1] at hu
      obtain ⟨vs, h1, h2⟩ := Res.bind_eq_ok.mp hu
      obtain ⟨g1, g2, g3⟩ := ih _ _ _ hc m2 m5 h1
      obtain ⟨k1, k2, k3⟩ := m6 vs u g1 g2 h2
      refine ⟨k1, k2, ?_⟩
      simp only [evalC]
      rw [hs.none _ hno, m3]
      exact g3.bind fun cs hcs => k3 cs hcs
  case nil =>
    intro cs tys vs hc _ ht h
    cases hc
    cases ht
    simp only [eraseAll, evalArgs] at h
    cases h
    refine ⟨rfl, by simp, ?_⟩
    simp only [evalCs]
    exact .nil
  case cons =>
    intro e es s f t ts he hw hes ih ihs cs tys vs hc hwf ht h
    cases hc with
    | cons hc hcs =>
      cases ht with
      | cons hty htys =>
        simp only [eraseAll, evalArgs] at h
        obtain ⟨v, h1, h⟩ := Res.bind_eq_ok.mp h
        obtain ⟨u, h2, h⟩ := Res.bind_eq_ok.mp h
        obtain ⟨us, h3, h⟩ := Res.bind_eq_ok.mp h
        cases h
        have h2 := Res.ofOutcome_eq_ok.mp h2
        obtain ⟨x1, x2, x3⟩ := ih _ hc _ h1
        obtain ⟨y1, y2, y3⟩ := ihs _ _ _ hcs (fun t ht => hwf t (.tail _ ht)) htys h3
        have twf := hwf t (.head _)
        obtain ⟨k1, -, k3⟩ := C08_conversion_keeps_value x1 twf h2
        refine ⟨by rw [List.map_cons, k1, y1], ?_, ?_⟩
        · intro v hv
          cases hv with
          | head => exact k3
          | tail _ hv => exact y2 v hv
        · simp only [evalCs]
          refine Agrees.bind (P := Rep true u) (x3.bind fun d hd => ?_) ?_
          · obtain ⟨q1, -, -, q4⟩ := convert_type x1 twf (typeIs_fits hty (.inr hw)) (wide_not_void hw) hd h2
            rw [q1]; exact q4
          · intro d hd
            refine y3.bind fun ds hds => ?_
            exact .cons hd hds

end Bms.C
