import Verif.Spec.Calm
import Verif.Lemmas.AnalyzeNames
import Verif.Lemmas.AnalyzeInst

/-!
# Analysis of calm programs neither throws nor has undefined behavior
-/

namespace Bms

open Spec

/-- The analysis ends within the bound with an error or in a state with `P`. -/
def Calm {α : Type} (P : α → ASt → Prop) (x : AM α) (s : ASt) : Prop :=
  match x s with
  | .ok a s => P a s
  | .err _ => True
  | _ => False

namespace Calm

variable {α β : Type} {P : α → ASt → Prop} {Q : β → ASt → Prop} {s : ASt}

theorem bind {x : AM α} {f : α → AM β} (hx : Calm P x s)
    (hf : ∀ a s', x s = .ok a s' → P a s' → Calm Q (f a) s') : Calm Q (x >>= f) s := by
  show Calm Q (AM.bind x f) s
  unfold Calm at hx ⊢
  unfold AM.bind
  cases hr : x s with
  | ok a s' =>
    simp only [hr] at hx ⊢
    exact hf a s' hr hx
  | err e => trivial
  | _ => simp [hr] at hx

theorem mono {P' : α → ASt → Prop} {x : AM α} (h : Calm P x s) (hp : ∀ a s', x s = .ok a s' → P a s' → P' a s') :
    Calm P' x s := by
  unfold Calm at h ⊢
  cases hr : x s with
  | ok a s' => simp only [hr] at h ⊢; exact hp a s' hr h
  | err e => trivial
  | _ => simp [hr] at h

theorem and {P' : α → ASt → Prop} {x : AM α} (h : Calm P x s) (h' : Calm P' x s) :
    Calm (fun a s => P a s ∧ P' a s) x s := by
  unfold Calm at h h' ⊢
  cases hr : x s with
  | ok a s' => simp only [hr] at h h' ⊢; exact ⟨h, h'⟩
  | err e => trivial
  | _ => simp [hr] at h

theorem pure {a : α} (h : P a s) : Calm P (Pure.pure a : AM α) s := h
theorem fail {c : ACode} {k : Key} : Calm P (AM.fail c k : AM α) s := trivial
theorem read {P : ASt → ASt → Prop} (h : P s s) : Calm P AM.read s := h
theorem modify {P : Unit → ASt → Prop} {f : ASt → ASt} (h : P () (f s)) : Calm P (AM.modify f) s := h

theorem value {o : Option α} {a : α} (ho : o = some a) (h : P a s) : Calm P (AM.value o) s := by
  subst ho
  exact h

theorem deref {o : Option α} {a : α} (ho : o = some a) (h : P a s) : Calm P (AM.deref o) s := by
  subst ho
  exact h

theorem lift {ε : Type} {f : ε → AErr} {o : Outcome ε α} (ho : considered o = true) (h : ∀ a, o = .ok a → P a s) :
    Calm P (AM.lift f o) s := by
  cases o with
  | ok a => exact h a rfl
  | err e => trivial
  | _ => cases ho

theorem get {o : Outcome AErr α} {a : α} (ho : o = .ok a) (h : P a s) : Calm P (AM.get o) s := by
  subst ho
  exact h

theorem checked {o : Outcome CheckErr α} {k : Key} (ho : considered o = true) (h : ∀ a, o = .ok a → P a s) :
    Calm P (Ana.checked k o) s := lift ho h

theorem assert {P : Unit → ASt → Prop} {b : Bool} (hb : b = true) (h : P () s) : Calm P (AM.assert b) s := by
  subst hb
  exact h

theorem foldResult {P : Value → ASt → Prop} {o : Outcome EvalErr Value} {t : CType} {b : Bool} {k : Key}
    (ho : considered o = true) (h : ∀ v, Folds o t v → P v s) : Calm P (Bms.foldResult o t b k) s := by
  cases o with
  | ok a => exact h a (.inl rfl)
  | err e => cases b with
    | false => exact h _ (.inr ⟨⟨e, rfl⟩, rfl⟩)
    | true => trivial
  | _ => cases ho

theorem ite {c : Prop} [Decidable c] {x y : AM α} (hx : c → Calm P x s) (hy : ¬ c → Calm P y s) :
    Calm P (if c then x else y) s := by
  split
  · next h => exact hx h
  · next h => exact hy h

end Calm

/-! ## Operations -/

theorem considered_iff {ε α : Type} {o : Outcome ε α} : considered o = true ↔ o ≠ .throws ∧ o ≠ .ub := by
  cases o <;> simp [considered]

theorem considered_map {ε α β : Type} {o : Outcome ε α} {f : α → β} : considered (o.map f) = considered o := by
  cases o <;> rfl

theorem considered_checkBinary (l r : CType) (op : ExprType) : considered (checkBinary l op r) = true := by
  rcases C10_check_total l r op with ⟨t, h⟩ | ⟨e, h⟩ <;> rw [h] <;> rfl

theorem considered_checkUnary (op : ExprType) (t : CType) : considered (checkUnary op t) = true := by
  unfold checkUnary
  cases t <;> simp only [] <;> (repeat' split) <;> rfl

theorem considered_checkIf (l c r : CType) : considered (checkIf l c r) = true := by
  unfold checkIf
  split
  · rfl
  · rcases C07_common_type_error l r with ⟨_, _, _, _, _, h⟩ | ⟨_, h⟩ | ⟨t, h⟩ <;> rw [h] <;> rfl

theorem considered_checkBuiltin (f : Builtin) (ts : List CType) : considered (checkBuiltin f ts) = true := by
  unfold checkBuiltin
  split
  · rfl
  · cases f
    simp only
    split <;> rfl

theorem considered_convertTo (v : CVal) (t : CType) (k : ConvKind) : considered (v.convertTo t k) = true := by
  have := convertTo_ne_throws v t k
  refine considered_iff.2 ⟨this, ?_⟩
  unfold CVal.convertTo
  simp only []
  (repeat' split) <;> simp

theorem considered_conversion (v : Value) (t : CType) : considered (evalConversionV v t) = true := by
  unfold evalConversionV Value.convertTo
  split
  · rfl
  · split
    · rfl
    · rw [considered_map]
      exact considered_convertTo _ _ _

theorem conversion_known {v : CVal} {t : CType} (hc : v.type.isConvertibleTo t = true) :
    evalConversionV (Value.known v) t = (evalConversion v t).map Value.known := by
  unfold evalConversionV Value.convertTo evalConversion
  rw [if_neg (by simp [Value.known, hc])]
  rfl

theorem unary_known (op : ExprType) (v : CVal) :
    evalUnaryV op (Value.known v) = (evalUnary op v).map Value.known := by
  unfold evalUnaryV
  simp only [Value.known]
  cases h : checkUnary op v.type with
  | ok t => rfl
  | err e => simp [evalUnary, h, Outcome.mapErr, Outcome.map, Bind.bind, Outcome.bind]
  | throws => simp [evalUnary, h, Outcome.mapErr, Outcome.map, Bind.bind, Outcome.bind]
  | ub => simp [evalUnary, h, Outcome.mapErr, Outcome.map, Bind.bind, Outcome.bind]

theorem common_convertible {l r c : CType} (h : getCommonType l r = .ok c) :
    l.isConvertibleTo c = true ∧ r.isConvertibleTo c = true := by
  cases l <;> cases r <;> simp only [getCommonType] at h <;> (try split at h) <;> cases h <;>
    simp_all [CType.isConvertibleTo]

theorem if_known {l c r : CVal} (hc : c.type = .bool) :
    evalIfV (Value.known l) (Value.known c) (Value.known r) = (evalIf l c r).map Value.known := by
  unfold evalIfV evalIf
  simp only [Value.known]
  cases h : checkIf l.type c.type r.type with
  | ok t =>
    have h1 : l.type.isConvertibleTo t = true ∧ r.type.isConvertibleTo t = true := by
      unfold checkIf at h
      split at h
      · cases h
      · exact common_convertible h
    simp only [Outcome.mapErr_ok, Outcome.ok_bind, Value.isKnown, Value.asBool, hc, Option.isSome_some,
      not_true_eq_false, if_false, if_true]
    by_cases hz : c.int = 0
    · simp only [hz, ne_eq, not_true_eq_false, decide_false, if_false, Bool.false_eq_true]
      simp [Value.convertTo, h1.2]
    · simp only [hz, ne_eq, not_false_eq_true, decide_true, if_true]
      simp [Value.convertTo, h1.1]
  | err e => simp [Outcome.mapErr, Outcome.map, Bind.bind, Outcome.bind]
  | throws => simp [Outcome.mapErr, Outcome.map, Bind.bind, Outcome.bind]
  | ub => simp [Outcome.mapErr, Outcome.map, Bind.bind, Outcome.bind]

theorem binary_known (op : ExprType) (a b : CVal) :
    evalBinaryV (Value.known a) op (Value.known b) = (evalBinary a op b).map Value.known := by
  cases hck : checkBinary a.type op b.type with
  | err e => simp [evalBinaryV, evalBinary, Value.known, hck, Outcome.mapErr, Outcome.map, Bind.bind, Outcome.bind]
  | throws => simp [evalBinaryV, evalBinary, Value.known, hck, Outcome.mapErr, Outcome.map, Bind.bind, Outcome.bind]
  | ub => simp [evalBinaryV, evalBinary, Value.known, hck, Outcome.mapErr, Outcome.map, Bind.bind, Outcome.bind]
  | ok t =>
    obtain ⟨-, -, c, hcc⟩ := checkBinary_getCommon hck
    obtain ⟨hca, hcb⟩ := common_convertible hcc
    have h1 := conversion_known hca
    have h2 := conversion_known hcb
    unfold evalConversionV evalConversion at h1 h2
    unfold Value.known at h1 h2
    cases hl : a.convertTo c .lossless_numeric with
    | ok l =>
      cases hr : b.convertTo c .lossless_numeric with
      | ok r =>
        rw [← evalBinary_converted (op := op) hcc hl hr]
        simp only [evalBinaryV, Value.known, hck, convertToEqualV, hcc, Outcome.mapErr_ok, Outcome.ok_bind, h1, h2, hl,
          hr]
        rfl
      | _ =>
        simp only [evalBinaryV, evalBinary, Value.known, hck, convertToEqualV, convertToEqual, hcc, Outcome.mapErr_ok,
          Outcome.ok_bind, h1, h2, hl, hr]
        rfl
    | _ =>
      simp only [evalBinaryV, evalBinary, Value.known, hck, convertToEqualV, convertToEqual, hcc, Outcome.mapErr_ok,
        Outcome.ok_bind, h1, h2, hl]
      rfl

theorem considered_if {l c r : Value} (hc : c.type = .bool) : considered (evalIfV l c r) = true := by
  unfold evalIfV
  have := considered_checkIf l.type c.type r.type
  cases h : checkIf l.type c.type r.type with
  | ok t =>
    simp only [Outcome.mapErr_ok, Outcome.ok_bind]
    split
    · rfl
    · next hk =>
      cases hv : c.val with
      | none => simp [Value.isKnown, hv] at hk
      | some x =>
        simp only [Value.asBool, hv, hc, if_true, Outcome.ok_bind]
        exact considered_conversion _ _
  | err e => rfl
  | throws => rw [h] at this; cases this
  | ub => rw [h] at this; cases this

theorem considered_unary {op : ExprType} {v : Value} (hv : VOk v)
    (h : op ≠ .unary_minus ∨ v.val = none ∨ ∃ a, v = Value.known a ∧ considered (evalUnary op a) = true) :
    considered (evalUnaryV op v) = true := by
  obtain ⟨t, o⟩ := v
  cases o with
  | none =>
    have := considered_checkUnary op t
    unfold evalUnaryV
    simp only
    cases hc : checkUnary op t with
    | ok u => rfl
    | err e => rfl
    | throws => rw [hc] at this; cases this
    | ub => rw [hc] at this; cases this
  | some x =>
    have e : (⟨t, some x⟩ : Value) = Value.known ⟨t, x⟩ := rfl
    rw [e, unary_known, considered_map]
    rcases h with h | h | ⟨a, ha, h⟩
    · have hw : WF ⟨t, x⟩ := hv.2 x rfl
      obtain ⟨h1, h2⟩ := C10_unary op hw
      have := considered_checkUnary op t
      cases hc : checkUnary op t with
      | ok u =>
        rcases h1 u hc with ⟨u, hu, -⟩ | ⟨-, hm, -⟩
        · rw [hu]; rfl
        · exact absurd hm h
      | err e => rw [h2 e hc]; rfl
      | throws => rw [hc] at this; cases this
      | ub => rw [hc] at this; cases this
    · cases h
    · obtain ⟨t', x'⟩ := a
      simp only [Value.known, Value.mk.injEq, Option.some.injEq] at ha
      obtain ⟨rfl, rfl⟩ := ha
      exact h

theorem considered_binary {op : ExprType} {a b : Value} (ha : VOk a) (hb : VOk b)
    (h : total op = true ∨ b.val = none ∨ (a.val = none ∧ divides op = false) ∨
      ∃ x y, a = Value.known x ∧ b = Value.known y ∧ considered (evalBinary x op y) = true) :
    considered (evalBinaryV a op b) = true := by
  have open_ : ∀ a b : Value, b.val = none ∨ (a.val = none ∧ divides op = false) →
      considered (evalBinaryV a op b) = true := by
    intro a b h
    unfold evalBinaryV
    have := considered_checkBinary a.type b.type op
    cases hck : checkBinary a.type op b.type with
    | ok t =>
      obtain ⟨-, -, c, hcc⟩ := checkBinary_getCommon hck
      simp only [convertToEqualV, hcc, Outcome.mapErr_ok, Outcome.ok_bind]
      have hl := considered_conversion a c
      have hr := considered_conversion b c
      unfold evalConversionV at hl hr
      cases hl' : a.convertTo c .lossless_numeric with
      | ok l =>
        cases hr' : b.convertTo c .lossless_numeric with
        | ok r =>
          simp only [Outcome.ok_bind]
          obtain ⟨-, hln, -⟩ := valueConvertTo_known hl'
          obtain ⟨-, hrn, -⟩ := valueConvertTo_known hr'
          rcases h with h | ⟨h, hd⟩
          · rw [hrn h]
            cases l.val <;> rfl
          · rw [hln h]
            cases r.val with
            | none => rfl
            | some y =>
              have : checkKnownRhs op l r = .ok () := by
                simp only [divides, Bool.or_eq_false_iff, decide_eq_false_iff_not] at hd
                unfold checkKnownRhs
                rw [if_neg (by simp [hd]), if_neg (by simp [hd])]
              simp only [this]
              rfl
        | err e => rfl
        | throws => rw [hr'] at hr; cases hr
        | ub => rw [hr'] at hr; cases hr
      | err e => rfl
      | throws => rw [hl'] at hl; cases hl
      | ub => rw [hl'] at hl; cases hl
    | err e => rfl
    | throws => rw [hck] at this; cases this
    | ub => rw [hck] at this; cases this
  rcases h with h | h | h | ⟨x, y, rfl, rfl, h⟩
  · by_cases hn : b.val = none ∨ (a.val = none ∧ divides op = false)
    · exact open_ a b hn
    · have hd : divides op = false := by
        revert h
        cases op <;> simp [total, divides]
      obtain ⟨ta, oa⟩ := a
      obtain ⟨tb, ob⟩ := b
      cases oa with
      | none => exact absurd (.inr ⟨rfl, hd⟩) hn
      | some x =>
        cases ob with
        | none => exact absurd (.inl rfl) hn
        | some y =>
          have e1 : (⟨ta, some x⟩ : Value) = Value.known ⟨ta, x⟩ := rfl
          have e2 : (⟨tb, some y⟩ : Value) = Value.known ⟨tb, y⟩ := rfl
          rw [e1, e2, binary_known, considered_map]
          have hx : WF ⟨ta, x⟩ := ha.2 x rfl
          have hy : WF ⟨tb, y⟩ := hb.2 y rfl
          have := considered_checkBinary ta tb op
          cases hck : checkBinary ta op tb with
          | ok t =>
            rcases C10_binary_accepted_partial hx hy (op := op) (t := t) (by rintro rfl; cases h)
              (by rintro ⟨rfl | rfl, -⟩ <;> cases h) hck with ⟨u, hu, -⟩ | ⟨hu, -⟩ | ⟨hu, -⟩ | ⟨-, hu⟩
            · rw [hu]; rfl
            · rw [hu]; rfl
            · rw [hu]; rfl
            · exfalso
              simp only [divides, Bool.or_eq_false_iff, decide_eq_false_iff_not] at hd
              rcases hu with ⟨-, -, ⟨z, hz, -⟩ | ⟨hu, -⟩⟩ | ⟨hu, -⟩
              · revert h hz
                cases op <;> simp [total, exactArith]
              · rcases hu with hu | hu <;> simp [hu] at hd
              · rcases hu with hu | hu <;> simp [hu] at hd
          | err e => rw [C10_binary_rejected (l := ⟨ta, x⟩) (r := ⟨tb, y⟩) hck]; rfl
          | throws => rw [hck] at this; cases this
          | ub => rw [hck] at this; cases this
  · exact open_ a b (.inl h)
  · exact open_ a b (.inr h)
  · rw [binary_known, considered_map]
    exact h

theorem considered_builtin {f : Builtin} {vs : List Value} : considered (evalBuiltinV f vs) = true := by
  unfold evalBuiltinV
  have := considered_checkBuiltin f (vs.map Value.type)
  cases hc : checkBuiltin f (vs.map Value.type) with
  | ok t =>
    simp only [Outcome.mapErr_ok, Outcome.ok_bind]
    split
    · rfl
    · next hk =>
      cases f
      have hlen : vs.length = 1 := by
        unfold checkBuiltin at hc
        split at hc
        · cases hc
        · next h => simpa [Builtin.paramTypes, eq_comm] using h
      match vs, hlen with
      | [v], _ =>
        obtain ⟨tv, o⟩ := v
        cases o with
        | none => simp [Value.isKnown] at hk
        | some x =>
          simp only [concreteAll, Value.concrete, Outcome.ok_bind, considered_map, unsafeEvalBuiltin, List.map_cons,
            List.map_nil]
          simp only [List.map_cons, List.map_nil] at hc
          rw [hc]
          simp only [Outcome.mapErr_ok, Outcome.ok_bind]
          split <;> rfl
  | err e => rfl
  | throws => rw [hc] at this; cases this
  | ub => rw [hc] at this; cases this

/-! ## Constant expressions -/

/-- What the state has for names. -/
structure NamesOk (K : Facts) (s : ASt) : Prop where
  fns : ∀ j ∈ K.fns, (s.fns j).isSome
  const : ∀ j, (j, .const_) ∈ K.kinds → s.fns j = none ∧ ∃ cv, s.decl j = some ⟨.const_, cv⟩ ∧
    ∀ v, cv = some v → ∃ c, K.value j = some c ∧ v = Value.known c ∧ WF c
  let_ : ∀ j, (j, .let_) ∈ K.kinds → s.fns j = none ∧ ∃ cv, s.decl j = some ⟨.let_, cv⟩ ∧
    ∀ v, cv = some v → v.type.WF ∧ v = Value.unknownOf v.type

/-- A type node after its analysis. -/
def SigC (ty : AType) (t : CType) : Prop :=
  ty.cv = some (Value.unknownOf t) ∧ ty.concreteType (ε := AErr) = .ok (some t) ∧ t.WF

theorem possible_ok {c : Outcome CheckErr CType} {r : Outcome EvalErr CVal} {v : CVal}
    (h : possible c r = .ok v) : (∃ t, c = .ok t) ∧ r = .ok v := by
  unfold possible at h
  cases c with
  | ok t => cases r <;> simp_all
  | _ => cases h

theorem possible_err {c : Outcome CheckErr CType} {r : Outcome EvalErr CVal}
    (h : possible c r = .err ()) (hc : considered c = true) : ∃ e, c = .err e := by
  unfold possible at h
  cases c with
  | ok t => cases r <;> simp_all
  | err e => exact ⟨e, rfl⟩
  | _ => cases hc

theorem computed_ok {c : Outcome CheckErr CType} {r : Outcome EvalErr CVal} {v : CVal}
    (h : computed c r = .ok v) : (∃ t, c = .ok t) ∧ r = .ok v := by
  unfold computed at h
  cases c with
  | ok t => cases r <;> simp_all
  | _ => cases h

theorem computed_err {c : Outcome CheckErr CType} {r : Outcome EvalErr CVal}
    (h : computed c r = .err ()) (hc : considered c = true) : (∃ e, c = .err e) ∨ (∃ t, c = .ok t) ∧ ∃ e, r = .err e := by
  unfold computed at h
  cases c with
  | ok t => cases r <;> simp_all
  | err e => exact .inl ⟨e, rfl⟩
  | _ => cases hc

theorem Outcome.bind_eq_err' {ε α β : Type} {x : Outcome ε α} {f : α → Outcome ε β} {e : ε}
    (h : x >>= f = .err e) : x = .err e ∨ ∃ a, x = .ok a ∧ f a = .err e := by
  cases x with
  | ok a => exact .inr ⟨a, rfl, h⟩
  | err e' => exact .inl (by cases h; rfl)
  | throws => cases h
  | ub => cases h

section

variable {K : Facts} {n : Nat} {af : Key → Level → AM Unit}

theorem calm_false {α : Type} {P : α → ASt → Prop} {x : AM α} {s : ASt} (h : Calm (fun _ _ => False) x s) : Calm P x s :=
  h.mono fun _ _ _ h => h.elim

theorem calm_bind_false {α β : Type} {P : β → ASt → Prop} {x : AM α} {f : α → AM β} {s : ASt}
    (h : Calm (fun _ _ => False) x s) : Calm P (x >>= f) s := h.bind fun _ _ _ h => h.elim

mutual

theorem constE_calm {s : ASt} (hs : NamesOk K s) : (e : AExpr) → RawE e →
    (∀ v, constE K e = .ok v → ∀ level ctx,
      Calm (fun (e' : AExpr) s' => s = s' ∧ e'.cv = some (Value.known v) ∧ WF v) (Ana.expr n af e level ctx) s) ∧
    (constE K e = .err () → ∀ level, Calm (fun _ _ => False) (Ana.expr n af e level .constant) s)
  | .literal k cv lit, hr => by
    simp only [RawE] at hr
    subst hr
    simp only [Ana.expr, Ana.literal, constE]
    cases lit with
    | none => exact ⟨fun v h => (by cases h), fun h => by cases h⟩
    | some l =>
      cases l with
      | true_ => exact ⟨fun v h _ _ => (by cases h; exact .pure ⟨rfl, rfl, by decide⟩), fun h => by cases h⟩
      | false_ => exact ⟨fun v h _ _ => (by cases h; exact .pure ⟨rfl, rfl, by decide⟩), fun h => by cases h⟩
      | integer text =>
        simp only
        cases hp : parseIntegerLiteral text with
        | none => exact ⟨fun v h => (by cases h), fun _ _ => .fail⟩
        | some x =>
          refine ⟨fun v h _ _ => ?_, fun h => by cases h⟩
          cases h
          exact .pure ⟨rfl, rfl, litValue_wf (l := .integer text) (by simp [litValue, hp])⟩
  | .id k cv name ref g, hr => by
    simp only [RawE] at hr
    subst hr
    rw [constE.eq_def]
    simp only []
    cases ref with
    | none => exact ⟨fun v h => (by cases h), fun h => by cases h⟩
    | some r =>
      cases r with
      | builtin f => exact ⟨fun v h => (by cases h), fun h => by cases h⟩
      | param p =>
        refine ⟨fun v h => (by cases h), fun _ level => ?_⟩
        rw [Ana.expr.eq_def]
        exact calm_bind_false .fail
      | node j =>
        by_cases hc : (j, DeclKind.const_) ∈ K.kinds
        · have hc' : K.kinds.contains (j, .const_) = true := List.contains_iff_mem.2 hc
          simp only [hc', if_true]
          obtain ⟨h1, cv, h2, h3⟩ := hs.const j hc
          constructor
          · intro v hv level ctx
            rw [Ana.expr.eq_def]
            have : Calm (fun o s' => s = s' ∧ o = some (Value.known v) ∧ WF v) (Ana.idValue k (some (.node j)) ctx) s := by
              unfold Ana.idValue
              refine Calm.bind (P := fun t s' => t = s ∧ s = s') (.read ⟨rfl, rfl⟩) fun t _ _ h => ?_
              obtain ⟨rfl, rfl⟩ := h
              simp only [h1, h2]
              cases cv with
              | none => exact .fail
              | some w =>
                obtain ⟨c, hc, rfl, hw⟩ := h3 w rfl
                rw [hc] at hv
                cases hv
                exact .pure ⟨rfl, rfl, hw⟩
            refine this.bind fun o s' _ h => ?_
            obtain ⟨rfl, rfl, hw⟩ := h
            exact .pure ⟨rfl, rfl, hw⟩
          · intro hv level
            rw [Ana.expr.eq_def]
            refine calm_bind_false ?_
            unfold Ana.idValue
            refine Calm.bind (P := fun t s' => t = s ∧ s = s') (.read ⟨rfl, rfl⟩) fun t _ _ h => ?_
            obtain ⟨rfl, rfl⟩ := h
            simp only [h1, h2]
            cases cv with
            | none => exact .fail
            | some w =>
              obtain ⟨c, hc, -⟩ := h3 w rfl
              rw [hc] at hv
              cases hv
        · have hc' : K.kinds.contains (j, .const_) = false := by
            rw [← Bool.not_eq_true, List.contains_iff_mem]
            exact hc
          simp only [hc', Bool.false_eq_true, if_false]
          refine ⟨fun v h => (by split at h <;> cases h), fun h level => ?_⟩
          split at h
          · next hd =>
            rw [Ana.expr.eq_def]
            refine calm_bind_false ?_
            unfold Ana.idValue
            refine Calm.bind (P := fun t s' => t = s ∧ s = s') (.read ⟨rfl, rfl⟩) fun t _ _ h => ?_
            obtain ⟨rfl, rfl⟩ := h
            simp only [Facts.declared, Bool.or_eq_true, List.contains_iff_mem] at hd
            rcases hd with (hd | hd) | hd
            · have := hs.fns j hd
              cases hf : t.fns j with
              | none => rw [hf] at this; cases this
              | some f => exact .fail
            · exact absurd hd hc
            · obtain ⟨h1, cv, h2, -⟩ := hs.let_ j hd
              simp only [h1, h2, if_true]
              exact .fail
          · cases h
  | .conversion k cv e ty, hr => by
    obtain ⟨-, hre, hrt⟩ := hr
    obtain ⟨he1, he2⟩ := constE_calm hs e hre
    obtain ⟨ht1, ht2⟩ := constT_calm hs ty hrt
    rw [constE]
    constructor
    · intro v hv level ctx
      obtain ⟨u, hu, hv⟩ := Outcome.bind_eq_ok.1 hv
      obtain ⟨t, ht, hv⟩ := Outcome.bind_eq_ok.1 hv
      split at hv
      · cases hv
      · next hcv =>
        obtain ⟨-, hv⟩ := possible_ok hv
        rw [Ana.expr]
        refine Calm.bind (he1 u hu level ctx) fun e' _ _ h => ?_
        obtain ⟨rfl, hce, hwu⟩ := h
        refine Calm.bind (ht1 t ht) fun ty' _ _ h => ?_
        obtain ⟨rfl, hty⟩ := h
        refine Calm.bind (P := fun a s' => s = s' ∧ a = Value.known u) (.value hce ⟨rfl, rfl⟩) fun _ _ _ h => ?_
        obtain ⟨rfl, rfl⟩ := h
        refine Calm.bind (P := fun a s' => s = s' ∧ a = some t) (.get hty.2.1 ⟨rfl, rfl⟩) fun _ _ _ h => ?_
        obtain ⟨rfl, rfl⟩ := h
        refine Calm.bind (P := fun a s' => s = s' ∧ a = t) (.value rfl ⟨rfl, rfl⟩) fun _ _ _ h => ?_
        obtain ⟨rfl, rfl⟩ := h
        refine .ite (fun h => absurd (show ¬ u.type.isConvertibleTo _ = true from h) hcv) fun _ => ?_
        rw [conversion_known (by simpa using hcv), hv]
        refine .pure (P := fun (e' : AExpr) s' => s = s' ∧ e'.cv = some (Value.known v) ∧ WF v) ⟨rfl, rfl, ?_⟩
        exact (C11_conversion_wf hwu hty.2.2 hv).1
    · intro hv level
      rw [Ana.expr]
      rcases Outcome.bind_eq_err' hv with hu | ⟨u, hu, hv⟩
      · exact calm_bind_false (he2 hu level)
      refine Calm.bind (he1 u hu level .constant) fun e' _ _ h => ?_
      obtain ⟨rfl, hce, hwu⟩ := h
      rcases Outcome.bind_eq_err' hv with ht | ⟨t, ht, hv⟩
      · exact calm_bind_false (ht2 ht)
      refine Calm.bind (ht1 t ht) fun ty' _ _ h => ?_
      obtain ⟨rfl, hty⟩ := h
      refine Calm.bind (P := fun a s' => s = s' ∧ a = Value.known u) (.value hce ⟨rfl, rfl⟩) fun _ _ _ h => ?_
      obtain ⟨rfl, rfl⟩ := h
      refine Calm.bind (P := fun a s' => s = s' ∧ a = some t) (.get hty.2.1 ⟨rfl, rfl⟩) fun _ _ _ h => ?_
      obtain ⟨rfl, rfl⟩ := h
      refine Calm.bind (P := fun a s' => s = s' ∧ a = t) (.value rfl ⟨rfl, rfl⟩) fun _ _ _ h => ?_
      obtain ⟨rfl, rfl⟩ := h
      split at hv
      · next hcv => exact .ite (fun _ => .fail) fun h => absurd hcv h
      · obtain ⟨e, he⟩ := possible_err hv rfl
        cases he
  | .ite k cv l c r, hr => by
    obtain ⟨-, hrl, hrc, hrr⟩ := hr
    obtain ⟨hl1, hl2⟩ := constE_calm hs l hrl
    obtain ⟨hc1, hc2⟩ := constE_calm hs c hrc
    obtain ⟨hr1, hr2⟩ := constE_calm hs r hrr
    rw [constE]
    have key : ∀ (vc : CVal) (vl vr : CVal) (c1 : AExpr) (chosen : Option Bool) (level : Level) (ctx : ECtx),
        vc.type = .bool → constE K l = .ok vl → constE K r = .ok vr →
        ∀ P : AExpr → ASt → Prop, (∀ e, checkIf vl.type vc.type vr.type = .err e → True) →
        (∀ t, checkIf vl.type vc.type vr.type = .ok t → ∃ v, evalIf vl vc vr = .ok v ∧
          ∀ l' r', WF v → P (.ite k (some (Value.known v)) l' c1 r') s) →
        Calm P (do
        let left ← Ana.expr n af l level (if chosen = some false then .normal else ctx)
        let right ← Ana.expr n af r level (if chosen = some true then .normal else ctx)
        let l ← AM.deref left.cv
        let r ← AM.deref right.cv
        let t ← Ana.checked k (checkIf l.type (Value.known vc).type r.type)
        match evalIfV l (Value.known vc) r with
        | .ok w => pure (.ite k (some w) left c1 right)
        | .err _ =>
          if ctx = .constant then AM.throws
          else pure (.ite k (some (Value.unknownOf t)) left c1 right)
        | .throws => AM.throws
        | .ub => AM.ub : AM AExpr) s := by
      intro vc vl vr c1 chosen level ctx hb hvl hvr P _ hP
      refine Calm.bind (hl1 vl hvl _ _) fun l' _ _ h => ?_
      obtain ⟨rfl, hcl, hwl⟩ := h
      refine Calm.bind (hr1 vr hvr _ _) fun r' _ _ h => ?_
      obtain ⟨rfl, hcr, hwr⟩ := h
      refine Calm.bind (P := fun a s' => s = s' ∧ a = Value.known vl) (.deref hcl ⟨rfl, rfl⟩) fun _ _ _ h => ?_
      obtain ⟨rfl, rfl⟩ := h
      refine Calm.bind (P := fun a s' => s = s' ∧ a = Value.known vr) (.deref hcr ⟨rfl, rfl⟩) fun _ _ _ h => ?_
      obtain ⟨rfl, rfl⟩ := h
      refine Calm.bind (P := fun t s' => s = s' ∧ checkIf vl.type vc.type vr.type = .ok t)
        (.checked (considered_checkIf _ _ _) fun t ht => ⟨rfl, ht⟩) fun t _ _ h => ?_
      obtain ⟨rfl, ht⟩ := h
      obtain ⟨v, hv, hP⟩ := hP t ht
      rw [if_known hb, hv]
      exact .pure (P := P) (hP _ _ (C11_if_wf hwl hwr hv))
    have pre : ∀ (vc : CVal), constE K c = .ok vc → vc.type = .bool → ∀ (vl vr : CVal) (level : Level) (ctx : ECtx),
        constE K l = .ok vl → constE K r = .ok vr →
        ∀ P : AExpr → ASt → Prop,
        (∀ t, checkIf vl.type vc.type vr.type = .ok t → ∃ v, evalIf vl vc vr = .ok v ∧
          ∀ l' c' r', WF v → P (.ite k (some (Value.known v)) l' c' r') s) →
        Calm P (Ana.expr n af (.ite k cv l c r) level ctx) s := by
      intro vc hvc hb vl vr level ctx hvl hvr P hP
      rw [Ana.expr]
      refine Calm.bind (hc1 vc hvc level ctx) fun c' _ _ h => ?_
      obtain ⟨rfl, hcc, hwc⟩ := h
      refine Calm.bind (P := fun a s' => s = s' ∧ a = Value.known vc) (.deref hcc ⟨rfl, rfl⟩) fun _ _ _ h => ?_
      obtain ⟨rfl, rfl⟩ := h
      refine .ite (fun _ => .fail) fun _ => ?_
      have key' := fun chosen => key vc vl vr c' chosen level ctx hb hvl hvr P (fun _ _ => trivial) fun t ht => by
        obtain ⟨v, hv, h⟩ := hP t ht
        exact ⟨v, hv, fun l' r' hw => h l' c' r' hw⟩
      refine .ite (fun _ => ?_) fun _ => key' none
      refine Calm.bind (P := fun _ s' => s = s') (.assert rfl rfl) fun _ _ _ h => ?_
      subst h
      refine Calm.bind (P := fun _ s' => s = s') (.get (a := decide (vc.int ≠ 0)) ?_ rfl) fun b _ _ h => ?_
      · simp [Value.asBool, Value.known, hb]
      subst h
      exact key' (some b)
    constructor
    · intro v hv level ctx
      obtain ⟨vc, hvc, hv⟩ := Outcome.bind_eq_ok.1 hv
      split at hv
      · cases hv
      · next hb =>
        have hb : vc.type = .bool := by simpa using hb
        cases hl : constE K l with
        | ok vl =>
          cases hr : constE K r with
          | ok vr =>
            simp only [hl, hr] at hv
            obtain ⟨⟨t, ht⟩, hv⟩ := possible_ok hv
            exact pre vc hvc hb vl vr level ctx hl hr _ fun t _ => ⟨v, hv, fun _ _ _ hw => ⟨rfl, rfl, hw⟩⟩
          | _ => simp [hl, hr] at hv
        | _ => simp [hl] at hv
    · intro hv level
      rcases Outcome.bind_eq_err' hv with hc | ⟨vc, hvc, hv⟩
      · rw [Ana.expr]
        exact calm_bind_false (hc2 hc level)
      split at hv
      · next hb =>
        rw [Ana.expr]
        refine Calm.bind (hc1 vc hvc level .constant) fun c' _ _ h => ?_
        obtain ⟨rfl, hcc, hwc⟩ := h
        refine Calm.bind (P := fun a s' => s = s' ∧ a = Value.known vc) (.deref hcc ⟨rfl, rfl⟩) fun _ _ _ h => ?_
        obtain ⟨rfl, rfl⟩ := h
        exact .ite (fun _ => .fail) fun h => absurd hb h
      · next hb =>
        have hb : vc.type = .bool := by simpa using hb
        cases hl : constE K l with
        | ok vl =>
          cases hr : constE K r with
          | ok vr =>
            simp only [hl, hr] at hv
            obtain ⟨e, he⟩ := possible_err hv (considered_checkIf _ _ _)
            exact pre vc hvc hb vl vr level _ hl hr _ fun t ht => by rw [he] at ht; cases ht
          | _ => simp [hl, hr] at hv
        | _ => simp [hl] at hv
  | .binary k cv op l r, hr => by
    obtain ⟨-, hrl, hrr⟩ := hr
    obtain ⟨hl1, hl2⟩ := constE_calm hs l hrl
    obtain ⟨hr1, hr2⟩ := constE_calm hs r hrr
    rw [constE]
    have ctx_ : ∀ (vl : CVal) (l' : AExpr) (ctx : ECtx), l'.cv = some (Value.known vl) →
        (Gen.isShortCircuit op = true → vl.type = .bool) →
        Calm (fun c s' => s = s' ∧ (Gen.isShortCircuit op = false → c = ctx)) (Ana.rightContext k op l'.cv ctx) s := by
      intro vl l' ctx hl hb
      unfold Ana.rightContext
      refine .ite (fun h => ?_) fun _ => .pure ⟨rfl, fun _ => rfl⟩
      refine Calm.bind (P := fun a s' => s = s' ∧ a = Value.known vl) (.deref hl ⟨rfl, rfl⟩) fun _ _ _ h => ?_
      obtain ⟨rfl, rfl⟩ := h
      refine .ite (fun _ => .fail) fun _ => ?_
      refine Calm.bind (P := fun _ s' => s = s') (.get (a := decide (vl.int ≠ 0)) ?_ rfl) fun b _ _ h' => ?_
      · simp [Value.asBool, Value.known, hb h.2]
      subst h'
      exact .pure ⟨rfl, fun h' => by rw [h.2] at h'; cases h'⟩
    have pre : ∀ (vl vr : CVal), constE K l = .ok vl → constE K r = .ok vr →
        (Gen.isShortCircuit op = true → vl.type = .bool) → ∀ (level : Level) (ctx : ECtx) (P : AExpr → ASt → Prop),
        (∀ t, checkBinary vl.type op vr.type = .ok t →
          (∃ v, evalBinary vl op vr = .ok v ∧ ∀ l' r', WF v → P (.binary k (some (Value.known v)) op l' r') s) ∨
          (∃ e, evalBinary vl op vr = .err e) ∧ Gen.isShortCircuit op = false ∧ ctx = .constant) →
        Calm P (Ana.expr n af (.binary k cv op l r) level ctx) s := by
      intro vl vr hvl hvr hb level ctx P hP
      rw [Ana.expr]
      refine Calm.bind (hl1 vl hvl level ctx) fun l' _ _ h => ?_
      obtain ⟨rfl, hcl, hwl⟩ := h
      refine Calm.bind (P := fun _ s' => s = s') (.assert (by simp [hcl, Value.isKnown, Value.known]) rfl) fun _ _ _ h => ?_
      subst h
      refine Calm.bind (ctx_ vl l' ctx hcl hb) fun ctx' _ _ h => ?_
      obtain ⟨rfl, hctx⟩ := h
      refine Calm.bind (hr1 vr hvr level ctx') fun r' _ _ h => ?_
      obtain ⟨rfl, hcr, hwr⟩ := h
      refine Calm.bind (P := fun _ s' => s = s') (.assert (by simp [hcr, Value.isKnown, Value.known]) rfl) fun _ _ _ h => ?_
      subst h
      refine Calm.bind (P := fun a s' => s = s' ∧ a = Value.known vl) (.deref hcl ⟨rfl, rfl⟩) fun _ _ _ h => ?_
      obtain ⟨rfl, rfl⟩ := h
      refine Calm.bind (P := fun a s' => s = s' ∧ a = Value.known vr) (.deref hcr ⟨rfl, rfl⟩) fun _ _ _ h => ?_
      obtain ⟨rfl, rfl⟩ := h
      refine Calm.bind (P := fun t s' => s = s' ∧ checkBinary vl.type op vr.type = .ok t)
        (.checked (considered_checkBinary _ _ _) fun t ht => ⟨rfl, ht⟩) fun t _ _ h => ?_
      obtain ⟨rfl, ht⟩ := h
      rw [binary_known]
      rcases hP t ht with ⟨v, hv, hP⟩ | ⟨⟨e, he⟩, hsc, rfl⟩
      · rw [hv]
        exact .pure (P := P) (hP _ _ (C11_binary_wf hwl hwr hv))
      · rw [he, hctx hsc]
        exact calm_bind_false .fail
    constructor
    · intro v hv level ctx
      obtain ⟨vl, hvl, hv⟩ := Outcome.bind_eq_ok.1 hv
      split at hv
      · split at hv
        · cases hv
        · next hb =>
          cases hr : constE K r with
          | ok vr =>
            simp only [hr] at hv
            obtain ⟨-, hv⟩ := possible_ok hv
            exact pre vl vr hvl hr (fun _ => by simpa using hb) level ctx _ fun t _ =>
              .inl ⟨v, hv, fun _ _ hw => ⟨rfl, rfl, hw⟩⟩
          | _ => simp [hr] at hv
      · next hsc =>
        obtain ⟨vr, hvr, hv⟩ := Outcome.bind_eq_ok.1 hv
        obtain ⟨-, hv⟩ := computed_ok hv
        exact pre vl vr hvl hvr (fun h => absurd h hsc) level ctx _ fun t _ => .inl ⟨v, hv, fun _ _ hw => ⟨rfl, rfl, hw⟩⟩
    · intro hv level
      rcases Outcome.bind_eq_err' hv with hl | ⟨vl, hvl, hv⟩
      · rw [Ana.expr]
        exact calm_bind_false (hl2 hl level)
      have first : ∀ (P : AExpr → ASt → Prop), (Gen.isShortCircuit op = true → vl.type ≠ .bool) →
          (Gen.isShortCircuit op = false → constE K r = .err ()) →
          Calm P (Ana.expr n af (.binary k cv op l r) level .constant) s := by
        intro P hb hrr
        rw [Ana.expr]
        refine Calm.bind (hl1 vl hvl level .constant) fun l' _ _ h => ?_
        obtain ⟨rfl, hcl, hwl⟩ := h
        refine Calm.bind (P := fun _ s' => s = s') (.assert (by simp [hcl, Value.isKnown, Value.known]) rfl) fun _ _ _ h => ?_
        subst h
        cases hsc : Gen.isShortCircuit op with
        | true =>
          refine calm_bind_false ?_
          unfold Ana.rightContext
          refine .ite (fun h => ?_) fun h => absurd ⟨rfl, hsc⟩ h
          refine Calm.bind (P := fun a s' => s = s' ∧ a = Value.known vl) (.deref hcl ⟨rfl, rfl⟩) fun _ _ _ h => ?_
          obtain ⟨rfl, rfl⟩ := h
          exact .ite (fun _ => .fail) fun h => absurd (hb hsc) h
        | false =>
          refine Calm.bind (ctx_ vl l' .constant hcl fun h => by rw [hsc] at h; cases h) fun ctx' _ _ h => ?_
          obtain ⟨rfl, hctx⟩ := h
          rw [hctx hsc]
          exact calm_bind_false (hr2 (hrr hsc) level)
      split at hv
      · next hsc =>
        split at hv
        · next hb => exact first _ (fun _ => hb) fun h => by rw [hsc] at h; cases h
        · next hb =>
          cases hr : constE K r with
          | ok vr =>
            simp only [hr] at hv
            obtain ⟨e, he⟩ := possible_err hv (considered_checkBinary _ _ _)
            exact pre vl vr hvl hr (fun _ => by simpa using hb) level _ _ fun t ht => by rw [he] at ht; cases ht
          | _ => simp [hr] at hv
      · next hsc =>
        rcases Outcome.bind_eq_err' hv with hr | ⟨vr, hvr, hv⟩
        · exact first _ (fun h => absurd h hsc) fun _ => hr
        refine pre vl vr hvl hvr (fun h => absurd h hsc) level _ _ fun t ht => ?_
        rcases computed_err hv (considered_checkBinary _ _ _) with ⟨e, he⟩ | ⟨-, e, he⟩
        · rw [he] at ht
          cases ht
        · exact .inr ⟨⟨e, he⟩, by simpa using hsc, rfl⟩
  | .prefix k cv op e, hr => by
    obtain ⟨-, hre⟩ := hr
    obtain ⟨he1, he2⟩ := constE_calm hs e hre
    rw [constE]
    constructor
    · intro v hv level ctx
      obtain ⟨u, hu, hv⟩ := Outcome.bind_eq_ok.1 hv
      obtain ⟨-, hv⟩ := computed_ok hv
      rw [Ana.expr]
      refine Calm.bind (he1 u hu level ctx) fun e' _ _ h => ?_
      obtain ⟨rfl, hce, hwu⟩ := h
      refine Calm.bind (P := fun a s' => s = s' ∧ a = Value.known u) (.value hce ⟨rfl, rfl⟩) fun _ _ _ h => ?_
      obtain ⟨rfl, rfl⟩ := h
      refine Calm.bind (P := fun _ s' => s = s') (.checked (considered_checkUnary _ _) fun _ _ => rfl) fun t _ _ h => ?_
      subst h
      rw [unary_known, hv]
      exact .pure (P := fun (e' : AExpr) s' => s = s' ∧ e'.cv = some (Value.known v) ∧ WF v) ⟨rfl, rfl, C11_unary_wf hwu hv⟩
    · intro hv level
      rw [Ana.expr]
      rcases Outcome.bind_eq_err' hv with hu | ⟨u, hu, hv⟩
      · exact calm_bind_false (he2 hu level)
      refine Calm.bind (he1 u hu level .constant) fun e' _ _ h => ?_
      obtain ⟨rfl, hce, hwu⟩ := h
      refine Calm.bind (P := fun a s' => s = s' ∧ a = Value.known u) (.value hce ⟨rfl, rfl⟩) fun _ _ _ h => ?_
      obtain ⟨rfl, rfl⟩ := h
      rcases computed_err hv (considered_checkUnary _ _) with ⟨e, he⟩ | ⟨-, e, he⟩
      · exact calm_bind_false (.checked (considered_checkUnary _ _) fun t ht => by
          rw [show (Value.known u).type = u.type from rfl, he] at ht; cases ht)
      · refine Calm.bind (P := fun _ s' => s = s') (.checked (considered_checkUnary _ _) fun _ _ => rfl) fun t _ _ h => ?_
        subst h
        rw [unary_known, he]
        exact calm_bind_false .fail
  | .call .., _ => by
    rw [constE]
    exact ⟨fun v h => (by cases h), fun h => by cases h⟩

theorem constT_calm {s : ASt} (hs : NamesOk K s) : (ty : AType) → RawT ty →
    (∀ t, constT K ty = .ok t → Calm (fun ty' s' => s = s' ∧ SigC ty' t) (Ana.type n af ty) s) ∧
    (constT K ty = .err () → Calm (fun _ _ => False) (Ana.type n af ty) s)
  | .base k cv b, hr => by
    simp only [RawT] at hr
    subst hr
    rw [constT, Ana.type.eq_def]
    refine ⟨fun t h => ?_, fun h => by cases h⟩
    cases h
    exact .pure ⟨rfl, rfl, rfl, by cases b <;> simp [BaseType.type, CType.WF]⟩
  | .uint k cv c w, hr => by
    obtain ⟨rfl, rfl, hrw⟩ := hr
    obtain ⟨he1, he2⟩ := constE_calm hs w hrw
    rw [constT, Ana.type.eq_def]
    constructor
    · intro t ht
      obtain ⟨u, hu, ht⟩ := Outcome.bind_eq_ok.1 ht
      refine Calm.bind (he1 u hu _ _) fun e' _ _ h => ?_
      obtain ⟨rfl, hce, hwu⟩ := h
      refine Calm.bind (P := fun a s' => s = s' ∧ a = Value.known u) (.value hce ⟨rfl, rfl⟩) fun _ _ _ h => ?_
      obtain ⟨rfl, rfl⟩ := h
      refine .ite (fun _ => .fail) fun _ => ?_
      split at ht
      · cases ht
      split at ht
      · cases ht
      · next hint =>
        have hint : u.type = .int := by simpa using hint
        refine Calm.bind (P := fun a s' => s = s' ∧ a = u.int) (.get ?_ ⟨rfl, rfl⟩) fun _ _ _ h => ?_
        · simp [Value.asInt, Value.known, hint]
        obtain ⟨rfl, rfl⟩ := h
        refine .ite (fun _ => .fail) fun _ => ?_
        split at ht
        · cases ht
        · next h1 =>
          split at ht
          · cases ht
          · next h2 =>
            cases ht
            have hm : ∀ {ε : Type}, (CType.mkUint u.int : Outcome ε CType) = .ok (.uint u.int.toNat) := by
              intro ε
              simp only [CType.mkUint, Outcome.assert]
              rw [if_pos (by simp; omega), if_pos (by simp; omega), if_pos (by simp; omega)]
              rfl
            refine Calm.bind (P := fun a s' => s = s' ∧ a = .uint u.int.toNat) (.get hm ⟨rfl, rfl⟩) fun _ _ _ h => ?_
            obtain ⟨rfl, rfl⟩ := h
            refine .pure ⟨rfl, rfl, ?_, ?_⟩
            · show (CType.mkUint ((u.int.toNat : Nat) : Int)).map some = _
              rw [show ((u.int.toNat : Nat) : Int) = u.int by omega, hm]
              rfl
            · simp only [CType.WF]
              omega
    · intro ht
      rcases Outcome.bind_eq_err' ht with hu | ⟨u, hu, ht⟩
      · exact calm_bind_false (he2 hu _)
      refine Calm.bind (he1 u hu _ _) fun e' _ _ h => ?_
      obtain ⟨rfl, hce, hwu⟩ := h
      refine Calm.bind (P := fun a s' => s = s' ∧ a = Value.known u) (.value hce ⟨rfl, rfl⟩) fun _ _ _ h => ?_
      obtain ⟨rfl, rfl⟩ := h
      split at ht
      · next hi => exact .ite (fun _ => .fail) fun h => absurd hi h
      refine .ite (fun _ => .fail) fun _ => ?_
      split at ht
      · cases ht
      · next hint =>
        have hint : u.type = .int := by simpa using hint
        refine Calm.bind (P := fun a s' => s = s' ∧ a = u.int) (.get ?_ ⟨rfl, rfl⟩) fun _ _ _ h => ?_
        · simp [Value.asInt, Value.known, hint]
        obtain ⟨rfl, rfl⟩ := h
        split at ht
        · next h1 => exact .ite (fun _ => .fail) fun h => absurd h1 (by omega)
        · split at ht <;> cases ht

end

end

end Bms
