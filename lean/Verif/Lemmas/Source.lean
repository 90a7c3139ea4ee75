import Verif.Spec.Static
import Verif.Props.Typing

/-!
# Types and known values in the reference semantics
-/

namespace Bms

namespace Spec.Res

variable {α β : Type}

@[simp] theorem ok_bind (a : α) (f : α → Res β) : (Res.ok a >>= f) = f a := rfl
@[simp] theorem fails_bind (e : ExecErr) (f : α → Res β) : (Res.fails e >>= f) = .fails e := rfl
@[simp] theorem throws_bind (f : α → Res β) : (Res.throws >>= f) = .throws := rfl
@[simp] theorem ub_bind (f : α → Res β) : (Res.ub >>= f) = .ub := rfl
@[simp] theorem timeout_bind (f : α → Res β) : (Res.timeout >>= f) = .timeout := rfl
@[simp] theorem stuck_bind (f : α → Res β) : (Res.stuck >>= f) = .stuck := rfl

theorem bind_eq_ok {x : Res α} {f : α → Res β} {b : β} :
    (x >>= f) = .ok b ↔ ∃ a, x = .ok a ∧ f a = .ok b := by
  cases x <;> simp

theorem bind_eq_stuck {x : Res α} {f : α → Res β} :
    (x >>= f) = .stuck ↔ x = .stuck ∨ ∃ a, x = .ok a ∧ f a = .stuck := by
  cases x <;> simp

theorem ofOutcome_eq_ok {o : Outcome EvalErr CVal} {v : CVal} :
    Res.ofOutcome o = .ok v ↔ o = .ok v := by
  cases o <;> simp [Res.ofOutcome]

theorem ofOutcome_ne_stuck (o : Outcome EvalErr CVal) : Res.ofOutcome o ≠ .stuck := by
  cases o <;> simp [Res.ofOutcome]

end Spec.Res

open Spec

theorem asBool_ok {v : CVal} {b : Bool} (h : asBool v = .ok b) (hv : WF v) : v = CVal.ofBool b := by
  obtain ⟨t, x⟩ := v
  unfold asBool at h
  split at h
  · rename_i ht
    cases h
    simp only at ht
    subst ht
    rcases hv.2 with h | h <;> simp only at h <;> subst h <;> rfl
  · cases h

theorem asBool_ofBool (b : Bool) : asBool (CVal.ofBool b) = .ok b := by cases b <;> rfl

theorem ofBool_wf (b : Bool) : WF (CVal.ofBool b) := by
  cases b
  · exact ⟨trivial, Or.inl rfl⟩
  · exact ⟨trivial, Or.inr rfl⟩

/-- What surrounds an expression agrees with its context. -/
structure Agrees (Γ : Ctx) (M : Meaning) : Prop where
  consts : M.consts = Γ.consts
  params : ∀ k, M.params k = (Γ.fns k).map Prod.fst
  call : ∀ k ts t vs v, Γ.fns k = some (ts, t) →
    List.Forall₂ (fun (v : CVal) t => v.type = t ∧ WF v) vs ts → M.call k vs = .ok v →
    v.type = t ∧ WF v

/-- Variables have values of their type. -/
def FrameOk (Γ : Ctx) (σ : Frame) : Prop :=
  ∀ k v, σ k = some v → Γ.vars k = some v.type ∧ WF v

/-- `w` is the value that a node carries; the expression evaluates only to values of its type, and
to the known value if it is known. -/
structure Sound (M : Meaning) (σ : Frame) (e : Expr) (w : Value) : Prop where
  cv : e.cv = some w
  wf : w.type.WF
  ok : ∀ v, evalE M e σ = .ok v → v.type = w.type ∧ WF v
  known : ∀ x, w.val = some x → evalE M e σ = .ok ⟨w.type, x⟩

theorem Sound.describes {M : Meaning} {σ : Frame} {e : Expr} {w : Value} (h : Sound M σ e w)
    {v : CVal} (hv : evalE M e σ = .ok v) : Describes w v := by
  refine ⟨(h.ok v hv).1.symm, fun x hx => ?_⟩
  rw [h.known x hx] at hv
  cases hv
  rfl

theorem describes_unknown (v : CVal) : Describes (Value.unknownOf v.type) v :=
  ⟨rfl, fun _ h => by cases h⟩

theorem describes_self (v : CVal) : Describes (Value.known v) v := ⟨rfl, fun _ h => by cases h; rfl⟩

theorem describes_known_eq {t : CType} {x : Int} : Describes ⟨t, some x⟩ ⟨t, x⟩ :=
  ⟨rfl, fun y h => by cases h; rfl⟩

/-- Folding of a conversion. -/
theorem evalConversionV_known {v w : Value} {t : CType} {x : Int} (h : evalConversionV v t = .ok w)
    (hx : w.val = some x) : ∃ y, v.val = some y ∧ evalConversion ⟨v.type, y⟩ t = .ok ⟨w.type, x⟩ := by
  obtain ⟨ht, hn, hk⟩ := valueConvertTo_known h
  cases hv : v.val with
  | none => rw [hn hv] at hx; cases hx
  | some y =>
    obtain ⟨z, hz, hc⟩ := hk y hv
    rw [hz] at hx
    cases hx
    exact ⟨y, rfl, by rw [ht]; exact hc⟩

theorem mapErr_eq_ok {ε ε' α : Type} {o : Outcome ε α} {f : ε → ε'} {a : α} :
    o.mapErr f = .ok a ↔ o = .ok a := by cases o <;> simp [Outcome.mapErr]

theorem evalUnaryV_known {op : ExprType} {v w : Value} {x : Int} (h : evalUnaryV op v = .ok w)
    (hx : w.val = some x) : ∃ y, v.val = some y ∧ evalUnary op ⟨v.type, y⟩ = .ok ⟨w.type, x⟩ := by
  unfold evalUnaryV at h
  obtain ⟨t, -, h⟩ := Outcome.bind_eq_ok.1 h
  cases hv : v.val with
  | none => rw [hv] at h; cases h; rw [hv] at hx; cases hx
  | some y =>
    rw [hv] at h
    simp only at h
    cases hu : evalUnary op ⟨v.type, y⟩ with
    | ok u => rw [hu] at h; cases h; cases hx; exact ⟨y, rfl, hu⟩
    | _ => rw [hu] at h; cases h

theorem evalBinaryV_known {op : ExprType} {a b w : Value} {x : Int} (h : evalBinaryV a op b = .ok w)
    (hx : w.val = some x) : (∃ y, a.val = some y) ∧ ∃ z, b.val = some z := by
  unfold evalBinaryV at h
  obtain ⟨t, -, h⟩ := Outcome.bind_eq_ok.1 h
  obtain ⟨⟨l, r⟩, hc, h⟩ := Outcome.bind_eq_ok.1 h
  unfold convertToEqualV at hc
  obtain ⟨c, -, hc⟩ := Outcome.bind_eq_ok.1 hc
  obtain ⟨l', hl, hc⟩ := Outcome.bind_eq_ok.1 hc
  obtain ⟨r', hr, hc⟩ := Outcome.bind_eq_ok.1 hc
  cases hc
  obtain ⟨-, hln, -⟩ := valueConvertTo_known hl
  obtain ⟨-, hrn, -⟩ := valueConvertTo_known hr
  cases hlv : l.val with
  | none =>
    cases hrv : r.val with
    | none => simp only [hlv, hrv] at h; cases h; cases hx
    | some z =>
      simp only [hlv, hrv] at h
      obtain ⟨-, -, h⟩ := Outcome.bind_eq_ok.1 h
      cases h; cases hx
  | some y =>
    cases hrv : r.val with
    | none => simp only [hlv, hrv] at h; cases h; cases hx
    | some z =>
      constructor
      · cases ha : a.val with
        | none => rw [hln ha] at hlv; cases hlv
        | some y => exact ⟨y, rfl⟩
      · cases hb : b.val with
        | none => rw [hrn hb] at hrv; cases hrv
        | some y => exact ⟨y, rfl⟩

/-- `l && r` and `l || r` on values. -/
theorem logical_values {a b : Value} {op : ExprType} {t : CType}
    (h : checkBinary a.type op b.type = .ok t) (hop : op = .logical_and ∨ op = .logical_or) :
    a.type = .bool ∧ b.type = .bool := by
  obtain ⟨s, x⟩ := a
  obtain ⟨u, y⟩ := b
  simp only at h ⊢
  rcases hop with rfl | rfl
  all_goals
    cases s <;> cases u
    all_goals first
      | exact ⟨rfl, rfl⟩
      | cases h
      | (rename_i m n
         by_cases hmn : m = n
         · subst hmn; simp [checkBinary, getCommonType, checkBinaryCommon, ExprType.isBinary,
             ExprType.isBinaryLogical] at h; split at h <;> cases h
         · simp [checkBinary, getCommonType, ExprType.isBinary, hmn] at h; split at h <;> cases h)

theorem getCommonType_ok {l r t : CType} (h : getCommonType l r = .ok t) : t = l ∨ t = r := by
  unfold getCommonType at h
  split at h
  · cases h; exact .inl rfl
  · split at h <;> cases h
    · exact .inr rfl
    · exact .inl rfl

theorem checkIf_ok {l c r t : CType} (h : checkIf l c r = .ok t) :
    c = .bool ∧ getCommonType l r = .ok t := by
  unfold checkIf at h
  split at h
  · cases h
  · rename_i hc; exact ⟨by simpa using hc, h⟩

theorem checkBinary_wf {l r t : CType} {op : ExprType} (hl : l.WF) (hr : r.WF)
    (h : checkBinary l op r = .ok t) : t.WF := by
  unfold checkBinary at h
  split at h
  · cases h
  split at h
  · cases h
  obtain ⟨c, hc, h⟩ := Outcome.bind_eq_ok.1 h
  have hcw : c.WF := by rcases getCommonType_ok hc with rfl | rfl <;> assumption
  unfold checkBinaryCommon at h
  split at h
  · cases h
  · split at h
    · cases h
    split at h
    · cases h
    split at h
    · cases h
    cases h
    trivial
  · split at h
    · cases h
    split at h
    · cases h
    cases h
    split
    · trivial
    · exact hcw
  · split at h
    · cases h
    cases h
    split
    · trivial
    · exact hcw

theorem checkUnary_eq {t u : CType} {op : ExprType} (h : checkUnary op t = .ok u) : u = t := by
  unfold checkUnary at h
  split at h
  · cases h
  split at h
  · cases h
  all_goals
    repeat' split at h
    all_goals first
      | cases h; rfl
      | cases h

theorem evalIfV_type {l c r w : Value} {t : CType} (h : evalIfV l c r = .ok w)
    (ht : checkIf l.type c.type r.type = .ok t) : w.type = t := by
  unfold evalIfV at h
  rw [ht] at h
  simp only [Outcome.mapErr_ok, Outcome.ok_bind] at h
  split at h
  · cases h; rfl
  · obtain ⟨b, -, h⟩ := Outcome.bind_eq_ok.1 h
    exact (valueConvertTo_known h).1

theorem evalIfV_known {l c r w : Value} {t : CType} {x : Int} (h : evalIfV l c r = .ok w)
    (ht : checkIf l.type c.type r.type = .ok t) (hx : w.val = some x) :
    ∃ (z y : Int), c.val = some z ∧
      (if decide (z ≠ 0) = true then l else r).val = some y ∧
      evalConversion ⟨(if decide (z ≠ 0) = true then l else r).type, y⟩ t = .ok ⟨w.type, x⟩ := by
  have hw := evalIfV_type h ht
  unfold evalIfV at h
  rw [ht] at h
  simp only [Outcome.mapErr_ok, Outcome.ok_bind] at h
  split at h
  · cases h; cases hx
  · rename_i hk
    obtain ⟨b, hb, h⟩ := Outcome.bind_eq_ok.1 h
    cases hz : c.val with
    | none => simp [Value.isKnown, hz] at hk
    | some z =>
      have hbz : b = decide (z ≠ 0) := by
        unfold Value.asBool at hb
        rw [hz] at hb
        simp only [(checkIf_ok ht).1] at hb
        simp at hb
        simp [hb]
      subst hbz
      obtain ⟨-, hn, hk⟩ := valueConvertTo_known h
      refine ⟨z, ?_⟩
      cases hy : (if decide (z ≠ 0) = true then l else r).val with
      | none => rw [hn hy] at hx; cases hx
      | some y =>
        obtain ⟨y', hy', hc⟩ := hk y hy
        rw [hy'] at hx
        cases hx
        exact ⟨y, rfl, rfl, by rw [hw]; exact hc⟩

theorem litValue_wf {l : Lit} {v : CVal} (h : litValue l = some v) : WF v := by
  cases l with
  | true_ => cases h; exact ofBool_wf true
  | false_ => cases h; exact ofBool_wf false
  | integer text =>
    simp only [litValue, Option.map_eq_some_iff] at h
    obtain ⟨x, hx, rfl⟩ := h
    refine ⟨trivial, ?_⟩
    unfold parseIntegerLiteral at hx
    split at hx
    · cases hx
    · split at hx
      · rw [Option.map_eq_some_iff] at hx
        obtain ⟨p, -, rfl⟩ := hx
        exact toI128_inI128 _
      · rw [Option.map_eq_some_iff] at hx
        obtain ⟨p, -, rfl⟩ := hx
        exact toI128_inI128 _

theorem readVar_ok {Γ : Ctx} {σ : Frame} (hσ : FrameOk Γ σ) {k : Key} {t : CType}
    (ht : Γ.vars k = some t) {v : CVal} (h : readVar σ k = .ok v) : v.type = t ∧ WF v := by
  unfold readVar at h
  split at h
  · rename_i u hu
    cases h
    have := hσ k v hu
    rw [ht] at this
    cases this.1
    exact ⟨rfl, this.2⟩
  · cases h

theorem Spec.Folds.type {o : Outcome EvalErr Value} {t : CType} {w : Value} (h : Folds o t w)
    (ho : ∀ w, o = .ok w → w.type = t) : w.type = t := by
  rcases h with h | ⟨-, rfl⟩
  · exact ho w h
  · rfl

theorem Spec.Folds.known {o : Outcome EvalErr Value} {t : CType} {w : Value} (h : Folds o t w) {x : Int}
    (hx : w.val = some x) : o = .ok w := by
  rcases h with h | ⟨-, rfl⟩
  · exact h
  · cases hx

theorem Spec.Folds.soundFolding {o : Outcome EvalErr Value} {C : Outcome EvalErr CVal} {t : CType}
    {w : Value} {v : CVal} (h : Folds o t w) (hs : SoundFolding o C) (hv : C = .ok v) :
    v.type = w.type := by
  rcases h with h | ⟨⟨e, h⟩, -⟩
  · exact ((hs.1 w h).1 v hv).1.symm
  · rw [hs.2 e h] at hv; cases hv

/-- `left && right` and `left || right`, if both operands have boolean values. -/
theorem evalE_logical {M : Meaning} {σ : Frame} {cv : Option Value} {op : ExprType} {l r : Expr}
    (hop : op = .logical_and ∨ op = .logical_or) {a b : Bool}
    (hl : evalE M l σ = .ok (CVal.ofBool a)) (hr : evalE M r σ = .ok (CVal.ofBool b)) :
    evalE M (.binary cv op l r) σ = .ofOutcome (evalBinary (CVal.ofBool a) op (CVal.ofBool b)) := by
  unfold evalE
  rcases hop with rfl | rfl
  · simp only [if_true, hl, hr, Res.ok_bind, asBool_ofBool]
    cases a <;> cases b <;> rfl
  · rw [if_neg (by decide), if_pos rfl]
    simp only [hl, hr, Res.ok_bind, asBool_ofBool]
    cases a <;> cases b <;> rfl

theorem evalE_binary {M : Meaning} {σ : Frame} {cv : Option Value} {op : ExprType} {l r : Expr}
    (hop : ¬ (op = .logical_and ∨ op = .logical_or)) :
    evalE M (.binary cv op l r) σ =
      evalE M l σ >>= fun x => evalE M r σ >>= fun y => .ofOutcome (evalBinary x op y) := by
  rw [evalE, if_neg (fun h => hop (.inl h)), if_neg (fun h => hop (.inr h))]

theorem bool_known {w : Value} {x : Int} (ht : w.type = .bool) (hw : WF ⟨w.type, x⟩) :
    ∃ b, (⟨w.type, x⟩ : CVal) = CVal.ofBool b := by
  refine ⟨decide (x ≠ 0), asBool_ok ?_ hw⟩
  unfold asBool
  rw [if_pos ht]

theorem evalArgs_ok {M : Meaning} {σ : Frame} {args : List Expr}
    (ih : ∀ a ∈ args, ∃ w, Sound M σ a w) : ∀ {ts : List CType} {vs : List CVal},
    (∀ t ∈ ts, t.WF) → evalArgs M ts args σ = .ok vs →
    List.Forall₂ (fun (v : CVal) t => v.type = t ∧ WF v) vs ts := by
  induction args with
  | nil =>
    intro ts vs hts h
    cases ts with
    | nil => cases h; exact .nil
    | cons t ts => cases h
  | cons a args iha =>
    intro ts vs hts h
    cases ts with
    | nil => cases h
    | cons t ts =>
      simp only [evalArgs] at h
      obtain ⟨v, hv, h⟩ := Res.bind_eq_ok.1 h
      obtain ⟨u, hu, h⟩ := Res.bind_eq_ok.1 h
      obtain ⟨us, hus, h⟩ := Res.bind_eq_ok.1 h
      cases h
      obtain ⟨w, hw⟩ := ih a List.mem_cons_self
      have := C08_conversion_keeps_value (hw.ok v hv).2 (hts t List.mem_cons_self)
        (Res.ofOutcome_eq_ok.1 hu)
      exact .cons ⟨this.1, this.2.2⟩ (iha (fun a ha => ih a (List.mem_cons_of_mem _ ha))
        (fun t ht => hts t (List.mem_cons_of_mem _ ht)) hus)

/-- The arguments of `assert`. -/
theorem evalBuiltinV_assert {vs : List Value} {w : Value} (h : evalBuiltinV .assert vs = .ok w) :
    ∃ v, vs = [v] ∧ v.type = .bool ∧ w.type = .void ∧
      ∀ x, w.val = some x → v.val = some 1 ∧ x = 0 := by
  unfold evalBuiltinV at h
  obtain ⟨t, ht, h⟩ := Outcome.bind_eq_ok.1 h
  rw [mapErr_eq_ok] at ht
  unfold checkBuiltin at ht
  split at ht
  · cases ht
  rename_i hlen
  simp only at ht
  split at ht
  · cases ht
  rename_i hb
  cases ht
  simp only [Builtin.paramTypes, List.length_cons, List.length_nil, List.length_map, ne_eq,
    not_not] at hlen
  match vs, hlen with
  | [v], _ =>
    have hvt : v.type = .bool := by simpa using hb
    refine ⟨v, rfl, hvt, ?_⟩
    split at h
    · cases h; exact ⟨rfl, fun x hx => by cases hx⟩
    · rename_i hk
      obtain ⟨cs, hcs, h⟩ := Outcome.bind_eq_ok.1 h
      cases hx : v.val with
      | none => simp [Value.isKnown, hx] at hk
      | some x =>
        have hcs' : cs = [⟨v.type, x⟩] := by
          simp only [concreteAll, Value.concrete, hx, Outcome.ok_bind] at hcs
          cases hcs; rfl
        subst hcs'
        have : unsafeEvalBuiltin .assert [⟨v.type, x⟩] =
            if x ≠ 1 then .err .assertion_fail else .ok CVal.void := by
          rw [hvt]; rfl
        rw [this] at h
        split at h
        · cases h
        · rename_i h1
          cases h
          simp only [ne_eq, not_not] at h1
          exact ⟨rfl, fun y hy => by cases hy; exact ⟨by rw [h1], rfl⟩⟩

section Parts

variable {M : Meaning} {σ : Frame}

/-- Conversions of sound expressions are sound. -/
theorem Sound.conversion {e : Expr} {v w : Value} {t : CType} (hs : Sound M σ e v) (ht : t.WF)
    (hf : Folds (evalConversionV v t) t w) : Sound M σ (.conversion (some w) e (some t)) w := by
  have hwt : w.type = t := hf.type fun w hw => (valueConvertTo_known hw).1
  refine ⟨rfl, hwt ▸ ht, fun u hu => ?_, fun x hx => ?_⟩
  · simp only [evalE] at hu
    obtain ⟨a, ha, hu⟩ := Res.bind_eq_ok.1 hu
    have := C08_conversion_keeps_value (hs.ok a ha).2 ht (Res.ofOutcome_eq_ok.1 hu)
    exact ⟨by rw [hwt]; exact this.1, this.2.2⟩
  · obtain ⟨y, hy, hc⟩ := evalConversionV_known (hf.known hx) hx
    simp only [evalE, hs.known y hy, Res.ok_bind, hc, Res.ofOutcome]

/-- Conditional expressions with sound parts are sound. -/
theorem Sound.ite {l c r : Expr} {vl vc vr w : Value} {t : CType} (hsl : Sound M σ l vl)
    (hsc : Sound M σ c vc) (hsr : Sound M σ r vr) (hck : checkIf vl.type vc.type vr.type = .ok t)
    (hf : Folds (evalIfV vl vc vr) t w) : Sound M σ (.ite (some w) l c r) w := by
  have hwt : w.type = t := hf.type fun w hw => evalIfV_type hw hck
  have htw : t.WF := by
    rcases getCommonType_ok (checkIf_ok hck).2 with rfl | rfl
    · exact hsl.wf
    · exact hsr.wf
  refine ⟨rfl, hwt ▸ htw, fun u hu => ?_, fun x hx => ?_⟩
  · simp only [evalE] at hu
    obtain ⟨b, -, hu⟩ := Res.bind_eq_ok.1 hu
    obtain ⟨a, ha, hu⟩ := Res.bind_eq_ok.1 hu
    have haw : WF a := by
      cases b
      · exact (hsr.ok a ha).2
      · exact (hsl.ok a ha).2
    have := C08_conversion_keeps_value haw (hwt ▸ htw) (Res.ofOutcome_eq_ok.1 hu)
    exact ⟨this.1, this.2.2⟩
  · obtain ⟨z, y, hz, hy, hc⟩ := evalIfV_known (hf.known hx) hck hx
    have hcb : asBool ⟨vc.type, z⟩ = .ok (decide (z ≠ 0)) := by
      unfold asBool
      rw [if_pos (checkIf_ok hck).1]
    simp only [evalE, hsc.known z hz, Res.ok_bind, hcb, hwt]
    by_cases hd : decide (z ≠ 0) = true
    · rw [if_pos hd] at hy hc ⊢
      rw [hsl.known y hy, Res.ok_bind, hc, hwt]; rfl
    · rw [if_neg hd] at hy hc ⊢
      rw [hsr.known y hy, Res.ok_bind, hc, hwt]; rfl

/-- Binary expressions with sound operands are sound. -/
theorem Sound.binary {l r : Expr} {vl vr w : Value} {op : ExprType} {t : CType} (hsl : Sound M σ l vl)
    (hsr : Sound M σ r vr) (hck : checkBinary vl.type op vr.type = .ok t)
    (hf : Folds (evalBinaryV vl op vr) t w) : Sound M σ (.binary (some w) op l r) w := by
  have htw := checkBinary_wf hsl.wf hsr.wf hck
  have hknown : ∀ x, w.val = some x → evalE M (.binary (some w) op l r) σ = .ok ⟨w.type, x⟩ := by
    intro x hx
    have hV := hf.known hx
    obtain ⟨⟨y, hy⟩, z, hz⟩ := evalBinaryV_known hV hx
    have hly := hsl.known y hy
    have hrz := hsr.known z hz
    have hwl := (hsl.ok _ hly).2
    have hwr := (hsr.ok _ hrz).2
    have hC := ((C12_binary (hsl.describes hly) (hsr.describes hrz) hwl hwr op).1 w hV).2 x hx
    by_cases hop : op = .logical_and ∨ op = .logical_or
    · obtain ⟨h1, h2⟩ := logical_values hck hop
      obtain ⟨a, ha⟩ := bool_known h1 hwl
      obtain ⟨b, hb⟩ := bool_known h2 hwr
      rw [ha] at hly hC
      rw [hb] at hrz hC
      rw [evalE_logical hop hly hrz, hC]; rfl
    · rw [evalE_binary hop, hly, Res.ok_bind, hrz, Res.ok_bind, hC]; rfl
  have hC : ∀ x, w.val = some x → ∃ y z, evalE M l σ = .ok ⟨vl.type, y⟩ ∧
      evalE M r σ = .ok ⟨vr.type, z⟩ ∧
      evalBinary ⟨vl.type, y⟩ op ⟨vr.type, z⟩ = .ok ⟨w.type, x⟩ := by
    intro x hx
    have hV := hf.known hx
    obtain ⟨⟨y, hy⟩, z, hz⟩ := evalBinaryV_known hV hx
    have hly := hsl.known y hy
    have hrz := hsr.known z hz
    exact ⟨y, z, hly, hrz, ((C12_binary (hsl.describes hly) (hsr.describes hrz)
      (hsl.ok _ hly).2 (hsr.ok _ hrz).2 op).1 w hV).2 x hx⟩
  have hunk : w.val = none → w.type = t := by
    intro hx
    rcases hf with h | ⟨-, rfl⟩
    · unfold evalBinaryV at h
      rw [hck] at h
      simp only [Outcome.mapErr_ok, Outcome.ok_bind] at h
      obtain ⟨⟨a, b⟩, -, h⟩ := Outcome.bind_eq_ok.1 h
      simp only at h
      split at h
      · rename_i x y _ _
        cases hu : evalBinary ⟨a.type, x⟩ op ⟨b.type, y⟩ with
        | ok u => rw [hu] at h; cases h; cases hx
        | _ => rw [hu] at h; cases h
      · obtain ⟨-, -, h⟩ := Outcome.bind_eq_ok.1 h
        cases h; rfl
      · cases h; rfl
    · rfl
  have hwtw : w.type.WF := by
    cases hx : w.val with
    | none => rw [hunk hx]; exact htw
    | some x =>
      obtain ⟨y, z, hly, hrz, h⟩ := hC x hx
      exact (C11_binary_wf (hsl.ok _ hly).2 (hsr.ok _ hrz).2 h).1
  refine ⟨rfl, hwtw, fun u hu => ?_, hknown⟩
  by_cases hop : op = .logical_and ∨ op = .logical_or
  · obtain ⟨h1, h2⟩ := logical_values hck hop
    have hub : ∃ b, u = CVal.ofBool b := by
      unfold evalE at hu
      rcases hop with rfl | rfl
      · rw [if_pos rfl] at hu
        obtain ⟨a, -, hu⟩ := Res.bind_eq_ok.1 hu
        cases a
        · cases hu; exact ⟨false, rfl⟩
        · obtain ⟨b, -, hu⟩ := Res.bind_eq_ok.1 hu
          cases hu; exact ⟨b, rfl⟩
      · rw [if_neg (by decide), if_pos rfl] at hu
        obtain ⟨a, -, hu⟩ := Res.bind_eq_ok.1 hu
        cases a
        · obtain ⟨b, -, hu⟩ := Res.bind_eq_ok.1 hu
          cases hu; exact ⟨b, rfl⟩
        · cases hu; exact ⟨true, rfl⟩
    obtain ⟨b, rfl⟩ := hub
    refine ⟨?_, ofBool_wf b⟩
    have hwb : w.type = .bool := by
      have htb : t = .bool := by
        rw [h1, h2] at hck
        rcases hop with rfl | rfl <;> cases hck <;> rfl
      cases hx : w.val with
      | none => rw [hunk hx]; exact htb
      | some x =>
        obtain ⟨y, z, hly, hrz, h⟩ := hC x hx
        obtain ⟨a, ha⟩ := bool_known h1 (hsl.ok _ hly).2
        obtain ⟨b, hb⟩ := bool_known h2 (hsr.ok _ hrz).2
        rw [ha, hb] at h
        have : ∃ c, evalBinary (CVal.ofBool a) op (CVal.ofBool b) = .ok (CVal.ofBool c) := by
          rcases hop with rfl | rfl <;> cases a <;> cases b <;> exact ⟨_, rfl⟩
        obtain ⟨c, hc⟩ := this
        rw [hc] at h
        have := congrArg (fun o : Outcome EvalErr CVal => match o with
          | .ok v => v.type | _ => .void) h
        simp only at this
        rw [← this]; cases c <;> rfl
    rw [hwb]; cases b <;> rfl
  · rw [evalE_binary hop] at hu
    obtain ⟨x, hx, hu⟩ := Res.bind_eq_ok.1 hu
    obtain ⟨y, hy, hu⟩ := Res.bind_eq_ok.1 hu
    have hu := Res.ofOutcome_eq_ok.1 hu
    have hwl := (hsl.ok _ hx).2
    have hwr := (hsr.ok _ hy).2
    exact ⟨hf.soundFolding (C12_binary (hsl.describes hx) (hsr.describes hy) hwl hwr op) hu,
      C11_binary_wf hwl hwr hu⟩

/-- Prefix expressions with sound operand are sound. -/
theorem Sound.pre {e : Expr} {v w : Value} {op : ExprType} {t : CType} (hs : Sound M σ e v)
    (hck : checkUnary op v.type = .ok t) (hf : Folds (evalUnaryV op v) t w) :
    Sound M σ (.prefix (some w) op e) w := by
  refine ⟨rfl, ?_, fun u hu => ?_, fun x hx => ?_⟩
  · rcases hf with h | ⟨-, rfl⟩
    · unfold evalUnaryV at h
      obtain ⟨-, -, h⟩ := Outcome.bind_eq_ok.1 h
      cases hv : v.val with
      | none => rw [hv] at h; cases h; exact hs.wf
      | some y =>
        rw [hv] at h
        cases hu : evalUnary op ⟨v.type, y⟩ with
        | ok u =>
          simp only [hu, Outcome.map_ok] at h
          cases h
          exact (C11_unary_wf (hs.ok _ (hs.known y hv)).2 hu).1
        | _ => simp [hu] at h
    · exact checkUnary_eq hck ▸ hs.wf
  · simp only [evalE] at hu
    obtain ⟨a, ha, hu⟩ := Res.bind_eq_ok.1 hu
    have hu := Res.ofOutcome_eq_ok.1 hu
    exact ⟨hf.soundFolding (C12_unary (hs.describes ha) (hs.ok a ha).2 op) hu,
      C11_unary_wf (hs.ok a ha).2 hu⟩
  · obtain ⟨y, hy, hc⟩ := evalUnaryV_known (hf.known hx) hx
    simp only [evalE, hs.known y hy, Res.ok_bind, hc, Res.ofOutcome]

/-- Calls of builtin functions with sound arguments are sound. -/
theorem Sound.builtin {f : Builtin} {args : List Expr} {vs : List Value} {w : Value}
    (ih : ∀ a ∈ args, ∃ w, Sound M σ a w) (hcv : args.map Expr.cv = vs.map some)
    (hev : evalBuiltinV f vs = .ok w) (st : Bool) :
    Sound M σ (.call (some w) st (some (.builtin f)) args) w := by
  cases f
  obtain ⟨v, rfl, hvt, hwt, hkn⟩ := evalBuiltinV_assert hev
  have : ∃ a, args = [a] ∧ a.cv = some v := by
    match args, hcv with
    | [a], h => simp at h; exact ⟨a, rfl, h⟩
    | _ :: _ :: _, h => simp at h
  obtain ⟨a, rfl, hav⟩ := this
  obtain ⟨v', hs⟩ := ih a List.mem_cons_self
  obtain rfl : v' = v := by have := hs.cv; rw [hav] at this; cases this; rfl
  refine ⟨rfl, hwt ▸ trivial, fun u hu => ?_, fun x hx => ?_⟩
  · simp only [evalE] at hu
    obtain ⟨us, hus, hu⟩ := Res.bind_eq_ok.1 hu
    have hf := evalArgs_ok (ts := Builtin.assert.paramTypes) ih
      (by intro t ht; simp [Builtin.paramTypes] at ht; subst ht; trivial) hus
    have hu := Res.ofOutcome_eq_ok.1 hu
    clear hus
    match us, hf with
    | [c], .cons h1 .nil =>
      have : evalBuiltin .assert [c] =
          if c.int ≠ 1 then .err .assertion_fail else .ok CVal.void := by
        obtain ⟨ct, ci⟩ := c
        obtain ⟨h1, -⟩ := h1
        simp only at h1
        subst h1
        rfl
      rw [this] at hu
      split at hu
      · cases hu
      · cases hu; exact ⟨hwt.symm, trivial, rfl⟩
  · obtain ⟨h1, rfl⟩ := hkn x hx
    have hk := hs.known 1 h1
    rw [hvt] at hk
    simp only [evalE, Builtin.paramTypes, evalArgs, hk, Res.ok_bind, hwt]
    rfl

end Parts

/-- Well-typed expressions evaluate to values of their type, and to the value their node carries if
it is known. -/
theorem typed_sound {Γ : Ctx} {M : Meaning} (hΓ : Γ.WF) (hA : Agrees Γ M) {σ : Frame}
    (hσ : FrameOk Γ σ) {e : Expr} (h : Typed Γ e) : ∃ w, Sound M σ e w := by
  induction h with
  | literal h =>
    rename_i l v
    have he : evalE M (.literal l (some (Value.known v))) σ = .ok v := by simp only [evalE, h]
    have hw := litValue_wf h
    refine ⟨Value.known v, rfl, hw.1, fun u hu => ?_, fun x hx => ?_⟩
    · rw [he] at hu; cases hu; exact ⟨rfl, hw⟩
    · rw [he]; cases hx; rfl
  | var hc hv =>
    refine ⟨_, rfl, (hΓ.vars _ _ hv).1, fun u hu => ?_, fun x hx => by cases hx⟩
    simp only [evalE, hA.consts, hc] at hu
    exact readVar_ok hσ hv hu
  | param hv =>
    refine ⟨_, rfl, (hΓ.vars _ _ hv).1, fun u hu => ?_, fun x hx => by cases hx⟩
    simp only [evalE] at hu
    exact readVar_ok hσ hv hu
  | const_ hc =>
    rename_i k v
    have he : evalE M (.id (some (Value.known v)) (some (.node k))) σ = .ok v := by
      simp only [evalE, hA.consts, hc]
    have hw := hΓ.consts _ _ hc
    refine ⟨_, rfl, hw.1, fun u hu => ?_, fun x hx => ?_⟩
    · rw [he] at hu; cases hu; exact ⟨rfl, hw⟩
    · rw [he]; cases hx; rfl
  | width hw =>
    rename_i v
    have he : evalE M (.id (some (Value.known v)) none) σ = .ok v := by
      simp only [evalE, Value.known]
    refine ⟨_, rfl, hw.1, fun u hu => ?_, fun x hx => ?_⟩
    · rw [he] at hu; cases hu; exact ⟨rfl, hw⟩
    · rw [he]; cases hx; rfl
  | conversion he hcv ht hconv hf ih =>
    rename_i e v t w
    obtain ⟨v', hs⟩ := ih
    obtain rfl : v' = v := by have := hs.cv; rw [hcv] at this; cases this; rfl
    exact ⟨w, hs.conversion ht hf⟩
  | ite hl hc hr hcl hcc hcr hck hf ihl ihc ihr =>
    rename_i l c r vl vc vr t w
    obtain ⟨v', hsl⟩ := ihl
    obtain rfl : v' = vl := by have := hsl.cv; rw [hcl] at this; cases this; rfl
    obtain ⟨v'', hsc⟩ := ihc
    obtain rfl : v'' = vc := by have := hsc.cv; rw [hcc] at this; cases this; rfl
    obtain ⟨v''', hsr⟩ := ihr
    obtain rfl : v''' = vr := by have := hsr.cv; rw [hcr] at this; cases this; rfl
    exact ⟨w, hsl.ite hsc hsr hck hf⟩
  | binary hl hr hcl hcr hck hf ihl ihr =>
    rename_i op l r vl vr t w
    obtain ⟨v', hsl⟩ := ihl
    obtain rfl : v' = vl := by have := hsl.cv; rw [hcl] at this; cases this; rfl
    obtain ⟨v'', hsr⟩ := ihr
    obtain rfl : v'' = vr := by have := hsr.cv; rw [hcr] at this; cases this; rfl
    exact ⟨w, hsl.binary hsr hck hf⟩
  | pre he hcv hck hf ih =>
    rename_i op e v t w
    obtain ⟨v', hs⟩ := ih
    obtain rfl : v' = v := by have := hs.cv; rw [hcv] at this; cases this; rfl
    exact ⟨w, hs.pre hck hf⟩
  | call hk ht hargs ih =>
    rename_i k ts t args
    refine ⟨_, rfl, (hΓ.fns _ _ _ hk).1, fun u hu => ?_, fun x hx => by cases hx⟩
    simp only [evalE, hA.params, hk, Option.map_some] at hu
    obtain ⟨vs, hvs, hu⟩ := Res.bind_eq_ok.1 hu
    exact hA.call k ts t vs u hk (evalArgs_ok ih (hΓ.fns _ _ _ hk).2 hvs) hu
  | builtin ht hcv hev ih =>
    rename_i f args vs w
    exact ⟨w, .builtin ih hcv hev false⟩

/-! ## Statements and calls -/

/-- What a statement ends with is well-typed. -/
def FlowOk (Γ : Ctx) (ret : CType) (loop : Bool) : Flow → Prop
  | .normal σ => FrameOk Γ σ
  | .break_ σ | .continue_ σ => loop = true ∧ FrameOk Γ σ
  | .return_ v => v.type = ret ∧ WF v

theorem FrameOk.set {Γ : Ctx} {σ : Frame} (h : FrameOk Γ σ) {k : Key} {v : CVal}
    (ht : Γ.vars k = some v.type) (hv : WF v) : FrameOk Γ (σ.set k v) := by
  intro j u hu
  unfold Frame.set at hu
  split at hu
  · cases hu; rename_i h; subst h; exact ⟨ht, hv⟩
  · exact h j u hu

theorem FrameOk.unset {Γ : Ctx} {σ : Frame} (h : FrameOk Γ σ) (k : Key) :
    FrameOk Γ (σ.unset k) := by
  intro j u hu
  unfold Frame.unset at hu
  split at hu
  · cases hu
  · exact h j u hu

theorem FlowOk.weaken {Γ : Ctx} {ret : CType} {l : Bool} {f : Flow} (h : FlowOk Γ ret l f)
    (hn : ∀ σ, f ≠ .break_ σ ∧ f ≠ .continue_ σ) (l' : Bool) : FlowOk Γ ret l' f := by
  cases f with
  | normal σ => exact h
  | break_ σ => exact absurd rfl (hn σ).1
  | continue_ σ => exact absurd rfl (hn σ).2
  | return_ v => exact h

theorem whileLoop_ok {Γ : Ctx} {ret : CType} {cond : Frame → Res Bool} {body : Frame → Res Flow}
    (hb : ∀ σ f, FrameOk Γ σ → body σ = .ok f → FlowOk Γ ret true f) (l : Bool) :
    ∀ n σ f, FrameOk Γ σ → whileLoop cond body n σ = .ok f → FlowOk Γ ret l f := by
  intro n
  induction n with
  | zero => intro σ f _ h; cases h
  | succ n ih =>
    intro σ f hσ h
    simp only [whileLoop] at h
    obtain ⟨b, -, h⟩ := Res.bind_eq_ok.1 h
    cases b
    · cases h; exact hσ
    · simp only [if_true] at h
      obtain ⟨g, hg, h⟩ := Res.bind_eq_ok.1 h
      have hgo := hb σ g hσ hg
      cases g with
      | normal σ' => exact ih σ' f hgo h
      | continue_ σ' => exact ih σ' f hgo.2 h
      | break_ σ' => cases h; exact hgo.2
      | return_ v => cases h; exact hgo

theorem execS_ok {Γ : Ctx} {M : Meaning} (hΓ : Γ.WF) (hA : Agrees Γ M) {ret : CType}
    (hret : ret.WF) (fuel : Nat) (s : Stmt) : ∀ {loop : Bool} {σ : Frame} {f : Flow},
    TypedS Γ ret loop s → FrameOk Γ σ → execS M ret fuel s σ = .ok f → FlowOk Γ ret loop f := by
  induction s using Stmt.ind with
  | const_ k d cv e => intro loop σ f _ hσ h; cases h; exact hσ
  | let_ k d cv init =>
    intro loop σ f ht hσ h
    cases ht with
    | letNone hc hv => cases h; exact hσ.unset k
    | letInit hc hv he hcv hconv =>
      simp only [execS] at h
      obtain ⟨v, hv', h⟩ := Res.bind_eq_ok.1 h
      obtain ⟨u, hu, h⟩ := Res.bind_eq_ok.1 h
      cases h
      obtain ⟨w, hs⟩ := typed_sound hΓ hA hσ he
      have := C08_conversion_keeps_value (hs.ok v hv').2 (hΓ.vars _ _ hv).1
        (Res.ofOutcome_eq_ok.1 hu)
      refine hσ.set ?_ this.2.2
      rw [this.1]; exact hv
  | staticAssert cv e => intro loop σ f _ hσ h; cases h; exact hσ
  | ifThen c t ih =>
    intro loop σ f ht hσ h
    cases ht with
    | ifThen hc _ _ htt =>
      simp only [execS] at h
      obtain ⟨b, -, h⟩ := Res.bind_eq_ok.1 h
      cases b
      · cases h; exact hσ
      · exact ih htt hσ h
  | ifElse c t e iht ihe =>
    intro loop σ f ht hσ h
    cases ht with
    | ifElse hc _ _ htt hte =>
      simp only [execS] at h
      obtain ⟨b, -, h⟩ := Res.bind_eq_ok.1 h
      cases b
      · exact ihe hte hσ h
      · exact iht htt hσ h
  | while_ c b ih =>
    intro loop σ f ht hσ h
    cases ht with
    | while_ hc _ _ htb => exact whileLoop_ok (fun σ f hσ h => ih htb hσ h) loop fuel σ f hσ h
  | control c cv e =>
    intro loop σ f ht hσ h
    cases ht with
    | break_ => cases h; exact ⟨rfl, hσ⟩
    | continue_ => cases h; exact ⟨rfl, hσ⟩
    | returnVoid hr => cases h; exact ⟨hr.symm, trivial, rfl⟩
    | return_ he hcv hconv hf =>
      simp only [execS] at h
      obtain ⟨v, hv', h⟩ := Res.bind_eq_ok.1 h
      obtain ⟨u, hu, h⟩ := Res.bind_eq_ok.1 h
      cases h
      obtain ⟨w, hs⟩ := typed_sound hΓ hA hσ he
      have := C08_conversion_keeps_value (hs.ok v hv').2 hret (Res.ofOutcome_eq_ok.1 hu)
      exact ⟨this.1, this.2.2⟩
  | assign cv t e =>
    intro loop σ f ht hσ h
    cases ht with
    | assign hc hv he hcv hconv hf =>
      rename_i k t v w
      simp only [execS] at h
      obtain ⟨v', hv', h⟩ := Res.bind_eq_ok.1 h
      obtain ⟨u, hu, h⟩ := Res.bind_eq_ok.1 h
      cases h
      obtain ⟨w', hs⟩ := typed_sound hΓ hA hσ he
      have hwt : w.type = t := hf.type fun w hw => (valueConvertTo_known hw).1
      rw [hwt] at hu
      have := C08_conversion_keeps_value (hs.ok v' hv').2 (hΓ.vars _ _ hv).1
        (Res.ofOutcome_eq_ok.1 hu)
      refine hσ.set ?_ this.2.2
      rw [this.1]; exact hv
  | block ss ih =>
    intro loop σ f ht hσ h
    cases ht with
    | block hts =>
      simp only [execS] at h
      induction ss generalizing σ with
      | nil => cases h; exact hσ
      | cons s ss ihs =>
        cases hts with
        | cons h1 h2 =>
          simp only [execSs] at h
          obtain ⟨g, hg, h⟩ := Res.bind_eq_ok.1 h
          have hgo := ih s List.mem_cons_self h1 hσ hg
          cases g with
          | normal σ' => exact ihs (fun s hs => ih s (List.mem_cons_of_mem _ hs)) hgo h h2
          | break_ σ' => cases h; exact hgo
          | continue_ σ' => cases h; exact hgo
          | return_ v => cases h; exact hgo
  | call e =>
    intro loop σ f ht hσ h
    simp only [execS] at h
    obtain ⟨v, -, h⟩ := Res.bind_eq_ok.1 h
    cases h; exact hσ

theorem execSs_ok {Γ : Ctx} {M : Meaning} (hΓ : Γ.WF) (hA : Agrees Γ M) {ret : CType}
    (hret : ret.WF) (fuel : Nat) {ss : List Stmt} {loop : Bool} {σ : Frame} {f : Flow}
    (ht : TypedSs Γ ret loop ss) (hσ : FrameOk Γ σ) (h : execSs M ret fuel ss σ = .ok f) :
    FlowOk Γ ret loop f :=
  execS_ok hΓ hA hret fuel (.block ss) (.block ht) hσ (by simpa only [execS] using h)

theorem bindParams_ok {Γ : Ctx} : ∀ {ps : List (Key × CType)} {vs : List CVal},
    (∀ p ∈ ps, Γ.vars p.1 = some p.2) →
    List.Forall₂ (fun (v : CVal) t => v.type = t ∧ WF v) vs (ps.map Prod.snd) →
    FrameOk Γ (bindParams ps vs) := by
  intro ps
  induction ps with
  | nil => intro vs _ _ k v h; simp [bindParams, Frame.empty] at h
  | cons p ps ih =>
    intro vs hp h
    obtain ⟨k, t⟩ := p
    match vs, h with
    | v :: vs, .cons h1 h2 =>
      refine (ih (fun p hp' => hp p (List.mem_cons_of_mem _ hp')) h2).set ?_ h1.2
      rw [h1.1]; exact hp (k, t) List.mem_cons_self

/-- The calls of a well-typed program return values of the result type. -/
theorem callN_agrees {P : Prog} (hP : P.Typed) (n : Nat) (vars : Key → Option CType) :
    Agrees (P.ctx vars) (P.meaning (P.callN n)) := by
  induction n generalizing vars with
  | zero =>
    refine ⟨rfl, fun k => ?_, fun k ts t vs u _ _ h => by cases h⟩
    simp only [Prog.meaning, Prog.ctx, Option.map_map]; rfl
  | succ n ih =>
    refine ⟨rfl, fun k => ?_, fun k ts t vs u hk hvs h => ?_⟩
    · simp only [Prog.meaning, Prog.ctx, Option.map_map]; rfl
    · simp only [Prog.ctx, Option.map_eq_some_iff] at hk
      obtain ⟨f, hf, hk⟩ := hk
      cases hk
      simp only [Prog.meaning, Prog.callN, hf] at h
      split at h
      · obtain ⟨vars', hwf, hps, hts⟩ := hP k f hf
        obtain ⟨fl, hfl, h⟩ := Res.bind_eq_ok.1 h
        have hret : f.ret.WF := (hwf.fns k (f.params.map Prod.snd) f.ret (by simp [Prog.ctx, hf])).1
        have := execSs_ok hwf (ih vars') hret (n + 1) hts (bindParams_ok hps hvs) hfl
        cases fl with
        | return_ v => cases h; exact this
        | normal σ =>
          simp only [finish] at h
          split at h
          · cases h; rename_i hv; exact ⟨hv.symm, trivial, rfl⟩
          · cases h
        | break_ σ => cases h
        | continue_ σ => cases h
      · cases h

/-! ## Progress -/

/-- Calls with arguments of the right types do not get stuck. -/
def NoStuck (Γ : Ctx) (M : Meaning) : Prop :=
  ∀ k ts t vs, Γ.fns k = some (ts, t) →
    List.Forall₂ (fun (v : CVal) t => v.type = t ∧ WF v) vs ts → M.call k vs ≠ .stuck

theorem asBool_ne_stuck {v : CVal} (h : v.type = .bool) : asBool v ≠ .stuck := by
  unfold asBool; rw [if_pos h]; simp

theorem readVar_ne_stuck (σ : Frame) (k : Key) : readVar σ k ≠ .stuck := by
  unfold readVar; split <;> simp

theorem evalArgs_ne_stuck {M : Meaning} {σ : Frame} {args : List Expr}
    (ih : ∀ a ∈ args, evalE M a σ ≠ .stuck) : ∀ {ts : List CType}, args.length = ts.length →
    evalArgs M ts args σ ≠ .stuck := by
  induction args with
  | nil =>
    intro ts h
    cases ts with
    | nil => simp [evalArgs]
    | cons t ts => simp at h
  | cons a args iha =>
    intro ts h
    cases ts with
    | nil => simp at h
    | cons t ts =>
      simp only [evalArgs]
      intro hs
      rcases Res.bind_eq_stuck.1 hs with hs | ⟨v, -, hs⟩
      · exact ih a List.mem_cons_self hs
      rcases Res.bind_eq_stuck.1 hs with hs | ⟨v, -, hs⟩
      · exact Res.ofOutcome_ne_stuck _ hs
      rcases Res.bind_eq_stuck.1 hs with hs | ⟨v, -, hs⟩
      · exact iha (fun a ha => ih a (List.mem_cons_of_mem _ ha)) (by simpa using h) hs
      · cases hs

theorem typed_ne_stuck {Γ : Ctx} {M : Meaning} (hΓ : Γ.WF) (hA : Agrees Γ M) (hN : NoStuck Γ M)
    {σ : Frame} (hσ : FrameOk Γ σ) {e : Expr} (h : Typed Γ e) : evalE M e σ ≠ .stuck := by
  induction h with
  | literal h => simp only [evalE, h]; simp
  | var hc hv =>
    simp only [evalE, hA.consts, hc]
    exact readVar_ne_stuck _ _
  | param hv => simp only [evalE]; exact readVar_ne_stuck _ _
  | const_ hc => simp only [evalE, hA.consts, hc]; simp
  | width hw => simp only [evalE, Value.known]; simp
  | conversion he hcv ht hconv hf ih =>
    simp only [evalE]
    intro hs
    rcases Res.bind_eq_stuck.1 hs with hs | ⟨v, -, hs⟩
    · exact ih hs
    · exact Res.ofOutcome_ne_stuck _ hs
  | ite hl hc hr hcl hcc hcr hck hf ihl ihc ihr =>
    obtain ⟨vc, hsc⟩ := typed_sound hΓ hA hσ hc
    simp only [evalE]
    intro hs
    rcases Res.bind_eq_stuck.1 hs with hs | ⟨b, -, hs⟩
    · rcases Res.bind_eq_stuck.1 hs with hs | ⟨v, hv, hs⟩
      · exact ihc hs
      · refine asBool_ne_stuck ?_ hs
        have := hsc.cv
        rw [hcc] at this
        cases this
        rw [(hsc.ok v hv).1]
        exact (checkIf_ok hck).1
    rcases Res.bind_eq_stuck.1 hs with hs | ⟨v, -, hs⟩
    · cases b
      · exact ihr hs
      · exact ihl hs
    · exact Res.ofOutcome_ne_stuck _ hs
  | binary hl hr hcl hcr hck hf ihl ihr =>
    rename_i op l r vl vr t w
    obtain ⟨v', hsl⟩ := typed_sound hΓ hA hσ hl
    obtain rfl : v' = vl := by have := hsl.cv; rw [hcl] at this; cases this; rfl
    obtain ⟨v'', hsr⟩ := typed_sound hΓ hA hσ hr
    obtain rfl : v'' = vr := by have := hsr.cv; rw [hcr] at this; cases this; rfl
    by_cases hop : op = .logical_and ∨ op = .logical_or
    · obtain ⟨h1, h2⟩ := logical_values hck hop
      have hbl : evalE M l σ >>= asBool ≠ .stuck := by
        intro hs
        rcases Res.bind_eq_stuck.1 hs with hs | ⟨v, hv, hs⟩
        · exact ihl hs
        · exact asBool_ne_stuck ((hsl.ok v hv).1.trans h1) hs
      have hbr : (evalE M r σ >>= asBool >>= fun b => Res.ok (CVal.ofBool b)) ≠ .stuck := by
        intro hs
        rcases Res.bind_eq_stuck.1 hs with hs | ⟨b, -, hs⟩
        · rcases Res.bind_eq_stuck.1 hs with hs | ⟨v, hv, hs⟩
          · exact ihr hs
          · exact asBool_ne_stuck ((hsr.ok v hv).1.trans h2) hs
        · cases hs
      unfold evalE
      rcases hop with rfl | rfl
      · rw [if_pos rfl]
        intro hs
        rcases Res.bind_eq_stuck.1 hs with hs | ⟨b, -, hs⟩
        · exact hbl hs
        · cases b
          · cases hs
          · exact hbr hs
      · rw [if_neg (by decide), if_pos rfl]
        intro hs
        rcases Res.bind_eq_stuck.1 hs with hs | ⟨b, -, hs⟩
        · exact hbl hs
        · cases b
          · exact hbr hs
          · cases hs
    · rw [evalE_binary hop]
      intro hs
      rcases Res.bind_eq_stuck.1 hs with hs | ⟨v, -, hs⟩
      · exact ihl hs
      rcases Res.bind_eq_stuck.1 hs with hs | ⟨v, -, hs⟩
      · exact ihr hs
      · exact Res.ofOutcome_ne_stuck _ hs
  | pre he hcv hck hf ih =>
    simp only [evalE]
    intro hs
    rcases Res.bind_eq_stuck.1 hs with hs | ⟨v, -, hs⟩
    · exact ih hs
    · exact Res.ofOutcome_ne_stuck _ hs
  | call hk ht hargs ih =>
    simp only [evalE, hA.params, hk, Option.map_some]
    intro hs
    rcases Res.bind_eq_stuck.1 hs with hs | ⟨vs, hvs, hs⟩
    · exact evalArgs_ne_stuck ih hargs.length_eq hs
    · exact hN _ _ _ vs hk (evalArgs_ok (fun a ha => typed_sound hΓ hA hσ (ht a ha))
        (hΓ.fns _ _ _ hk).2 hvs) hs
  | builtin ht hcv hev ih =>
    rename_i f args vs w
    cases f
    obtain ⟨v, rfl, hvt, hwt, hkn⟩ := evalBuiltinV_assert hev
    simp only [evalE]
    intro hs
    rcases Res.bind_eq_stuck.1 hs with hs | ⟨vs, hvs, hs⟩
    · refine evalArgs_ne_stuck ih ?_ hs
      have := congrArg List.length hcv
      simpa [Builtin.paramTypes] using this
    · exact Res.ofOutcome_ne_stuck _ hs

theorem cond_ne_stuck {Γ : Ctx} {M : Meaning} (hΓ : Γ.WF) (hA : Agrees Γ M) (hN : NoStuck Γ M)
    {σ : Frame} (hσ : FrameOk Γ σ) {e : Expr} (h : Typed Γ e) {v : Value} (hcv : e.cv = some v)
    (hv : v.type = .bool) : evalE M e σ >>= asBool ≠ .stuck := by
  obtain ⟨w, hs⟩ := typed_sound hΓ hA hσ h
  intro hst
  rcases Res.bind_eq_stuck.1 hst with hst | ⟨u, hu, hst⟩
  · exact typed_ne_stuck hΓ hA hN hσ h hst
  · have := hs.cv
    rw [hcv] at this
    cases this
    exact asBool_ne_stuck ((hs.ok u hu).1.trans hv) hst

theorem whileLoop_ne_stuck {Γ : Ctx} {ret : CType} {cond : Frame → Res Bool}
    {body : Frame → Res Flow} (hc : ∀ σ, FrameOk Γ σ → cond σ ≠ .stuck)
    (hb : ∀ σ f, FrameOk Γ σ → body σ = .ok f → FlowOk Γ ret true f)
    (hn : ∀ σ, FrameOk Γ σ → body σ ≠ .stuck) :
    ∀ n σ, FrameOk Γ σ → whileLoop cond body n σ ≠ .stuck := by
  intro n
  induction n with
  | zero => intro σ _ h; cases h
  | succ n ih =>
    intro σ hσ h
    simp only [whileLoop] at h
    rcases Res.bind_eq_stuck.1 h with h | ⟨b, -, h⟩
    · exact hc σ hσ h
    cases b
    · cases h
    · simp only [if_true] at h
      rcases Res.bind_eq_stuck.1 h with h | ⟨g, hg, h⟩
      · exact hn σ hσ h
      have hgo := hb σ g hσ hg
      cases g with
      | normal σ' => exact ih σ' hgo h
      | continue_ σ' => exact ih σ' hgo.2 h
      | break_ σ' => cases h
      | return_ v => cases h

theorem execS_ne_stuck {Γ : Ctx} {M : Meaning} (hΓ : Γ.WF) (hA : Agrees Γ M) (hN : NoStuck Γ M)
    {ret : CType} (hret : ret.WF) (fuel : Nat) (s : Stmt) : ∀ {loop : Bool} {σ : Frame},
    TypedS Γ ret loop s → FrameOk Γ σ → execS M ret fuel s σ ≠ .stuck := by
  induction s using Stmt.ind with
  | const_ k d cv e => intro loop σ _ hσ h; cases h
  | let_ k d cv init =>
    intro loop σ ht hσ h
    cases ht with
    | letNone hc hv => cases h
    | letInit hc hv he hcv hconv =>
      simp only [execS] at h
      rcases Res.bind_eq_stuck.1 h with h | ⟨v, -, h⟩
      · exact typed_ne_stuck hΓ hA hN hσ he h
      rcases Res.bind_eq_stuck.1 h with h | ⟨v, -, h⟩
      · exact Res.ofOutcome_ne_stuck _ h
      · cases h
  | staticAssert cv e => intro loop σ _ hσ h; cases h
  | ifThen c t ih =>
    intro loop σ ht hσ h
    cases ht with
    | ifThen hc hcv hb htt =>
      simp only [execS] at h
      rcases Res.bind_eq_stuck.1 h with h | ⟨b, -, h⟩
      · exact cond_ne_stuck hΓ hA hN hσ hc hcv hb h
      cases b
      · cases h
      · exact ih htt hσ h
  | ifElse c t e iht ihe =>
    intro loop σ ht hσ h
    cases ht with
    | ifElse hc hcv hb htt hte =>
      simp only [execS] at h
      rcases Res.bind_eq_stuck.1 h with h | ⟨b, -, h⟩
      · exact cond_ne_stuck hΓ hA hN hσ hc hcv hb h
      cases b
      · exact ihe hte hσ h
      · exact iht htt hσ h
  | while_ c b ih =>
    intro loop σ ht hσ h
    cases ht with
    | while_ hc hcv hb htb =>
      exact whileLoop_ne_stuck (fun σ hσ => cond_ne_stuck hΓ hA hN hσ hc hcv hb)
        (fun σ f hσ h => execS_ok hΓ hA hret fuel b htb hσ h) (fun σ hσ => ih htb hσ) fuel σ hσ h
  | control c cv e =>
    intro loop σ ht hσ h
    cases ht with
    | break_ => cases h
    | continue_ => cases h
    | returnVoid hr => cases h
    | return_ he hcv hconv hf =>
      simp only [execS] at h
      rcases Res.bind_eq_stuck.1 h with h | ⟨v, -, h⟩
      · exact typed_ne_stuck hΓ hA hN hσ he h
      rcases Res.bind_eq_stuck.1 h with h | ⟨v, -, h⟩
      · exact Res.ofOutcome_ne_stuck _ h
      · cases h
  | assign cv t e =>
    intro loop σ ht hσ h
    cases ht with
    | assign hc hv he hcv hconv hf =>
      simp only [execS] at h
      rcases Res.bind_eq_stuck.1 h with h | ⟨v, -, h⟩
      · exact typed_ne_stuck hΓ hA hN hσ he h
      rcases Res.bind_eq_stuck.1 h with h | ⟨v, -, h⟩
      · exact Res.ofOutcome_ne_stuck _ h
      · cases h
  | block ss ih =>
    intro loop σ ht hσ h
    cases ht with
    | block hts =>
      simp only [execS] at h
      induction ss generalizing σ with
      | nil => cases h
      | cons s ss ihs =>
        cases hts with
        | cons h1 h2 =>
          simp only [execSs] at h
          rcases Res.bind_eq_stuck.1 h with h | ⟨g, hg, h⟩
          · exact ih s List.mem_cons_self h1 hσ h
          have hgo := execS_ok hΓ hA hret fuel s h1 hσ hg
          cases g with
          | normal σ' => exact ihs (fun s hs => ih s (List.mem_cons_of_mem _ hs)) hgo h h2
          | break_ σ' => cases h
          | continue_ σ' => cases h
          | return_ v => cases h
  | call e =>
    intro loop σ ht hσ h
    cases ht with
    | call he =>
      simp only [execS] at h
      rcases Res.bind_eq_stuck.1 h with h | ⟨v, -, h⟩
      · refine typed_ne_stuck hΓ hA hN hσ he ?_
        simpa only [evalE] using h
      · cases h

theorem Spec.Returns.not_normal {M : Meaning} {ret : CType} {fuel : Nat} (s : Stmt) :
    Returns s → ∀ {σ σ' : Frame}, execS M ret fuel s σ ≠ .ok (.normal σ') := by
  induction s using Stmt.ind with
  | ifElse c t e iht ihe =>
    intro hr σ σ' h
    simp only [Returns] at hr
    simp only [execS] at h
    obtain ⟨b, -, h⟩ := Res.bind_eq_ok.1 h
    cases b
    · exact ihe hr.2 h
    · exact iht hr.1 h
  | control c cv e =>
    intro hr σ σ' h
    cases c with
    | return_ =>
      cases e with
      | none => cases h
      | some e =>
        simp only [execS] at h
        obtain ⟨_, -, h⟩ := Res.bind_eq_ok.1 h
        obtain ⟨_, -, h⟩ := Res.bind_eq_ok.1 h
        cases h
    | _ => simp [Returns] at hr
  | block ss ih =>
    intro hr σ σ' h
    simp only [Returns] at hr
    simp only [execS] at h
    induction ss generalizing σ with
    | nil => simp [ReturnsAny] at hr
    | cons s ss ihs =>
      simp only [execSs] at h
      obtain ⟨g, hg, h⟩ := Res.bind_eq_ok.1 h
      cases g with
      | normal σ'' =>
        rcases hr with hr | hr
        · exact ih s List.mem_cons_self hr hg
        · exact ihs (fun s hs => ih s (List.mem_cons_of_mem _ hs)) hr h
      | _ => cases h
  | _ => intro hr; simp [Returns] at hr

theorem Spec.ReturnsAny.not_normal {M : Meaning} {ret : CType} {fuel : Nat} {ss : List Stmt}
    (hr : ReturnsAny ss) {σ σ' : Frame} : execSs M ret fuel ss σ ≠ .ok (.normal σ') := by
  have := Returns.not_normal (M := M) (ret := ret) (fuel := fuel) (.block ss)
    (by simpa only [Returns] using hr) (σ := σ) (σ' := σ')
  simpa only [execS] using this

/-- Calls of a well-typed program in which every function with a result returns do not get stuck. -/
theorem callN_noStuck {P : Prog} (hP : P.Typed) (hR : P.Returns) (n : Nat)
    (vars : Key → Option CType) : NoStuck (P.ctx vars) (P.meaning (P.callN n)) := by
  induction n generalizing vars with
  | zero => intro k ts t vs _ _ h; cases h
  | succ n ih =>
    intro k ts t vs hk hvs h
    simp only [Prog.ctx, Option.map_eq_some_iff] at hk
    obtain ⟨f, hf, hk⟩ := hk
    cases hk
    simp only [Prog.meaning, Prog.callN, hf] at h
    rw [if_pos (by simpa using hvs.length_eq)] at h
    obtain ⟨vars', hwf, hps, hts⟩ := hP k f hf
    have hret : f.ret.WF := (hwf.fns k (f.params.map Prod.snd) f.ret (by simp [Prog.ctx, hf])).1
    have hA := callN_agrees hP n vars'
    have hσ := bindParams_ok (Γ := P.ctx vars') hps hvs
    rcases Res.bind_eq_stuck.1 h with h | ⟨fl, hfl, h⟩
    · refine execS_ne_stuck hwf hA (ih vars') hret (n + 1) (.block f.body) (.block hts) hσ ?_
      simp only [execS]; exact h
    · have := execSs_ok hwf hA hret (n + 1) hts hσ hfl
      cases fl with
      | return_ v => cases h
      | normal σ =>
        simp only [finish] at h
        split at h
        · cases h
        · rename_i hne
          exact (hR k f hf hne).not_normal hfl
      | break_ σ => cases this.1
      | continue_ σ => cases this.1

end Bms
