import Verif.Spec.WellTyped
import Verif.Lemmas.AnalyzeCalmFn

/-!
# Analysis of constant expressions in well-typed programs reports no error
-/

namespace Bms

open Spec

/-- The analysis reports no error; if it succeeds, it does so in a state with `P`. -/
def Safe {α : Type} (P : α → ASt → Prop) (x : AM α) (s : ASt) : Prop :=
  match x s with
  | .ok a s => P a s
  | .err _ => False
  | _ => True

namespace Safe

variable {α β : Type} {P : α → ASt → Prop} {Q : β → ASt → Prop} {s : ASt}

theorem bind {x : AM α} {f : α → AM β} (hx : Safe P x s)
    (hf : ∀ a s', x s = .ok a s' → P a s' → Safe Q (f a) s') : Safe Q (x >>= f) s := by
  show Safe Q (AM.bind x f) s
  unfold Safe at hx ⊢
  unfold AM.bind
  cases hr : x s with
  | ok a s' =>
    simp only [hr] at hx ⊢
    exact hf a s' hr hx
  | err e => simp [hr] at hx
  | _ => trivial

theorem mono {P' : α → ASt → Prop} {x : AM α} (h : Safe P x s) (hp : ∀ a s', x s = .ok a s' → P a s' → P' a s') :
    Safe P' x s := by
  unfold Safe at h ⊢
  cases hr : x s with
  | ok a s' => simp only [hr] at h ⊢; exact hp a s' hr h
  | err e => simp [hr] at h
  | _ => trivial

theorem and {P' : α → ASt → Prop} {x : AM α} (h : Safe P x s) (h' : Safe P' x s) :
    Safe (fun a s => P a s ∧ P' a s) x s := by
  unfold Safe at h h' ⊢
  cases hr : x s with
  | ok a s' => simp only [hr] at h h' ⊢; exact ⟨h, h'⟩
  | err e => simp [hr] at h
  | _ => trivial

theorem pure {a : α} (h : P a s) : Safe P (Pure.pure a : AM α) s := h
theorem throws : Safe P (AM.throws : AM α) s := trivial
theorem ub : Safe P (AM.ub : AM α) s := trivial
theorem timeout : Safe P (AM.timeout : AM α) s := trivial
theorem read {P : ASt → ASt → Prop} (h : P s s) : Safe P AM.read s := h
theorem modify {P : Unit → ASt → Prop} {f : ASt → ASt} (h : P () (f s)) : Safe P (AM.modify f) s := h

theorem value {o : Option α} (h : ∀ a, o = some a → P a s) : Safe P (AM.value o) s := by
  cases o with
  | none => trivial
  | some a => exact h a rfl

theorem deref {o : Option α} (h : ∀ a, o = some a → P a s) : Safe P (AM.deref o) s := by
  cases o with
  | none => trivial
  | some a => exact h a rfl

theorem lift {ε : Type} {f : ε → AErr} {o : Outcome ε α} (ho : ∀ e, o ≠ .err e) (h : ∀ a, o = .ok a → P a s) :
    Safe P (AM.lift f o) s := by
  cases o with
  | ok a => exact h a rfl
  | err e => exact (ho e rfl).elim
  | _ => trivial

theorem get {o : Outcome AErr α} (ho : ∀ e, o ≠ .err e) (h : ∀ a, o = .ok a → P a s) : Safe P (AM.get o) s := lift ho h

theorem checked {o : Outcome CheckErr α} {k : Key} {a : α} (ho : o = .ok a) (h : P a s) :
    Safe P (Ana.checked k o) s := by
  subst ho
  exact h

theorem assert {P : Unit → ASt → Prop} {b : Bool} (h : b = true → P () s) : Safe P (AM.assert b) s := by
  cases b with
  | true => exact h rfl
  | false => trivial

theorem foldResult {P : Value → ASt → Prop} {o : Outcome EvalErr Value} {t : CType} {b : Bool} {k : Key}
    (hb : b = false ∨ ∀ e, o ≠ .err e) (h : ∀ v, Folds o t v → P v s) : Safe P (Bms.foldResult o t b k) s := by
  cases o with
  | ok a => exact h a (.inl rfl)
  | err e =>
    cases b with
    | false => exact h _ (.inr ⟨⟨e, rfl⟩, rfl⟩)
    | true => exact (hb.resolve_left (by decide) e rfl).elim
  | _ => trivial

theorem ite {c : Prop} [Decidable c] {x y : AM α} (hx : c → Safe P x s) (hy : ¬ c → Safe P y s) :
    Safe P (if c then x else y) s := by
  split
  · next h => exact hx h
  · next h => exact hy h

/-- Reading the state does not change it. -/
theorem read_bind {f : ASt → AM β} (h : Safe Q (f s) s) : Safe Q (AM.read >>= f) s := h

theorem value_bind {o : Option α} {f : α → AM β} (h : ∀ a, o = some a → Safe Q (f a) s) : Safe Q (AM.value o >>= f) s := by
  cases o with
  | none => trivial
  | some a => exact h a rfl

theorem deref_bind {o : Option α} {f : α → AM β} (h : ∀ a, o = some a → Safe Q (f a) s) : Safe Q (AM.deref o >>= f) s := by
  cases o with
  | none => trivial
  | some a => exact h a rfl

theorem assert_bind {b : Bool} {f : Unit → AM β} (h : b = true → Safe Q (f ()) s) : Safe Q (AM.assert b >>= f) s := by
  cases b with
  | true => exact h rfl
  | false => trivial

theorem get_bind {o : Outcome AErr α} {f : α → AM β} (ho : ∀ e, o ≠ .err e) (h : ∀ a, o = .ok a → Safe Q (f a) s) :
    Safe Q (AM.get o >>= f) s := by
  cases o with
  | ok a => exact h a rfl
  | err e => exact (ho e rfl).elim
  | _ => trivial

theorem checked_bind {o : Outcome CheckErr α} {k : Key} {a : α} {f : α → AM β} (ho : o = .ok a) (h : Safe Q (f a) s) :
    Safe Q (Ana.checked k o >>= f) s := by
  subst ho
  exact h

theorem fold_bind {o : Outcome EvalErr Value} {t : CType} {b : Bool} {k : Key} {f : Value → AM β}
    (hb : b = false ∨ ∀ e, o ≠ .err e) (h : ∀ v, Folds o t v → Safe Q (f v) s) : Safe Q (Bms.foldResult o t b k >>= f) s :=
  bind (P := fun v s' => s = s' ∧ Folds o t v) (foldResult hb fun v hv => ⟨rfl, hv⟩) fun v _ _ hv => by
    obtain ⟨rfl, hv⟩ := hv
    exact h v hv

theorem modify_bind {g : ASt → ASt} {f : Unit → AM β} (h : Safe Q (f ()) (g s)) : Safe Q (AM.modify g >>= f) s := h

end Safe

/-! ## Constant expressions -/

/-- The constants in `seen` have their values. -/
def ValsOk (T : Typing) (seen : List Key) (s : ASt) : Prop :=
  ∀ j ∈ seen, (j, DeclKind.const_) ∈ T.names.kinds → ∀ v, T.names.value j = some v →
    s.fns j = none ∧ s.decl j = some ⟨.const_, some (Value.known v)⟩ ∧ WF v

theorem before_append {seen a b : List Key} : before seen (a ++ b) = true ↔ before seen a = true ∧ before seen b = true := by
  simp [before, List.all_append]

theorem before_singleton {seen : List Key} {j : Key} : before seen [j] = true ↔ j ∈ seen := by
  simp [before]

section

variable {T : Typing} {seen : List Key} {n : Nat} {af : Key → Level → AM Unit}

theorem Folds_known {o : Outcome EvalErr Value} {t : CType} {w : Value} {c : CVal} {p : Outcome EvalErr CVal} (h : Folds o t w)
    (ho : o = p.map Value.known) (hp : p = .ok c) : w = Value.known c := by
  subst hp
  rw [ho] at h
  rcases h with h | ⟨⟨e, h⟩, -⟩
  · cases h
    rfl
  · cases h

theorem known_not_err {p : Outcome EvalErr CVal} {c : CVal} (hp : p = .ok c) (e : EvalErr) : p.map Value.known ≠ .err e := by
  subst hp
  intro h
  cases h

mutual

theorem constE_safe {s : ASt} (hs : ValsOk T seen s) : (e : AExpr) → RawE e → before seen (mentionsE e) = true →
    ∀ v, constE T.names e = .ok v → ∀ level ctx,
      Safe (fun (e' : AExpr) s' => s = s' ∧ e'.cv = some (Value.known v) ∧ WF v) (Ana.expr n af e level ctx) s
  | .literal k cv lit, hr, _, v, hv, level, ctx => by
    simp only [RawE] at hr
    subst hr
    simp only [Ana.expr, Ana.literal]
    rw [constE.eq_def] at hv
    cases lit with
    | none => cases hv
    | some l =>
      cases l with
      | true_ => cases hv; exact .pure ⟨rfl, rfl, by decide⟩
      | false_ => cases hv; exact .pure ⟨rfl, rfl, by decide⟩
      | integer text =>
        simp only at hv ⊢
        cases hp : parseIntegerLiteral text with
        | none => rw [hp] at hv; cases hv
        | some x =>
          rw [hp] at hv
          cases hv
          exact .pure ⟨rfl, rfl, litValue_wf (l := .integer text) (by simp [litValue, hp])⟩
  | .id k cv name ref g, hr, hb, v, hv, level, ctx => by
    simp only [RawE] at hr
    subst hr
    rw [constE.eq_def] at hv
    simp only at hv
    cases ref with
    | none => cases hv
    | some r =>
      cases r with
      | builtin f => cases hv
      | param p => cases hv
      | node j =>
        simp only at hv
        have hj : j ∈ seen := before_singleton.1 (by simpa [mentionsE] using hb)
        by_cases hc : (j, DeclKind.const_) ∈ T.names.kinds
        · rw [if_pos (List.contains_iff_mem.2 hc)] at hv
          cases hx : T.names.value j with
          | none => rw [hx] at hv; cases hv
          | some u =>
            rw [hx] at hv
            cases hv
            obtain ⟨h1, h2, h3⟩ := hs j hj hc v hx
            rw [Ana.expr.eq_def]
            refine Safe.bind (P := fun o s' => s = s' ∧ o = some (Value.known v)) ?_ fun o _ _ h => ?_
            · unfold Ana.idValue
              refine .read_bind ?_
              simp only [h1, h2]
              exact .pure ⟨rfl, rfl⟩
            · obtain ⟨rfl, rfl⟩ := h
              exact .pure ⟨rfl, rfl, h3⟩
        · rw [if_neg fun h => hc (List.contains_iff_mem.1 h)] at hv
          split at hv <;> cases hv
  | .conversion k cv e ty, hr, hb, v, hv, level, ctx => by
    rw [constE] at hv
    rw [mentionsE, before_append] at hb
    obtain ⟨u, hu, hv⟩ := Outcome.bind_eq_ok.1 hv
    obtain ⟨t, ht, hv⟩ := Outcome.bind_eq_ok.1 hv
    split at hv
    · cases hv
    · next hcv =>
      have hcv : u.type.isConvertibleTo t = true := by simpa using hcv
      obtain ⟨-, hv⟩ := possible_ok hv
      rw [Ana.expr]
      refine Safe.bind (constE_safe hs e hr.2.1 hb.1 u hu level ctx) fun e' _ _ h => ?_
      obtain ⟨rfl, hce, hwu⟩ := h
      refine Safe.bind (constT_safe hs ty hr.2.2 hb.2 t ht) fun ty' _ _ h => ?_
      obtain ⟨rfl, hty⟩ := h
      rw [hce]
      refine .value_bind fun _ h => ?_
      cases h
      rw [hty.2.1]
      refine .get_bind (fun _ h => by cases h) fun _ h => ?_
      cases h
      refine .value_bind fun _ h => ?_
      cases h
      refine .ite (fun h => absurd hcv h) fun _ => ?_
      refine .fold_bind (.inl rfl) fun w hw => ?_
      rw [conversion_known hcv] at hw
      refine .pure ⟨rfl, ?_, (C11_conversion_wf hwu hty.2.2 hv).1⟩
      show some w = _
      rw [Folds_known hw rfl hv]
  | .ite k cv l c r, hr, hb, v, hv, level, ctx => by
    rw [constE] at hv
    rw [mentionsE, before_append, before_append] at hb
    obtain ⟨⟨hbl, hbc⟩, hbr⟩ := hb
    obtain ⟨-, hrl, hrc, hrr⟩ := hr
    obtain ⟨vc, hvc, hv⟩ := Outcome.bind_eq_ok.1 hv
    split at hv
    · cases hv
    · next hbo =>
      have hbo : vc.type = .bool := by simpa using hbo
      cases hl : constE T.names l with
      | ok vl =>
        cases hr : constE T.names r with
        | ok vr =>
          simp only [hl, hr] at hv
          obtain ⟨⟨t, ht⟩, hv⟩ := possible_ok hv
          rw [Ana.expr]
          refine Safe.bind (constE_safe hs c hrc hbc vc hvc level ctx) fun c' _ _ h => ?_
          obtain ⟨rfl, hcc, hwc⟩ := h
          rw [hcc]
          refine .deref_bind fun _ h => ?_
          cases h
          refine .ite (fun h => absurd hbo h) fun _ => ?_
          have key : ∀ chosen : Option Bool, Safe (fun (e' : AExpr) s' => s = s' ∧ e'.cv = some (Value.known v) ∧ WF v) (do
              let left ← Ana.expr n af l level (if chosen = some false then .normal else ctx)
              let right ← Ana.expr n af r level (if chosen = some true then .normal else ctx)
              let l ← AM.deref left.cv
              let r ← AM.deref right.cv
              let t ← Ana.checked k (checkIf l.type (Value.known vc).type r.type)
              match evalIfV l (Value.known vc) r with
              | .ok w => pure (.ite k (some w) left c' right)
              | .err _ =>
                if ctx = .constant then AM.throws
                else pure (.ite k (some (Value.unknownOf t)) left c' right)
              | .throws => AM.throws
              | .ub => AM.ub : AM AExpr) s := by
            intro chosen
            refine Safe.bind (constE_safe hs l hrl hbl vl hl _ _) fun l' _ _ h => ?_
            obtain ⟨rfl, hcl, hwl⟩ := h
            refine Safe.bind (constE_safe hs r hrr hbr vr hr _ _) fun r' _ _ h => ?_
            obtain ⟨rfl, hcr, hwr⟩ := h
            rw [hcl, hcr]
            refine .deref_bind fun _ h => ?_
            cases h
            refine .deref_bind fun _ h => ?_
            cases h
            refine .checked_bind (a := t) ht ?_
            rw [if_known hbo, hv]
            exact .pure (P := fun (e' : AExpr) s' => s = s' ∧ e'.cv = some (Value.known v) ∧ WF v)
              ⟨rfl, rfl, C11_if_wf hwl hwr hv⟩
          refine .ite (fun _ => ?_) fun _ => key none
          refine .assert_bind fun _ => ?_
          refine .get_bind (fun e h => ?_) fun b _ => key (some b)
          simp [Value.asBool, Value.known, hbo] at h
        | _ => simp [hl, hr] at hv
      | _ => simp [hl] at hv
  | .binary k cv op l r, hr, hb, v, hv, level, ctx => by
    rw [constE] at hv
    rw [mentionsE, before_append] at hb
    obtain ⟨-, hrl, hrr⟩ := hr
    obtain ⟨vl, hvl, hv⟩ := Outcome.bind_eq_ok.1 hv
    have hboth : ∃ vr, constE T.names r = .ok vr ∧ (∃ t, checkBinary vl.type op vr.type = .ok t) ∧ evalBinary vl op vr = .ok v ∧
        (Gen.isShortCircuit op = true → vl.type = .bool) := by
      split at hv
      · next hsc =>
        split at hv
        · cases hv
        · next hbo =>
          cases hr : constE T.names r with
          | ok vr =>
            simp only [hr] at hv
            obtain ⟨h1, h2⟩ := possible_ok hv
            exact ⟨vr, rfl, h1, h2, fun _ => by simpa using hbo⟩
          | _ => simp [hr] at hv
      · next hsc =>
        obtain ⟨vr, hr, hv⟩ := Outcome.bind_eq_ok.1 hv
        obtain ⟨h1, h2⟩ := computed_ok hv
        exact ⟨vr, hr, h1, h2, fun h => absurd h hsc⟩
    obtain ⟨vr, hvr, ⟨t, ht⟩, hv, hsc⟩ := hboth
    rw [Ana.expr]
    refine Safe.bind (constE_safe hs l hrl hb.1 vl hvl level ctx) fun l' _ _ h => ?_
    obtain ⟨rfl, hcl, hwl⟩ := h
    refine .assert_bind fun _ => ?_
    refine Safe.bind (P := fun _ s' => s = s') ?_ fun ctx' _ _ h => ?_
    · unfold Ana.rightContext
      refine .ite (fun h => ?_) fun _ => .pure rfl
      rw [hcl]
      refine .deref_bind fun _ h' => ?_
      cases h'
      refine .ite (fun h' => absurd (hsc h.2) h') fun _ => ?_
      refine .get_bind (fun e h' => ?_) fun b _ => .pure rfl
      simp [Value.asBool, Value.known, hsc h.2] at h'
    subst h
    refine Safe.bind (constE_safe hs r hrr hb.2 vr hvr level ctx') fun r' _ _ h => ?_
    obtain ⟨rfl, hcr, hwr⟩ := h
    refine .assert_bind fun _ => ?_
    rw [hcl, hcr]
    refine .deref_bind fun _ h => ?_
    cases h
    refine .deref_bind fun _ h => ?_
    cases h
    refine .checked_bind (a := t) ht ?_
    rw [binary_known]
    refine .fold_bind (.inr (known_not_err hv)) fun w hw => ?_
    refine .pure ⟨rfl, ?_, C11_binary_wf hwl hwr hv⟩
    show some w = _
    rw [Folds_known hw rfl hv]
  | .prefix k cv op e, hr, hb, v, hv, level, ctx => by
    rw [constE] at hv
    obtain ⟨u, hu, hv⟩ := Outcome.bind_eq_ok.1 hv
    obtain ⟨⟨t, ht⟩, hv⟩ := computed_ok hv
    rw [Ana.expr]
    refine Safe.bind (constE_safe hs e hr.2 hb u hu level ctx) fun e' _ _ h => ?_
    obtain ⟨rfl, hce, hwu⟩ := h
    rw [hce]
    refine .value_bind fun _ h => ?_
    cases h
    refine .checked_bind (a := t) ht ?_
    rw [unary_known]
    refine .fold_bind (.inr (known_not_err hv)) fun w hw => ?_
    refine .pure ⟨rfl, ?_, C11_unary_wf hwu hv⟩
    show some w = _
    rw [Folds_known hw rfl hv]
  | .call .., _, _, v, hv, _, _ => by
    rw [constE] at hv
    cases hv

theorem constT_safe {s : ASt} (hs : ValsOk T seen s) : (ty : AType) → RawT ty → before seen (mentionsT ty) = true →
    ∀ t, constT T.names ty = .ok t → Safe (fun ty' s' => s = s' ∧ SigC ty' t) (Ana.type n af ty) s
  | .base k cv b, hr, _, t, ht => by
    simp only [RawT] at hr
    subst hr
    rw [constT] at ht
    rw [Ana.type.eq_def]
    cases ht
    exact .pure ⟨rfl, rfl, rfl, by cases b <;> simp [BaseType.type, CType.WF]⟩
  | .uint k cv c w, hr, hb, t, ht => by
    obtain ⟨rfl, rfl, hrw⟩ := hr
    rw [constT] at ht
    rw [Ana.type.eq_def]
    obtain ⟨u, hu, ht⟩ := Outcome.bind_eq_ok.1 ht
    refine Safe.bind (constE_safe hs w hrw hb u hu _ _) fun e' _ _ h => ?_
    obtain ⟨rfl, hce, hwu⟩ := h
    rw [hce]
    refine .value_bind fun _ h => ?_
    cases h
    split at ht
    · cases ht
    next hi =>
    refine .ite (fun h => absurd h hi) fun _ => ?_
    split at ht
    · cases ht
    · next hint =>
      have hint : u.type = .int := by simpa using hint
      have hx : (Value.known u).asInt (ε := AErr) = .ok u.int := by simp [Value.asInt, Value.known, hint]
      rw [hx]
      refine .get_bind (fun _ h => by cases h) fun _ h => ?_
      cases h
      split at ht
      · cases ht
      · next h1 =>
        refine .ite (fun h => absurd h (by omega)) fun _ => ?_
        split at ht
        · cases ht
        · next h2 =>
          cases ht
          have hm : ∀ {ε : Type}, (CType.mkUint u.int : Outcome ε CType) = .ok (.uint u.int.toNat) := by
            intro ε
            simp only [CType.mkUint, Outcome.assert]
            rw [if_pos (by simp; omega), if_pos (by simp; omega), if_pos (by simp; omega)]
            rfl
          rw [hm]
          refine .get_bind (fun _ h => by cases h) fun _ h => ?_
          cases h
          refine .pure ⟨rfl, rfl, ?_, ?_⟩
          · show (CType.mkUint ((u.int.toNat : Nat) : Int)).map some = _
            rw [show ((u.int.toNat : Nat) : Int) = u.int by omega, hm]
            rfl
          · simp only [CType.WF]
            omega

end

theorem valueE_iff {e : AExpr} {v : CVal} : valueE T seen e = some v ↔ constE T.names e = .ok v ∧ before seen (mentionsE e) = true := by
  unfold valueE
  cases constE T.names e with
  | ok u => by_cases h : before seen (mentionsE e) = true <;> simp [h]
  | _ => simp

theorem valueT_iff {ty : AType} {t : CType} : valueT T seen ty = some t ↔ constT T.names ty = .ok t ∧ before seen (mentionsT ty) = true := by
  unfold valueT
  cases constT T.names ty with
  | ok u => by_cases h : before seen (mentionsT ty) = true <;> simp [h]
  | _ => simp

theorem valueE_safe {s : ASt} (hs : ValsOk T seen s) {e : AExpr} (hr : RawE e) {v : CVal} (hv : valueE T seen e = some v)
    (level : Level) (ctx : ECtx) :
    Safe (fun (e' : AExpr) s' => s = s' ∧ e'.cv = some (Value.known v) ∧ WF v) (Ana.expr n af e level ctx) s :=
  constE_safe hs e hr (valueE_iff.1 hv).2 v (valueE_iff.1 hv).1 level ctx

theorem valueT_safe {s : ASt} (hs : ValsOk T seen s) {ty : AType} (hr : RawT ty) {t : CType} (ht : valueT T seen ty = some t) :
    Safe (fun ty' s' => s = s' ∧ SigC ty' t) (Ana.type n af ty) s :=
  constT_safe hs ty hr (valueT_iff.1 ht).2 t (valueT_iff.1 ht).1

end

/-! ## Types of results -/

theorem evalBinary_type {l r u : CVal} (hl : WF l) (hr : WF r) {op : ExprType} {t : CType}
    (h : checkBinary l.type op r.type = .ok t) (hu : evalBinary l op r = .ok u) : u.type = t := by
  by_cases hconv : op = .conversion
  · subst hconv
    exfalso
    unfold evalBinary at hu
    obtain ⟨_, -, hu⟩ := Outcome.bind_eq_ok.1 hu
    obtain ⟨⟨a, b⟩, -, hu⟩ := Outcome.bind_eq_ok.1 hu
    obtain ⟨_, -, hu⟩ := Outcome.bind_eq_ok.1 hu
    have : evalBinaryEqual a .conversion b = .throws := by
      unfold evalBinaryEqual
      cases a.type <;> rfl
    rw [this] at hu
    cases hu
  by_cases hbool : (op = .equals ∨ op = .not_equals) ∧ l.type = .bool ∧ r.type = .bool
  · obtain ⟨hop, h1, h2⟩ := hbool
    obtain ⟨a, ha⟩ := bool_known (w := ⟨l.type, some l.int⟩) h1 hl
    obtain ⟨b, hb⟩ := bool_known (w := ⟨r.type, some r.int⟩) h2 hr
    have ha : l = CVal.ofBool a := ha
    have hb : r = CVal.ofBool b := hb
    have := C10_bool_equality_throws a b
    rw [ha, hb] at hu
    rcases hop with rfl | rfl
    · rw [this.2.2.1] at hu; cases hu
    · rw [this.2.2.2] at hu; cases hu
  · rcases C10_binary_accepted_partial hl hr hconv hbool h with ⟨w, hw, ht⟩ | ⟨he, -⟩ | ⟨he, -⟩ | ⟨he, -⟩
    · rw [hw] at hu
      cases hu
      exact ht
    · rw [he] at hu; cases hu
    · rw [he] at hu; cases hu
    · rw [he] at hu; cases hu

theorem VOk.wf {v : Value} (h : VOk v) {x : Int} (hx : v.val = some x) : WF ⟨v.type, x⟩ := h.2 x hx

theorem folds_binary_type {l r w : Value} {op : ExprType} {t : CType} (hl : VOk l) (hr : VOk r)
    (hck : checkBinary l.type op r.type = .ok t) (hf : Folds (evalBinaryV l op r) t w) : w.type = t := by
  refine hf.type fun w h => ?_
  cases hx : w.val with
  | some x =>
    obtain ⟨⟨y, hy⟩, z, hz⟩ := evalBinaryV_known h hx
    obtain ⟨lt, lv⟩ := l
    obtain ⟨rt, rv⟩ := r
    simp only at hy hz hck
    subst hy hz
    have := binary_known op ⟨lt, y⟩ ⟨rt, z⟩
    rw [show evalBinaryV (Value.known ⟨lt, y⟩) op (Value.known ⟨rt, z⟩) = .ok w from h] at this
    cases hu : evalBinary ⟨lt, y⟩ op ⟨rt, z⟩ with
    | ok u =>
      rw [hu] at this
      cases this
      exact evalBinary_type (l := ⟨lt, y⟩) (r := ⟨rt, z⟩) (hl.2 y rfl) (hr.2 z rfl) hck hu
    | _ => rw [hu] at this; cases this
  | none =>
    unfold evalBinaryV at h
    rw [hck] at h
    simp only [Outcome.mapErr_ok, Outcome.ok_bind] at h
    obtain ⟨⟨a, b⟩, -, h⟩ := Outcome.bind_eq_ok.1 h
    simp only at h
    split at h
    · rename_i x y _ _
      cases hu : evalBinary ⟨a.type, x⟩ op ⟨b.type, y⟩ with
      | ok u => rw [hu] at h; cases h; cases hx
      | _ => rw [hu] at h; cases h
    · obtain ⟨-, -, h⟩ := Outcome.bind_eq_ok.1 h
      cases h; rfl
    · cases h; rfl

theorem folds_unary_type {v w : Value} {op : ExprType} {t : CType} (hv : VOk v)
    (hck : checkUnary op v.type = .ok t) (hf : Folds (evalUnaryV op v) t w) : w.type = t := by
  refine hf.type fun w h => ?_
  unfold evalUnaryV at h
  rw [hck] at h
  simp only [Outcome.mapErr_ok, Outcome.ok_bind] at h
  cases hx : v.val with
  | none =>
    simp only [hx] at h
    cases h
    unfold checkUnary at hck
    revert hck
    cases v.type <;> simp only [] <;> (repeat' split) <;> intro h <;> cases h <;> rfl
  | some x =>
    simp only [hx] at h
    rcases (C10_unary op (hv.2 x hx)).1 t hck with ⟨u, hu, ht⟩ | ⟨hu, -⟩
    · rw [hu] at h
      cases h
      exact ht
    · rw [hu] at h
      cases h

theorem folds_conversion_type {v w : Value} {t : CType} (hf : Folds (evalConversionV v t) t w) : w.type = t :=
  hf.type fun _ hw => (valueConvertTo_known hw).1

theorem folds_if_type {l c r w : Value} {t : CType} (hck : checkIf l.type c.type r.type = .ok t)
    (hf : Folds (evalIfV l c r) t w) : w.type = t := hf.type fun _ hw => evalIfV_type hw hck

end Bms
