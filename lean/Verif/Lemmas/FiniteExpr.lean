import Verif.Lemmas.Settles
import Verif.Spec.Finite

/-!
# Analysis of expressions ends, if analysis of calls does
-/

namespace Bms

open Spec

theorem Settles.still {α : Type} {x : AM α} {s : ASt} (h : AEnds (fun _ s' => s' = s) x s) :
    Settles (fun a s' => s' = s ∧ x s = .ok a s) (fun _ => x) s := by
  unfold AEnds at h
  refine ⟨0, x s, ?_, fun _ _ => rfl, fun a s' e => ?_⟩
  · intro e
    rw [e] at h
    exact h
  · rw [e] at h
    simp only at h
    subst h
    exact ⟨rfl, e⟩

theorem literal_still {k : Key} {cv : Option Value} {lit : Option Lit} {s : ASt} :
    AEnds (fun _ s' => s' = s) (Ana.literal k cv lit) s := by
  cases cv with
  | some v => exact AEnds.bind (P := fun _ s' => s' = s) (.assert fun _ => rfl) fun _ _ _ hs => .pure hs
  | none =>
    cases lit with
    | none => exact .throws
    | some l =>
      cases l with
      | true_ => exact .pure rfl
      | false_ => exact .pure rfl
      | integer text =>
        simp only [Ana.literal]
        cases parseIntegerLiteral text with
        | none => exact .fail
        | some x => exact .pure rfl

theorem idValue_still {k : Key} {ref : Option Lookup} {ctx : ECtx} {s : ASt} :
    AEnds (fun _ s' => s' = s) (Ana.idValue k ref ctx) s := by
  cases ref with
  | none => exact .throws
  | some r =>
    cases r with
    | builtin f => exact .throws
    | param p =>
      refine .ite (fun _ => .fail) fun _ => AEnds.bind (P := fun _ s' => s' = s) (.read rfl) fun t s' _ hs => ?_
      cases t.decl p with
      | none => exact .throws
      | some d => exact .pure hs
    | node j =>
      refine AEnds.bind (P := fun _ s' => s' = s) (.read rfl) fun t s' _ hs => ?_
      cases t.fns j with
      | some f => exact .fail
      | none =>
        cases t.decl j with
        | none => exact .throws
        | some d =>
          obtain ⟨kd, o⟩ := d
          cases kd <;> cases o
          · exact .ite (fun _ => .fail) fun _ => .fail
          · exact .ite (fun _ => .fail) fun _ => .pure hs
          · exact .fail
          · exact .pure hs
          · exact .throws
          · exact .throws
          · exact .throws
          · exact .ite (fun _ => .fail) fun _ => .pure hs

theorem mapM_value_still {s : ASt} : (es : List AExpr) →
    AEnds (fun _ s' => s' = s) (es.mapM fun (a : AExpr) => AM.value a.cv) s
  | [] => by simpa using AEnds.pure (P := fun _ s' => s' = s) (a := ([] : List Value)) rfl
  | e :: es => by
    rw [List.mapM_cons]
    refine AEnds.bind (P := fun _ s' => s' = s) (.value fun _ _ => rfl) fun _ _ _ h => ?_
    subst h
    exact AEnds.bind (mapM_value_still es) fun _ _ _ hs => .pure hs

mutual

theorem widthCalls_sub : (e : AExpr) → ∀ j ∈ widthCallsE e, j ∈ callsE e
  | .literal .. => by simp [widthCallsE]
  | .id .. => by simp [widthCallsE]
  | .conversion _ _ e t => by
    simp only [widthCallsE, callsE, List.mem_append]
    exact fun j hj => hj.imp (widthCalls_sub e j) id
  | .ite _ _ l c r => by
    simp only [widthCallsE, callsE, List.mem_append]
    exact fun j hj => hj.imp (widthCalls_sub l j) fun h => h.imp (widthCalls_sub c j) (widthCalls_sub r j)
  | .binary _ _ _ l r => by
    simp only [widthCallsE, callsE, List.mem_append]
    exact fun j hj => hj.imp (widthCalls_sub l j) (widthCalls_sub r j)
  | .prefix _ _ _ e => by
    simp only [widthCallsE, callsE]
    exact widthCalls_sub e
  | .call _ _ _ _ ref args => by
    simp only [widthCallsE, callsE, List.mem_append]
    exact fun j hj => .inr (widthCallsEs_sub args j hj)

theorem widthCallsEs_sub : (es : List AExpr) → ∀ j ∈ widthCallsEs es, j ∈ callsEs es
  | [] => by simp [widthCallsEs]
  | e :: es => by
    simp only [widthCallsEs, callsEs, List.mem_append]
    exact fun j hj => hj.imp (widthCalls_sub e j) (widthCallsEs_sub es j)

end

/-- Analysis of calls of functions in `A` ends, while the functions in `st` are being analyzed. -/
def CallsEnd (ds : List ADecl) (N : Nat) (st : List Key) (K A : Key → Prop) (level : Level) : Prop :=
  ∀ (ctx : ECtx) (k j : Key) (c : Bool) (as0 as : List AExpr) (s : ASt), (ctx = .constant → level = .forConst) → A (j % N) →
    (IsFn ds (j % N) → Live s j) → SimEs ds N (Live s) c as0 as → BInv ds N s → Good ds N s → s.stack = st →
    Settles (fun _ s' => Good ds N s' ∧ Keep K s s') (fun n => Ana.callFunction n (Ana.function n) k j as level ctx) s

theorem CallsEnd.none {ds : List ADecl} {N : Nat} {st : List Key} {K : Key → Prop} {level : Level} :
    CallsEnd ds N st K (fun _ => False) level := fun _ _ _ _ _ _ _ _ h => h.elim

theorem CallsEnd.weaken {ds : List ADecl} {N : Nat} {st : List Key} {K A A' : Key → Prop} {level : Level} (h : CallsEnd ds N st K A level)
    (hA : ∀ j, A' j → A j) : CallsEnd ds N st K A' level := fun ctx k j c as0 as s h1 h2 => h ctx k j c as0 as s h1 (hA _ h2)

section

variable {ds : List ADecl} {N : Nat} {st : List Key} {K C : Key → Prop}

mutual

theorem exprF (hg : BGiven ds N) (hC : CallsEnd ds N st K C .forConst) : (e0 : AExpr) → (e : AExpr) → (c : Bool) → (level : Level) →
    (ctx : ECtx) → (A : Key → Prop) → (s : ASt) → SimE ds N (Live s) c e0 e → (ctx = .constant → c = true ∧ level = .forConst) →
    CallsEnd ds N st K A level → (∀ j ∈ callsE e0, A j) → (∀ j ∈ widthCallsE e0, C j) → BInv ds N s → Good ds N s → s.stack = st →
    Settles (fun _ s' => Good ds N s' ∧ Keep K s s') (fun n => Ana.expr n (Ana.function n) e level ctx) s
  | .literal k0 _ l, e, c, level, ctx, A, s, hs, hctx, hA, ha, hw, h, hi, hst => by
    cases hs with | literal h1 h2 =>
    simp only [Ana.expr]
    refine (Settles.still literal_still).mono fun e' s' h' => ?_
    obtain ⟨rfl, -⟩ := h'
    exact ⟨hi, .refl _⟩
  | .id k0 cv0 name r0 g, e, c, level, ctx, A, s, hs, hctx, hA, ha, hw, h, hi, hst => by
    cases hs with | @id _ _ k _ cv _ _ r _ h1 h2 h3 =>
    simp only [Ana.expr]
    cases cv with
    | some v => exact .pure ⟨hi, .refl _⟩
    | none =>
      refine (Settles.still idValue_still).bind fun cv s' h' => ?_
      obtain ⟨rfl, -⟩ := h'
      exact .pure ⟨hi, .refl _⟩
  | .conversion k0 cv0 e0 t0, e, c, level, ctx, A, s, hs, hctx, hA, ha, hw, h, hi, hst => by
    cases hs with | @conversion _ _ k _ cv _ e _ t h1 h2 h3 h4 =>
    simp only [callsE, widthCallsE, List.mem_append] at ha hw
    simp only [Ana.expr]
    refine ((exprF hg hC e0 e c level ctx A s h2 hctx hA (fun j hj => ha j (.inl hj)) (fun j hj => hw j (.inl hj)) h hi hst).with_
      fun n => exprA_bl hg (functionA_bl hg n) e0 e c level ctx s h2 (fun hc => (hctx hc).1) h).bind fun e' s1 h' => ?_
    obtain ⟨⟨i1, l1, he⟩, g1, k1⟩ := h'
    refine (typeF hg hC t0 t s1 (SimT.mono l1 _ _ h3) (fun j hj => hw j (.inr hj)) i1 g1 (k1.1.trans hst)).bind fun t' s2 h' => ?_
    obtain ⟨g2, k2⟩ := h'
    refine .value_bind fun v hv => .get_bind fun o ho => .value_bind fun u hu => ?_
    exact .ite (fun _ => .fail) fun _ => .fold_bind fun w => .pure ⟨g2, k1.trans k2⟩
  | .ite k0 cv0 l0 b0 r0, e, c, level, ctx, A, s, hs, hctx, hA, ha, hw, h, hi, hst => by
    cases hs with | @ite _ _ k _ cv _ l _ b _ r h1 h2 h3 h4 h5 =>
    simp only [callsE, widthCallsE, List.mem_append] at ha hw
    simp only [Ana.expr]
    refine ((exprF hg hC b0 b c level ctx A s h3 hctx hA (fun j hj => ha j (.inr (.inl hj))) (fun j hj => hw j (.inr (.inl hj))) h hi hst).with_
      fun n => exprA_bl hg (functionA_bl hg n) b0 b c level ctx s h3 (fun hc => (hctx hc).1) h).bind fun b' s1 h' => ?_
    obtain ⟨⟨i1, l1, hb⟩, g1, k1⟩ := h'
    refine .deref_bind fun vb hvb => .ite (fun hc => .fail) fun hbool => ?_
    have hfin : ∀ (o : Option Bool), Settles (fun _ s' => Good ds N s' ∧ Keep K s s') (fun n => do
        let left ← Ana.expr n (Ana.function n) l level (if o = some false then .normal else ctx)
        let right ← Ana.expr n (Ana.function n) r level (if o = some true then .normal else ctx)
        let l ← AM.deref left.cv
        let r ← AM.deref right.cv
        let t ← Ana.checked k (checkIf l.type vb.type r.type)
        match evalIfV l vb r with
        | .ok w => pure (AExpr.ite k (some w) left b' right)
        | .err _ =>
          if ctx = .constant then AM.throws
          else pure (.ite k (some (Value.unknownOf t)) left b' right)
        | .throws => AM.throws
        | .ub => AM.ub) s1 := by
      intro o
      have hc1 : ∀ x : Bool, (if o = some x then ECtx.normal else ctx) = .constant → c = true ∧ level = .forConst := by
        intro x hx
        split at hx
        · cases hx
        · exact hctx hx
      refine ((exprF hg hC l0 l c level _ A s1 (SimE.mono l1 _ _ h2) (hc1 _) hA (fun j hj => ha j (.inl hj)) (fun j hj => hw j (.inl hj)) i1 g1
        (k1.1.trans hst)).with_
        fun n => exprA_bl hg (functionA_bl hg n) l0 l c level _ s1 (SimE.mono l1 _ _ h2) (fun hc => (hc1 _ hc).1) i1).bind fun l' s2 h' => ?_
      obtain ⟨⟨i2, l2, hl⟩, g2, k2⟩ := h'
      refine (exprF hg hC r0 r c level _ A s2 (SimE.mono (l1.trans l2) _ _ h4) (hc1 _) hA (fun j hj => ha j (.inr (.inr hj)))
        (fun j hj => hw j (.inr (.inr hj))) i2 g2 (k2.1.trans (k1.1.trans hst))).bind fun r' s3 h' => ?_
      obtain ⟨g3, k3⟩ := h'
      refine .deref_bind fun vl hvl => .deref_bind fun vr hvr => .checked_bind fun t ht => ?_
      have hP : Good ds N s3 ∧ Keep K s s3 := ⟨g3, k1.trans (k2.trans k3)⟩
      cases hx : evalIfV vl vb vr with
      | ok w => exact .pure hP
      | err x => exact .ite (fun _ => .throws) fun _ => .pure hP
      | throws => exact .throws
      | ub => exact .ub
    by_cases hc : ctx = .constant
    · simp only [if_pos hc, bind_assoc, pure_bind]
      refine .assert_bind fun _ => .get_bind fun b _ => ?_
      have := hfin (some b)
      simp only [if_pos hc] at this
      exact this
    · simp only [if_neg hc, pure_bind]
      have := hfin none
      simp only [if_neg hc] at this
      exact this
  | .binary k0 cv0 op l0 r0, e, c, level, ctx, A, s, hs, hctx, hA, ha, hw, h, hi, hst => by
    cases hs with | @binary _ _ k _ cv _ _ l _ r h1 h2 h3 h4 =>
    simp only [callsE, widthCallsE, List.mem_append] at ha hw
    simp only [Ana.expr]
    refine ((exprF hg hC l0 l c level ctx A s h2 hctx hA (fun j hj => ha j (.inl hj)) (fun j hj => hw j (.inl hj)) h hi hst).with_
      fun n => exprA_bl hg (functionA_bl hg n) l0 l c level ctx s h2 (fun hc => (hctx hc).1) h).bind fun l' s1 h' => ?_
    obtain ⟨⟨i1, l1, hl⟩, g1, k1⟩ := h'
    refine .assert_bind fun _ => ?_
    have hrc : Settles (fun ctx' s' => s' = s1 ∧ (ctx' = .constant → ctx = .constant)) (fun _ => Ana.rightContext k op l'.cv ctx) s1 := by
      unfold Ana.rightContext
      refine .ite (fun hc => ?_) fun _ => .pure ⟨rfl, id⟩
      exact .deref_bind fun l hl => .ite (fun hb => .fail) fun _ => .get_bind fun b _ => .pure ⟨rfl, fun _ => hc.1⟩
    refine hrc.bind fun ctx' s' h' => ?_
    obtain ⟨rfl, hctx'⟩ := h'
    refine (exprF hg hC r0 r c level ctx' A s' (SimE.mono l1 _ _ h3) (fun hx => hctx (hctx' hx)) hA (fun j hj => ha j (.inr hj))
      (fun j hj => hw j (.inr hj)) i1 g1 (k1.1.trans hst)).bind fun r' s2 h' => ?_
    obtain ⟨g2, k2⟩ := h'
    exact .assert_bind fun _ => .deref_bind fun vl hvl => .deref_bind fun vr hvr => .checked_bind fun t ht =>
      .fold_bind fun w => .pure ⟨g2, k1.trans k2⟩
  | .prefix k0 cv0 op e0, e, c, level, ctx, A, s, hs, hctx, hA, ha, hw, h, hi, hst => by
    cases hs with | @pre _ _ k _ cv _ _ e h1 h2 h3 =>
    simp only [callsE, widthCallsE] at ha hw
    simp only [Ana.expr]
    refine (exprF hg hC e0 e c level ctx A s h2 hctx hA ha hw h hi hst).bind fun e' s1 h' => ?_
    exact .value_bind fun v hv => .checked_bind fun t ht => .fold_bind fun w => .pure h'
  | .call k0 cv0 stm name r0 as0, e, c, level, ctx, A, s, hs, hctx, hA, ha, hw, h, hi, hst => by
    cases hs with | @call _ _ k _ cv _ _ _ r _ as h1 h2 h3 h4 =>
    simp only [callsE, widthCallsE, List.mem_append] at ha hw
    simp only [Ana.expr]
    have hargs := (exprsF hg hC as0 as c level ctx A s h3 hctx hA (fun j hj => ha j (.inr hj)) hw h hi hst).with_
      fun n => exprsA_bl hg (functionA_bl hg n) as0 as c level ctx s h3 (fun hc => (hctx hc).1) h
    cases h2 with
    | none => exact .throws
    | @builtin b =>
      simp only
      refine hargs.bind fun as' s1 h' => ?_
      obtain ⟨-, hP⟩ := h'
      refine (Settles.still (mapM_value_still as')).bind fun vs s2 h' => ?_
      obtain ⟨rfl, -⟩ := h'
      exact .checked_bind fun t ht => .lift_bind fun w hw => .pure hP
    | param hp =>
      simp only
      exact hargs.bind fun _ _ _ => .ub
    | @node j j0 hj hl =>
      simp only
      refine hargs.bind fun as' s1 h' => ?_
      obtain ⟨⟨i1, l1, has⟩, g1, k1⟩ := h'
      refine (hA ctx k j c as0 as' s1 (fun hc => (hctx hc).2) (ha _ (.inl (by simp [calledKey, hj]))) (fun hf => l1 _ (hl (hj ▸ hf))) has i1 g1
        (k1.1.trans hst)).bind fun r s2 h' => ?_
      obtain ⟨g2, k2⟩ := h'
      exact .pure ⟨g2, k1.trans k2⟩

theorem typeF (hg : BGiven ds N) (hC : CallsEnd ds N st K C .forConst) : (t0 : AType) → (t : AType) → (s : ASt) →
    SimT ds N (Live s) t0 t → (∀ j ∈ callsT t0, C j) → BInv ds N s → Good ds N s → s.stack = st →
    Settles (fun _ s' => Good ds N s' ∧ Keep K s s') (fun n => Ana.type n (Ana.function n) t) s
  | .base k0 cv0 b, t, s, hs, hc, h, hi, hst => by
    cases hs with | @base _ k _ cv _ h1 =>
    simp only [Ana.type]
    cases cv with
    | some v => exact .pure ⟨hi, .refl _⟩
    | none => exact .pure ⟨hi, .refl _⟩
  | .uint k0 cv0 n0 w0, t, s, hs, hc, h, hi, hst => by
    cases hs with | @uint _ k _ cv _ m _ w h1 h2 h3 =>
    simp only [callsT] at hc
    simp only [Ana.type]
    cases cv with
    | some v => exact .pure ⟨hi, .refl _⟩
    | none =>
      simp only
      refine (exprF hg hC w0 w true .forConst .constant C s h1 (fun _ => ⟨rfl, rfl⟩) hC hc (fun j hj => hc j (widthCalls_sub w0 j hj)) h hi
        hst).bind fun w' s1 h' => ?_
      exact .value_bind fun v hv => .ite (fun _ => .fail) fun _ => .get_bind fun x hx => .ite (fun _ => .fail) fun _ =>
        .get_bind fun t ht => .pure h'

theorem exprsF (hg : BGiven ds N) (hC : CallsEnd ds N st K C .forConst) : (es0 : List AExpr) → (es : List AExpr) → (c : Bool) →
    (level : Level) → (ctx : ECtx) → (A : Key → Prop) → (s : ASt) → SimEs ds N (Live s) c es0 es →
    (ctx = .constant → c = true ∧ level = .forConst) → CallsEnd ds N st K A level → (∀ j ∈ callsEs es0, A j) →
    (∀ j ∈ widthCallsEs es0, C j) → BInv ds N s → Good ds N s → s.stack = st →
    Settles (fun _ s' => Good ds N s' ∧ Keep K s s') (fun n => Ana.exprs n (Ana.function n) es level ctx) s
  | [], es, c, level, ctx, A, s, hs, hctx, hA, ha, hw, h, hi, hst => by
    cases hs with | nil =>
    simp only [Ana.exprs]
    exact .pure ⟨hi, .refl _⟩
  | e0 :: es0, es, c, level, ctx, A, s, hs, hctx, hA, ha, hw, h, hi, hst => by
    cases hs with | @cons _ _ e _ es h1 h2 =>
    simp only [callsEs, widthCallsEs, List.mem_append] at ha hw
    simp only [Ana.exprs]
    refine ((exprF hg hC e0 e c level ctx A s h1 hctx hA (fun j hj => ha j (.inl hj)) (fun j hj => hw j (.inl hj)) h hi hst).with_
      fun n => exprA_bl hg (functionA_bl hg n) e0 e c level ctx s h1 (fun hc => (hctx hc).1) h).bind fun e' s1 h' => ?_
    obtain ⟨⟨i1, l1, he⟩, g1, k1⟩ := h'
    refine .value_bind fun _ _ => ?_
    refine (exprsF hg hC es0 es c level ctx A s1 (SimEs.mono l1 _ _ h2) hctx hA (fun j hj => ha j (.inr hj)) (fun j hj => hw j (.inr hj)) i1 g1
      (k1.1.trans hst)).bind fun es' s2 h' => ?_
    exact .pure ⟨h'.1, k1.trans h'.2⟩

end

end

end Bms
