import Verif.Lemmas.AnalyzeCompile

/-!
# Analysis of what has no calls
-/

namespace Bms

open Spec

section

variable {n : Nat} {af : Key → Level → AM Unit}

theorem literal_state {k : Key} {cv : Option Value} {lit : Option Lit} {s s' : ASt} {e' : AExpr}
    (h : Ana.literal k cv lit s = .ok e' s') : s' = s := by
  cases cv with
  | some v =>
    simp only [Ana.literal, AM.bind_ok, AM.assert_ok, AM.pure_ok] at h
    obtain ⟨_, _, ⟨_, rfl⟩, _, rfl⟩ := h
    rfl
  | none => exact (literal_ok h).1.symm

theorem idValue_state {k : Key} {ref : Option Lookup} {ctx : ECtx} {s s' : ASt} {cv : Option Value}
    (h : Ana.idValue k ref ctx s = .ok cv s') : s' = s := by
  unfold Ana.idValue at h
  cases ref with
  | none => simp [AM.throws_ok] at h
  | some r =>
    cases r with
    | builtin f => simp [AM.throws_ok] at h
    | param p =>
      simp only [AM.ite_fail_ok, AM.bind_ok, AM.read_ok] at h
      obtain ⟨_, _, _, ⟨rfl, rfl⟩, h⟩ := h
      cases hd : s.decl p with
      | none => simp [hd, AM.throws_ok, AM.ub_ok] at h
      | some d => simp only [hd, AM.pure_ok] at h; exact h.2.symm
    | node j =>
      simp only [AM.bind_ok, AM.read_ok] at h
      obtain ⟨_, _, ⟨rfl, rfl⟩, h⟩ := h
      cases hf : s.fns j with
      | some f => simp [hf, AM.fail_ok] at h
      | none =>
        simp only [hf] at h
        cases hd : s.decl j with
        | none => simp [hd, AM.throws_ok] at h
        | some d =>
          obtain ⟨kd, o⟩ := d
          cases kd <;> cases o <;>
            simp only [hd, AM.ite_fail_ok, AM.fail_ok, AM.throws_ok, AM.pure_ok, and_false] at h
          · exact h.2.2.symm
          · exact h.2.symm
          · exact h.2.2.symm

mutual

/-- Expressions without calls do not change the state. -/
theorem expr_state : (e : AExpr) → {s s' : ASt} → {level : Level} → {ctx : ECtx} → {e' : AExpr} →
    CallFree e → Ana.expr n af e level ctx s = .ok e' s' → s' = s
  | .literal k cv lit, s, s', level, ctx, e', _, hx => by
    rw [Ana.expr] at hx
    exact literal_state hx
  | .id k cv name ref g, s, s', level, ctx, e', _, hx => by
    cases cv with
    | some v =>
      simp only [Ana.expr, AM.pure_ok] at hx
      exact hx.2.symm
    | none =>
      simp only [Ana.expr, AM.bind_ok, AM.pure_ok] at hx
      obtain ⟨cv, s1, hv, _, rfl⟩ := hx
      exact idValue_state hv
  | .conversion k cv e ty, s, s', level, ctx, e', hc, hx => by
    simp only [CallFree] at hc
    simp only [Ana.expr, AM.bind_ok, AM.value_ok, AM.get_ok, AM.ite_fail_ok, AM.pure_ok] at hx
    obtain ⟨e1, s1, h1, ty1, s2, h2, v, _, ⟨hv, rfl⟩, o, _, ⟨ho, rfl⟩, t, _, ⟨rfl, rfl⟩, _, w, s3, hf,
      _, rfl⟩ := hx
    obtain ⟨-, rfl⟩ := AM.foldResult_ok hf
    have a := expr_state e hc.1 h1
    subst a
    exact type_state ty hc.2 h2
  | .ite k cv l c r, s, s', level, ctx, e', hc, hx => by
    simp only [CallFree] at hc
    simp only [Ana.expr, AM.bind_ok, AM.deref_ok, AM.ite_fail_ok, AM.checked_ok] at hx
    obtain ⟨c1, s1, h1, vc, _, ⟨hvc, rfl⟩, hb, hx⟩ := hx
    have a := expr_state c hc.2.1 h1
    subst a
    obtain ⟨c2, c3, l1, s3, h2, r1, s4, h3, vl, vr, t, hy⟩ : ∃ c2 c3 l1 s3,
        Ana.expr n af l level c2 s1 = .ok l1 s3 ∧ ∃ r1 s4,
        Ana.expr n af r level c3 s3 = .ok r1 s4 ∧
        ∃ (vl vr : Value) (t : CType),
        (match evalIfV vl vc vr with
          | .ok w => pure (.ite k (some w) l1 c1 r1)
          | .err _ =>
            if ctx = .constant then AM.throws
            else pure (.ite k (some (Value.unknownOf t)) l1 c1 r1)
          | .throws => AM.throws
          | .ub => AM.ub : AM AExpr) s4 = .ok e' s' := by
      by_cases hcc : ctx = .constant
      · rw [if_pos hcc] at hx
        simp only [ AM.bind_ok, AM.deref_ok, AM.assert_ok, AM.get_ok, AM.checked_ok,
          AM.pure_ok] at hx
        obtain ⟨_, _, ⟨_, rfl⟩, b, _, ⟨_, rfl⟩, _, _, ⟨rfl, rfl⟩, l1, s3, h2, r1, s4, h3, vl, _, ⟨hvl, rfl⟩,
          vr, _, ⟨hvr, rfl⟩, t, _, ⟨ht, rfl⟩, hx⟩ := hx
        refine ⟨_, _, l1, s3, h2, r1, s4, h3, vl, vr, t, ?_⟩
        exact hx
      · rw [if_neg hcc] at hx
        simp only [ AM.bind_ok, AM.deref_ok, AM.assert_ok, AM.get_ok, AM.checked_ok,
          AM.pure_ok] at hx
        obtain ⟨_, _, ⟨rfl, rfl⟩, l1, s3, h2, r1, s4, h3, vl, _, ⟨hvl, rfl⟩,
          vr, _, ⟨hvr, rfl⟩, t, _, ⟨ht, rfl⟩, hx⟩ := hx
        refine ⟨_, _, l1, s3, h2, r1, s4, h3, vl, vr, t, ?_⟩
        exact hx
    have b := expr_state l hc.1 h2
    subst b
    have d := expr_state r hc.2.2 h3
    subst d
    cases hev : evalIfV vl vc vr with
    | ok w =>
      simp only [hev, AM.pure_ok] at hy
      exact hy.2.symm
    | err e =>
      simp only [hev] at hy
      split at hy
      · simp [AM.throws_ok] at hy
      · simp only [AM.pure_ok] at hy
        exact hy.2.symm
    | throws => simp [hev, AM.throws_ok] at hy
    | ub => simp [hev, AM.ub_ok] at hy
  | .binary k cv op l r, s, s', level, ctx, e', hc, hx => by
    simp only [CallFree] at hc
    simp only [Ana.expr, AM.bind_ok, AM.assert_ok, AM.deref_ok, AM.checked_ok, AM.pure_ok] at hx
    obtain ⟨l1, s1, h1, _, _, ⟨_, rfl⟩, ctx', s2, hctx, r1, s3, h2, _, _, ⟨_, rfl⟩, vl, _, ⟨hvl, rfl⟩, vr, _,
      ⟨hvr, rfl⟩, t, _, ⟨ht, rfl⟩, w, s4, hf, _, rfl⟩ := hx
    obtain ⟨rfl, -⟩ := rightContext_ok hctx
    obtain ⟨-, rfl⟩ := AM.foldResult_ok hf
    have a := expr_state l hc.1 h1
    subst a
    exact expr_state r hc.2 h2
  | .prefix k cv op e, s, s', level, ctx, e', hc, hx => by
    simp only [CallFree] at hc
    simp only [Ana.expr, AM.bind_ok, AM.value_ok, AM.checked_ok, AM.pure_ok] at hx
    obtain ⟨e1, s1, h1, v, _, ⟨hv, rfl⟩, t, _, ⟨ht, rfl⟩, w, s2, hf, _, rfl⟩ := hx
    obtain ⟨-, rfl⟩ := AM.foldResult_ok hf
    exact expr_state e hc h1
  | .call .., _, _, _, _, _, hc, _ => by simp only [CallFree] at hc

/-- Types without calls do not change the state. -/
theorem type_state : (ty : AType) → {s s' : ASt} → {ty' : AType} → CallFreeT ty →
    Ana.type n af ty s = .ok ty' s' → s' = s
  | .base k cv b, s, s', ty', _, hx => by
    cases cv <;> simp only [Ana.type, AM.pure_ok] at hx <;> exact hx.2.symm
  | .uint k cv c w, s, s', ty', hc, hx => by
    simp only [CallFreeT] at hc
    cases cv with
    | some v => simp only [Ana.type, AM.pure_ok] at hx; exact hx.2.symm
    | none =>
      simp only [Ana.type, AM.bind_ok, AM.value_ok, AM.ite_fail_ok, AM.get_ok, AM.pure_ok] at hx
      obtain ⟨w1, s1, h1, v, _, ⟨_, rfl⟩, _, x, _, ⟨_, rfl⟩, _, t, _, ⟨_, rfl⟩, _, rfl⟩ := hx
      exact expr_state w hc h1

end

/-- Types that have not been analyzed before stand for a type afterwards. -/
theorem type_sig {ty ty' : AType} {s s' : ASt} (hr : ty.cv = none)
    (hx : Ana.type n af ty s = .ok ty' s') : ∃ t, SigT ty' t := by
  cases ty with
  | base k cv b =>
    simp only [AType.cv] at hr
    subst hr
    simp only [Ana.type, AM.pure_ok] at hx
    obtain ⟨rfl, -⟩ := hx
    exact ⟨_, sigT_base k b⟩
  | uint k cv c w =>
    simp only [AType.cv] at hr
    subst hr
    simp only [Ana.type, AM.bind_ok, AM.value_ok, AM.ite_fail_ok, AM.get_ok, AM.pure_ok] at hx
    obtain ⟨w1, s1, h1, v, _, ⟨_, rfl⟩, _, x, _, ⟨_, rfl⟩, _, t, _, ⟨ht, rfl⟩, rfl, _⟩ := hx
    exact ⟨t, sigT_uint ht⟩

end

end Bms
