import Verif.Lemmas.BlameExpr
import Verif.Lemmas.AnalyzeEnds
import Verif.Lemmas.BlameCompile

/-!
# Errors in statements, functions and programs
-/

namespace Bms

open Spec

section

variable {ds : List ADecl} {N : Nat} {n : Nat} {af : Key → Level → AM Unit}

/-! ## Declarations -/

theorem declaredType_bl (hg : BGiven ds N) (haf : AfBl ds N af) {t0 t : AType} {s : ASt} (ht : SimT ds N (Live s) t0 t) (h : BInv ds N s) :
    Bl (ErrAt ds N (BreaksT ds t0)) (fun r s' => BInv ds N s' ∧ Lives s s' ∧ SimT ds N (Live s') t0 r.1 ∧ Stands t0 r.2)
      (Ana.declaredType n af t) s := by
  unfold Ana.declaredType
  refine (typeA_bl hg haf t0 t s ht h).bind fun t' s' h' => .value_bind fun v hv => .pure ⟨h'.1, h'.2.1, h'.2.2, h'.2.2.stands hv⟩

theorem constA_bl (hg : BGiven ds N) (haf : AfBl ds N af) {k0 k : Key} (hk : k % N = k0) {ty0 ty : Option AType} {e0 e : AExpr} {s : ASt}
    (ht : SameO (SimT ds N (Live s)) ty0 ty) (he : SimE ds N (Live s) true e0 e) (hb : ∃ d ∈ ds, ⟨false, k0, ty0, some e0⟩ ∈ boundD d)
    (h : BInv ds N s) :
    Bl (ErrAt ds N (BreaksC ds k0 ty0 e0)) (fun r s' => BInv ds N s' ∧ Lives s s' ∧ VarType ds k0 r.1.type ∧
        SameO (SimT ds N (Live s')) ty0 r.2.1 ∧ SimE ds N (Live s') true e0 r.2.2)
      (Ana.const_ n af k ty e) s := by
  obtain ⟨d, hd, hb⟩ := hb
  unfold Ana.const_
  cases ht with
  | none =>
    refine ((exprA_bl hg haf e0 e true .forConst .constant s he (fun _ => rfl) h).mono (fun _ h => h.mono fun _ _ => .init) fun _ _ h => h).bind
      fun e' s1 h' => ?_
    obtain ⟨i1, l1, he'⟩ := h'
    refine .deref_bind fun v hv => .assert_bind fun _ => .pure ⟨i1, l1, ?_, .none, he'⟩
    exact (varType_follows ds).found d hd _ hb rfl e0 rfl _ (he'.has hv)
  | @some t0 t ht =>
    refine ((declaredType_bl hg haf ht h).mono (fun _ h => h.mono fun _ _ => .type rfl) fun _ _ h => h).bind fun r s1 h' => ?_
    obtain ⟨i1, l1, ht', hst⟩ := h'
    obtain ⟨t', u⟩ := r
    refine ((exprA_bl hg haf e0 e true .forConst .constant s1 (SimE.mono l1 _ _ he) (fun _ => rfl) i1).mono
      (fun _ h => h.mono fun _ _ => .init) fun _ _ h => h).bind fun e' s2 h' => ?_
    obtain ⟨i2, l2, he'⟩ := h'
    refine .deref_bind fun v hv => .ite (fun hc => .fail (.inl ?_)) fun _ => .lift_bind (fun x hx => .inl ?_) fun w hw =>
      .pure ⟨i2, l1.trans l2, ?_, .some (SimT.mono l2 _ _ ht'), he'⟩
    · show BreaksC ds k0 _ _ _ (k % N)
      rw [hk]
      exact .incompatible rfl (he'.has hv) hst (by simpa using hc)
    · show BreaksC ds k0 _ _ _ (k % N)
      rw [hk]
      exact .value rfl (he'.has hv) hst hx
    · rw [(valueConvertTo_known hw).1]
      exact (varType_follows ds).given d hd _ hb t0 rfl _ hst

/-- Literals that are not `true` after analysis are not `true`. -/
theorem SimE.notTrue {L : Key → Prop} {e0 e : AExpr} {c : Bool} (h : SimE ds N L c e0 e) {v : Value} (hv : e.cv = some v) {b : Bool}
    (hb : (v.asBool : Outcome AErr Bool) = .ok b) (hn : b = false) : ∀ k cv, e0 ≠ .literal k cv (some .true_) := by
  rintro k cv rfl
  cases h with | literal _ h2 =>
  rcases h2 v hv with ⟨-, rfl⟩ | ⟨h, -⟩ | ⟨_, _, h, -⟩
  · subst hn
    cases hb
  · cases h
  · cases h

/-- The rules for variables, as for statements. -/
def BreaksL (ds : List ADecl) (k : Key) (ty : Option AType) (e : Option AExpr) (code : ACode) (j : Key) : Prop :=
  ∀ ret loop cv name, BreaksS ds ret loop (.let_ k cv name ty e) code j

theorem letA_bl (hg : BGiven ds N) (haf : AfBl ds N af) {k0 k : Key} (hk : k % N = k0) {ty0 ty : Option AType} {e0 e : Option AExpr}
    {s : ASt} {level : Level}
    (ht : SameO (SimT ds N (Live s)) ty0 ty) (he : SameO (SimE ds N (Live s) false) e0 e) (hb : ∃ d ∈ ds, ⟨true, k0, ty0, e0⟩ ∈ boundD d)
    (h : BInv ds N s) :
    Bl (ErrAt ds N (BreaksL ds k0 ty0 e0)) (fun r s' => BInv ds N s' ∧ Lives s s' ∧ VarType ds k0 r.1 ∧
        SameO (SimT ds N (Live s')) ty0 r.2.1 ∧ SameO (SimE ds N (Live s') false) e0 r.2.2)
      (Ana.let_ n af k ty e level) s := by
  obtain ⟨d, hd, hb⟩ := hb
  unfold Ana.let_
  cases ht with
  | none =>
    cases he with
    | none => exact .throws
    | @some e0 e he =>
      refine ((exprA_bl hg haf e0 e false level .normal s he (fun h => by cases h) h).mono
        (fun _ h => h.mono fun _ _ hb _ _ _ _ => .letInit hb) fun _ _ h => h).bind fun e' s1 h' => ?_
      obtain ⟨i1, l1, he'⟩ := h'
      refine .value_bind fun v hv => .pure ⟨i1, l1, ?_, .none, .some he'⟩
      exact (varType_follows ds).found d hd _ hb rfl e0 rfl _ (he'.has hv)
  | @some t0 t ht =>
    cases he with
    | none =>
      refine ((declaredType_bl hg haf ht h).mono (fun _ h => h.mono fun _ _ hb _ _ _ _ => .letType hb) fun _ _ h => h).bind fun r s1 h' => ?_
      obtain ⟨i1, l1, ht', hst⟩ := h'
      obtain ⟨t', u⟩ := r
      exact .pure ⟨i1, l1, (varType_follows ds).given d hd _ hb t0 rfl _ hst, .some ht', .none⟩
    | @some e0 e he =>
      refine ((declaredType_bl hg haf ht h).mono (fun _ h => h.mono fun _ _ hb _ _ _ _ => .letType hb) fun _ _ h => h).bind fun r s1 h' => ?_
      obtain ⟨i1, l1, ht', hst⟩ := h'
      obtain ⟨t', u⟩ := r
      refine ((exprA_bl hg haf e0 e false level .normal s1 (SimE.mono l1 _ _ he) (fun h => by cases h) i1).mono
        (fun _ h => h.mono fun _ _ hb _ _ _ _ => .letInit hb) fun _ _ h => h).bind fun e' s2 h' => ?_
      obtain ⟨i2, l2, he'⟩ := h'
      refine .deref_bind fun v hv => .ite (fun hc => .fail (.inl fun ret loop cv name => ?_)) fun _ =>
        .pure ⟨i2, l1.trans l2, (varType_follows ds).given d hd _ hb t0 rfl _ hst, .some (SimT.mono l2 _ _ ht'), .some he'⟩
      show BreaksS ds _ _ _ _ (k % N)
      rw [hk]
      exact .letValue (he'.has hv) hst (by simpa using hc)

theorem staticAssertA_bl (hg : BGiven ds N) (haf : AfBl ds N af) {k0 k : Key} (hk : k % N = k0) {e0 e : AExpr} {s : ASt}
    (he : SimE ds N (Live s) true e0 e) (h : BInv ds N s) :
    Bl (ErrAt ds N (BreaksA ds k0 e0)) (fun r s' => BInv ds N s' ∧ Lives s s' ∧ SimE ds N (Live s') true e0 r.2)
      (Ana.staticAssert n af k e) s := by
  unfold Ana.staticAssert
  refine ((exprA_bl hg haf e0 e true .forConst .constant s he (fun _ => rfl) h).mono (fun _ h => h.mono fun _ _ => .inner) fun _ _ h => h).bind
    fun e' s1 h' => ?_
  obtain ⟨i1, l1, he'⟩ := h'
  refine .assert_bind fun _ => .deref_bind fun v hv => .ite (fun hc => .fail (.inl ?_)) fun hb => .get_bind (asBool_noErr _) fun b hb' =>
    .ite (fun hn => .fail (.inl ?_)) fun _ => .pure ⟨i1, l1, he'⟩
  · show BreaksA ds k0 _ _ (k % N)
    rw [hk]
    exact .noBool (he'.has hv) hc
  · show BreaksA ds k0 _ _ (k % N)
    rw [hk]
    have := he'.has hv
    rw [show v.type = .bool by simpa using hb] at this
    exact .fails this (he'.notTrue hv hb' (by simpa using hn))

theorem conditionA_bl (hg : BGiven ds N) (haf : AfBl ds N af) {k0 k : Key} (hk : k % N = k0) {e0 e : AExpr} {s : ASt} {level : Level}
    (he : SimE ds N (Live s) false e0 e) (h : BInv ds N s) :
    Bl (ErrAt ds N (BreaksB ds k0 e0)) (fun r s' => BInv ds N s' ∧ Lives s s' ∧ SimE ds N (Live s') false e0 r)
      (Ana.condition n af k e level) s := by
  unfold Ana.condition
  refine ((exprA_bl hg haf e0 e false level .normal s he (fun h => by cases h) h).mono (fun _ h => h.mono fun _ _ => .inner) fun _ _ h => h).bind
    fun e' s1 h' => ?_
  obtain ⟨i1, l1, he'⟩ := h'
  refine .value_bind fun v hv => .ite (fun hc => .fail (.inl ?_)) fun _ => .pure ⟨i1, l1, he'⟩
  show BreaksB ds k0 _ _ (k % N)
  rw [hk]
  exact .noBool (he'.has hv) hc

/-! ## Statements -/

mutual

theorem stmtA_bl (hg : BGiven ds N) (haf : AfBl ds N af) {ret0 : AType} {ret : CType} (hret : Stands ret0 ret) {level : Level} :
    (s0 : AStmt) → (loop : Bool) → (st : AStmt) → (s : ASt) → SimS ds N (Live s) s0 st → (∀ b ∈ boundS s0, ∃ d ∈ ds, b ∈ boundD d) →
    BInv ds N s → Bl (ErrAt ds N (BreaksS ds ret0 loop s0)) (fun r s' => BInv ds N s' ∧ Lives s s' ∧ SimS ds N (Live s') s0 r)
      (Ana.stmt n af ret level loop st) s
  | .const_ k0 cv0 name ty0 e0, loop, st, s, hs, hb, h => by
    cases hs with | @const_ _ k _ cv _ _ ty _ e h1 h2 h3 h4 =>
    have hbd := hb ⟨false, k0, ty0, some e0⟩ (by simp [boundS])
    simp only [Ana.stmt]
    cases cv with
    | some v => exact .pure ⟨h, fun _ h => h, .const_ h1 h2 h3 h4⟩
    | none =>
      refine ((constA_bl hg haf h1 h2 h3 hbd h).mono (fun _ h => h.mono fun _ _ => .const_) fun _ _ h => h).bind fun r s1 h' => ?_
      obtain ⟨i1, l1, hv, ht, he⟩ := h'
      obtain ⟨v, ty', e'⟩ := r
      refine .modify_bind (.pure ⟨i1.setDecl ?_, l1, .const_ h1 ht he fun w hw => by cases hw; exact hv⟩)
      rw [h1]
      obtain ⟨d, hd, hbd⟩ := hbd
      exact ⟨⟨d, hd, _, hbd, rfl, rfl⟩, fun w hw => by cases hw; exact hv⟩
  | .let_ k0 cv0 name ty0 e0, loop, st, s, hs, hb, h => by
    cases hs with | @let_ _ k _ cv _ _ ty _ e h1 h2 h3 h4 =>
    have hbd := hb ⟨true, k0, ty0, e0⟩ (by simp [boundS])
    simp only [Ana.stmt]
    refine ((letA_bl hg haf h1 h2 h3 hbd h).mono (fun _ h => h.mono fun _ _ hb => hb _ _ _ _) fun _ _ h => h).bind fun r s1 h' => ?_
    obtain ⟨i1, l1, hv, ht, he⟩ := h'
    obtain ⟨v, ty', e'⟩ := r
    refine .modify_bind (.pure ⟨i1.setDecl ?_, l1, .let_ h1 ht he fun w hw => by cases hw; exact hv⟩)
    rw [h1]
    obtain ⟨d, hd, hbd⟩ := hbd
    exact ⟨⟨d, hd, _, hbd, rfl, rfl⟩, fun w hw => by cases hw; exact hv⟩
  | .staticAssert k0 cv0 e0, loop, st, s, hs, hb, h => by
    cases hs with | @staticAssert _ k _ cv _ e h1 h2 =>
    simp only [Ana.stmt]
    cases cv with
    | some v => exact .assert_bind fun _ => .pure ⟨h, fun _ h => h, .staticAssert h1 h2⟩
    | none =>
      refine ((staticAssertA_bl hg haf h1 h2 h).mono (fun _ h => h.mono fun _ _ => .staticAssert) fun _ _ h => h).bind fun r s1 h' => ?_
      exact .pure ⟨h'.1, h'.2.1, .staticAssert h1 h'.2.2⟩
  | .ifThen k0 cv0 b0 t0, loop, st, s, hs, hb, h => by
    cases hs with | @ifThen _ k _ cv _ b _ t h1 h2 h3 =>
    simp only [Ana.stmt]
    refine ((conditionA_bl hg haf h1 h2 h).mono (fun _ h => h.mono fun _ _ => .ifThenCond) fun _ _ h => h).bind fun b' s1 h' => ?_
    obtain ⟨i1, l1, hb'⟩ := h'
    refine ((stmtA_bl hg haf hret t0 loop t s1 (SimS.mono l1 _ _ h3) (by simpa only [boundS] using hb) i1).mono
      (fun _ h => h.mono fun _ _ => .ifThen) fun _ _ h => h).bind fun t' s2 h' => ?_
    obtain ⟨i2, l2, ht⟩ := h'
    exact .pure ⟨i2, l1.trans l2, .ifThen h1 (SimE.mono l2 _ _ hb') ht⟩
  | .ifElse k0 cv0 b0 t0 e0, loop, st, s, hs, hb, h => by
    cases hs with | @ifElse _ k _ cv _ b _ t _ e h1 h2 h3 h4 =>
    simp only [Ana.stmt]
    simp only [boundS, List.mem_append] at hb
    refine ((conditionA_bl hg haf h1 h2 h).mono (fun _ h => h.mono fun _ _ => .ifElseCond) fun _ _ h => h).bind fun b' s1 h' => ?_
    obtain ⟨i1, l1, hb'⟩ := h'
    refine ((stmtA_bl hg haf hret t0 loop t s1 (SimS.mono l1 _ _ h3) (fun b h => hb b (.inl h)) i1).mono
      (fun _ h => h.mono fun _ _ => .ifElseThen) fun _ _ h => h).bind fun t' s2 h' => ?_
    obtain ⟨i2, l2, ht⟩ := h'
    refine ((stmtA_bl hg haf hret e0 loop e s2 (SimS.mono (l1.trans l2) _ _ h4) (fun b h => hb b (.inr h)) i2).mono
      (fun _ h => h.mono fun _ _ => .ifElseElse) fun _ _ h => h).bind fun e' s3 h' => ?_
    obtain ⟨i3, l3, he⟩ := h'
    exact .pure ⟨i3, l1.trans (l2.trans l3), .ifElse h1 (SimE.mono (l2.trans l3) _ _ hb') (SimS.mono l3 _ _ ht) he⟩
  | .while_ k0 cv0 b0 t0, loop, st, s, hs, hb, h => by
    cases hs with | @while_ _ k _ cv _ b _ t h1 h2 h3 =>
    simp only [Ana.stmt]
    refine ((conditionA_bl hg haf h1 h2 h).mono (fun _ h => h.mono fun _ _ => .whileCond) fun _ _ h => h).bind fun b' s1 h' => ?_
    obtain ⟨i1, l1, hb'⟩ := h'
    refine ((stmtA_bl hg haf hret t0 true t s1 (SimS.mono l1 _ _ h3) (by simpa only [boundS] using hb) i1).mono
      (fun _ h => h.mono fun _ _ => .while_) fun _ _ h => h).bind fun t' s2 h' => ?_
    obtain ⟨i2, l2, ht⟩ := h'
    exact .pure ⟨i2, l1.trans l2, .while_ h1 (SimE.mono l2 _ _ hb') ht⟩
  | .control k0 cv0 c e0, loop, st, s, hs, hb, h => by
    cases hs with | @control _ k _ cv _ _ e h1 h2 =>
    simp only [Ana.stmt]
    have hF : ∀ {code : ACode}, BreaksS ds ret0 loop (.control k0 cv0 c e0) code k0 →
        ErrAt ds N (BreaksS ds ret0 loop (.control k0 cv0 c e0)) ⟨code, k⟩ := by
      intro code hb
      refine .inl ?_
      show BreaksS ds ret0 loop _ _ (k % N)
      rw [h1]
      exact hb
    cases c with
    | break_ =>
      cases loop with
      | true => exact .pure ⟨h, fun _ h => h, .control h1 h2⟩
      | false => exact .fail (hF .break_)
    | continue_ =>
      cases loop with
      | true => exact .pure ⟨h, fun _ h => h, .control h1 h2⟩
      | false => exact .fail (hF .continue_)
    | return_ =>
      cases h2 with
      | none => exact .ite (fun hc => .fail (hF (.noResult hret hc))) fun _ => .pure ⟨h, fun _ h => h, .control h1 .none⟩
      | @some e0 e h2 =>
        refine ((exprA_bl hg haf e0 e false level .normal s h2 (fun h => by cases h) h).mono
          (fun _ h => h.mono fun _ _ => .resultInner) fun _ _ h => h).bind fun e' s1 h' => ?_
        obtain ⟨i1, l1, he⟩ := h'
        refine .value_bind fun v hv => .ite (fun hc => .fail (hF (.result (he.has hv) hret (by simpa using hc)))) fun _ =>
          .fold_bind (fun _ hf => by cases hf) fun w _ => .pure ⟨i1, l1, .control h1 (.some he)⟩
  | .assign k0 cv0 name r0 e0, loop, st, s, hs, hb, h => by
    cases hs with | @assign _ k _ cv _ _ r _ e h1 h2 h3 =>
    simp only [Ana.stmt]
    have hF : ∀ {code : ACode}, BreaksS ds ret0 loop (.assign k0 cv0 name r0 e0) code k0 →
        ErrAt ds N (BreaksS ds ret0 loop (.assign k0 cv0 name r0 e0)) ⟨code, k⟩ := by
      intro code hb
      refine .inl ?_
      show BreaksS ds ret0 loop _ _ (k % N)
      rw [h1]
      exact hb
    have h2' := h2
    cases h2 with
    | none => exact .throws
    | builtin => exact .throws
    | param hp => exact .fail (hF .assignParam)
    | @node j j0 hj hl =>
      refine .read_bind ?_
      cases hfn : s.fns j with
      | some f =>
        refine .fail (hF (.assignFn ?_))
        have := h.isFn hfn
        rw [hj] at this
        exact this
      | none =>
        simp only
        cases hd : s.decl j with
        | none => exact .throws
        | some d =>
          have hdb := h.decls j d hd
          rw [hj] at hdb
          obtain ⟨kind, cvd⟩ := d
          cases kind with
          | param => exact .throws
          | width => exact .throws
          | const_ => exact .fail (hF (.assignConst hdb.1))
          | let_ =>
            refine ((exprA_bl hg haf e0 e false level .normal s h3 (fun h => by cases h) h).mono
              (fun _ h => h.mono fun _ _ => .assigned) fun _ _ h => h).bind fun e' s1 h' => ?_
            obtain ⟨i1, l1, he⟩ := h'
            refine .value_bind fun v hv => .read_bind (.value_bind fun d hd1 => .value_bind fun u hu => ?_)
            have hu' : VarType ds j0 u.type := by
              have := i1.decls j d hd1
              rw [hj] at this
              obtain ⟨kind, cvd⟩ := d
              simp only at hu
              subst hu
              cases kind with
              | let_ => exact this.2 u rfl
              | const_ => exact this.2 u rfl
              | param => exact this u rfl
              | width => exact (this u rfl).1
            refine .ite (fun hc => .fail (hF (.assign hdb.1 (he.has hv) hu' (by simpa using hc)))) fun _ =>
              .fold_bind (fun _ hf => by cases hf) fun w _ => .pure ⟨i1, l1, .assign h1 (h2'.mono l1) he⟩
  | .block k0 cv0 ss0, loop, st, s, hs, hb, h => by
    cases hs with | @block _ k _ cv _ ss h1 =>
    simp only [Ana.stmt]
    refine ((stmtsA_bl hg haf hret ss0 loop ss s h1 (by simpa only [boundS] using hb) h).mono
      (fun _ h => h.mono fun _ _ ⟨a, ha, hb⟩ => .block ha hb) fun _ _ h => h).bind fun ss' s1 h' => ?_
    exact .pure ⟨h'.1, h'.2.1, .block h'.2.2⟩
  | .call e0, loop, st, s, hs, hb, h => by
    cases hs with | @call _ e h1 =>
    simp only [Ana.stmt]
    refine ((exprA_bl hg haf e0 e false level .normal s h1 (fun h => by cases h) h).mono
      (fun _ h => h.mono fun _ _ => .call) fun _ _ h => h).bind fun e' s1 h' => ?_
    exact .pure ⟨h'.1, h'.2.1, .call h'.2.2⟩

theorem stmtsA_bl (hg : BGiven ds N) (haf : AfBl ds N af) {ret0 : AType} {ret : CType} (hret : Stands ret0 ret) {level : Level} :
    (ss0 : List AStmt) → (loop : Bool) → (ss : List AStmt) → (s : ASt) → SimSs ds N (Live s) ss0 ss →
    (∀ b ∈ boundSs ss0, ∃ d ∈ ds, b ∈ boundD d) →
    BInv ds N s → Bl (ErrAt ds N (fun code k => ∃ s0 ∈ ss0, BreaksS ds ret0 loop s0 code k))
      (fun r s' => BInv ds N s' ∧ Lives s s' ∧ SimSs ds N (Live s') ss0 r) (Ana.stmts n af ret level loop ss) s
  | [], loop, st, s, hs, hb, h => by
    cases hs with | nil =>
    simp only [Ana.stmts]
    exact .pure ⟨h, fun _ h => h, .nil⟩
  | s0 :: ss0, loop, st, s, hs, hb, h => by
    cases hs with | @cons _ a _ as h1 h2 =>
    simp only [Ana.stmts]
    simp only [boundSs, List.mem_append] at hb
    refine ((stmtA_bl hg haf hret s0 loop a s h1 (fun b h => hb b (.inl h)) h).mono
      (fun _ h => h.mono fun _ _ hb => ⟨s0, by simp, hb⟩) fun _ _ h => h).bind fun a' s1 h' => ?_
    obtain ⟨i1, l1, ha⟩ := h'
    refine ((stmtsA_bl hg haf hret ss0 loop as s1 (SimSs.mono l1 _ _ h2) (fun b h => hb b (.inr h)) i1).mono
      (fun _ h => h.mono fun _ _ ⟨a, ha, hb⟩ => ⟨a, by simp [ha], hb⟩) fun _ _ h => h).bind fun as' s2 h' => ?_
    exact .pure ⟨h'.1, l1.trans h'.2.1, .cons (SimS.mono h'.2.1 _ _ ha) h'.2.2⟩

end

/-! ## Functions -/

theorem updateFn_bl {β : Type} {E : AErr → Prop} {Q : β → ASt → Prop} {k : Key} {g : AFn → AFn} {h : Unit → AM β} {s : ASt}
    (hx : ∀ f, s.fns k = some f → Bl E Q (h ()) (s.setFn k (g f))) : Bl E Q (Ana.updateFn k g >>= h) s := by
  unfold Ana.updateFn
  rw [bind_assoc]
  refine .read_bind ?_
  rw [bind_assoc]
  exact .value_bind fun f hf => .modify_bind (hx f hf)

theorem updateFn_end {E : AErr → Prop} {Q : Unit → ASt → Prop} {k : Key} {g : AFn → AFn} {s : ASt}
    (hx : ∀ f, s.fns k = some f → Q () (s.setFn k (g f))) : Bl E Q (Ana.updateFn k g) s := by
  unfold Ana.updateFn
  exact .read_bind (.value_bind fun f hf => .modify (hx f hf))

/-- A function that is not generic, or an instance. -/
structure Plain (ds : List ADecl) (N : Nat) (k : Key) (f0 : AFn) : Prop where
  mem : .function f0 ∈ ds
  mod : k % N = f0.k
  generic : ¬ (k < N ∧ f0.generic = true)

theorem BInv.update (hg : BGiven ds N) {s : ASt} (hi : BInv ds N s) {k : Key} {f0 : AFn} (hp : Plain ds N k f0) {f f' : AFn}
    (hf : s.fns k = some f) (h1 : f'.k = f.k) (h2 : f'.generic = f.generic)
    (h3 : SimF ds N (Live s) f0 f → SimF ds N (Live s) f0 f') : BInv ds N (s.setFn k f') := by
  obtain ⟨f1, hf1⟩ := hi.fns k f hf
  have he : f1 = f0 := hg.unique hf1.mem hp.mem (by rw [← hf1.mod, hp.mod])
  subst he
  refine hi.setFn (f0 := f1) ⟨hp.mem, by rw [h1]; exact hf1.key, (h3 hf1.sim).mono lives_setFn, by rw [h2]; exact hf1.generic, ?_⟩
  rw [h2]
  intro hgen
  exact absurd (hf1.generic.1 hgen) hp.generic

theorem paramsA_bl (hg : BGiven ds N) (haf : AfBl ds N af) {k : Key} {f0 : AFn} (hp : Plain ds N k f0) :
    (ps0 : List AParam) → (ps before0 before : List AParam) → (s : ASt) → f0.params = before0 ++ ps0 →
    List.Forall₂ (SimP ds N (Live s)) before0 before → List.Forall₂ (SimP ds N (Live s)) ps0 ps → BInv ds N s →
    Bl (ErrAt ds N (BreaksF ds f0)) (fun _ s' => BInv ds N s' ∧ Lives s s') (Ana.params n af k before ps) s
  | [], ps, before0, before, s, he, hb, hps, h => by
    cases hps
    simp only [Ana.params]
    exact .pure ⟨h, fun _ h => h⟩
  | p0 :: ps0, ps, before0, before, s, he, hb, hps, h => by
    cases hps with | @cons _ p _ ps hp1 hps =>
    have hmem : p0 ∈ f0.params := by rw [he]; simp
    simp only [Ana.params]
    refine ((typeA_bl hg haf p0.type p.type s hp1.2 h).mono (fun _ h => h.mono fun _ _ => .param hmem) fun _ _ h => h).bind fun ty s1 h' => ?_
    obtain ⟨i1, l1, ht⟩ := h'
    refine updateFn_bl fun f hf => .modify_bind ?_
    have i2 : BInv ds N (s1.setFn k { f with params := before ++ { p with type := ty } :: ps }) := by
      refine i1.update hg hp hf rfl rfl fun hs => ⟨hs.k, ?_, hs.ret, hs.reqs, hs.body, hs.cv, hs.instances⟩
      rw [he]
      exact List.rel_append (simPs_mono l1 hb) (.cons ⟨hp1.1, ht⟩ (simPs_mono l1 hps))
    have l2 : Lives s (s1.setFn k { f with params := before ++ { p with type := ty } :: ps }) := fun j hj => lives_setFn _ (l1 j hj)
    have i3 := i2.setDecl (k := p.k) (d := ⟨.param, ty.cv⟩) fun v hv => by
      rw [hp1.1]
      exact (varType_follows ds).param f0 hp.mem p0 hmem _ (ht.stands hv)
    have l3 : Lives s ((s1.setFn k { f with params := before ++ { p with type := ty } :: ps }).setDecl p.k ⟨.param, ty.cv⟩) := l2
    have l4 : Lives s1 ((s1.setFn k { f with params := before ++ { p with type := ty } :: ps }).setDecl p.k ⟨.param, ty.cv⟩) :=
      fun j hj => lives_setFn (k := k) (f := { f with params := before ++ { p with type := ty } :: ps }) j hj
    have hb' : List.Forall₂ (SimP ds N (Live ((s1.setFn k { f with params := before ++ { p with type := ty } :: ps }).setDecl p.k
        ⟨.param, ty.cv⟩))) (before0 ++ [p0]) (before ++ [{ p with type := ty }]) :=
      List.rel_append (simPs_mono l3 hb) (.cons ⟨hp1.1, SimT.mono l4 _ _ ht⟩ .nil)
    refine (paramsA_bl hg haf hp ps0 ps (before0 ++ [p0]) (before ++ [{ p with type := ty }]) _ (by rw [he]; simp)
      hb' (simPs_mono l3 hps) i3).mono (fun _ h => h) ?_
    intro _ s' h
    exact ⟨h.1, l3.trans h.2⟩

theorem requiresA_bl (hg : BGiven ds N) (haf : AfBl ds N af) {k : Key} {f0 : AFn} (hp : Plain ds N k f0) {e0 e : AExpr}
    (he0 : f0.requires_ = some e0) {s : ASt} (he : SimE ds N (Live s) true e0 e) (h : BInv ds N s) :
    Bl (ErrAt ds N (BreaksF ds f0)) (fun _ s' => BInv ds N s' ∧ Lives s s') (Ana.requires_ n af k e) s := by
  unfold Ana.requires_
  cases hcv : e.cv with
  | some v => exact .pure ⟨h, fun _ h => h⟩
  | none =>
    simp only
    refine ((exprA_bl hg haf e0 e true .forConst .constant s he (fun _ => rfl) h).mono (fun _ h => h.mono fun _ _ => .requires_ he0)
      fun _ _ h => h).bind fun e' s1 h' => ?_
    obtain ⟨i1, l1, he'⟩ := h'
    refine updateFn_bl fun f hf => .assert_bind fun _ => .deref_bind fun v hv => .ite (fun hc => .fail (.inl ?_)) fun hb =>
      .get_bind (asBool_noErr _) fun b hb' => .ite (fun hn => .fail (.inl ?_)) fun _ => .pure ⟨?_, fun j hj => lives_setFn _ (l1 j hj)⟩
    · show BreaksF ds f0 _ (e'.key % N)
      rw [he'.key]
      exact .noBool he0 (he'.has hv) hc
    · show BreaksF ds f0 _ (e'.key % N)
      rw [he'.key]
      have := he'.has hv
      rw [show v.type = .bool by simpa using hb] at this
      exact .fails he0 this (he'.notTrue hv hb' (by simpa using hn))
    · refine i1.update hg hp hf rfl rfl fun hs => ⟨hs.k, hs.params, hs.ret, ?_, hs.body, fun w hw => .inr ⟨?_, ?_⟩, hs.instances⟩
      · rw [he0]
        exact .some he'
      · rw [he0]; simp
      · have hw : e'.cv = some w := hw
        rw [hv] at hw
        cases hw
        simpa using hb

theorem compileA_bl (hg : BGiven ds N) {k : Key} {f0 : AFn} (hp : Plain ds N k f0) {s : ASt} (h : BInv ds N s) :
    Bl (ErrAt ds N (BreaksF ds f0)) (fun _ s' => BInv ds N s' ∧ Lives s s') (Ana.compile k) s := by
  unfold Ana.compile
  refine .read_bind (.value_bind fun f hf => .lift_bind (fun e he => .inl ?_) fun r _ => ?_)
  · show BreaksF ds f0 _ (k % N)
    rw [hp.mod]
    obtain ⟨f1, hf1⟩ := h.fns k f hf
    have heq : f1 = f0 := hg.unique hf1.mem hp.mem (by rw [← hf1.mod, hp.mod])
    subst heq
    have henv : ∀ j, s.env j ≠ none → IsFn ds (j % N) := by
      intro j hj
      cases hfn : s.fns j with
      | some g => exact h.isFn hfn
      | none => simp [ASt.env, hfn] at hj
    obtain ⟨j, h1, h2⟩ := Gen.load_err henv hf1.sim he
    exact .recursion h1 h2
  · obtain ⟨code, a⟩ := r
    refine .modify_bind (updateFn_end fun f hf => ?_)
    have h' : BInv ds N { s with code := code } := h.congr rfl rfl rfl
    exact ⟨h'.update hg hp hf rfl rfl fun hs => ⟨hs.k, hs.params, hs.ret, hs.reqs, hs.body, hs.cv, hs.instances⟩,
      fun j hj => lives_setFn _ hj⟩

theorem forM_bl {α : Type} {E : AErr → Prop} {x : α → AM Unit} : (l : List α) → {s : ASt} → BInv ds N s →
    (∀ a ∈ l, ∀ s, BInv ds N s → Bl E (fun _ s' => BInv ds N s' ∧ Lives s s') (x a) s) →
    Bl E (fun _ s' => BInv ds N s' ∧ Lives s s') (l.forM x) s
  | [], s, hs, _ => .pure ⟨hs, fun _ h => h⟩
  | a :: l, s, hs, h => by
    show Bl E _ (x a >>= fun _ => l.forM x) s
    exact (h a (by simp) s hs).bind fun _ s1 h1 => (forM_bl l h1.1 fun b hb => h b (by simp [hb])).mono (fun _ h => h)
      fun _ _ h2 => ⟨h2.1, h1.2.trans h2.2⟩

theorem afterSignature_bl (hg : BGiven ds N) (haf : AfBl ds N (Ana.function n)) {k : Key} {f0 : AFn} (hp : Plain ds N k f0)
    {level : Level} {f : AFn} {ret : AType} {s : ASt} (hr : SimT ds N (Live s) f0.ret ret) (hb : SimSs ds N (Live s) f0.body f.body)
    (h : BInv ds N s) :
    Bl (ErrAt ds N (BreaksF ds f0)) (fun _ s' => BInv ds N s' ∧ Lives s s') (afterSignature n k level f ret) s := by
  unfold afterSignature
  have hlast : ∀ s', BInv ds N s' → Lives s s' → Bl (ErrAt ds N (BreaksF ds f0)) (fun _ s' => BInv ds N s' ∧ Lives s s')
      (do
        Ana.updateFn k fun f => { f with cv := ret.cv, level := level }
        AM.modify fun s => { s with stack := s.stack.tail }) s' := by
    intro s' hi hl
    refine updateFn_bl fun f hf => .modify ?_
    have hu : BInv ds N (s'.setFn k { f with cv := ret.cv, level := level }) := by
      refine hi.update hg hp hf rfl rfl fun hs => ?_
      exact ⟨hs.k, hs.params, hs.ret, hs.reqs, hs.body, fun v hv => .inl (hr.stands hv), hs.instances⟩
    exact ⟨hu.congr rfl rfl rfl, fun j hj => lives_setFn (k := k) (f := { f with cv := ret.cv, level := level }) j (hl j hj)⟩
  have hcomp : ∀ s', BInv ds N s' → Lives s s' → Bl (ErrAt ds N (BreaksF ds f0)) (fun _ s' => BInv ds N s' ∧ Lives s s')
      (do
        if level = .forConst then Ana.compile k
        Ana.updateFn k fun f => { f with cv := ret.cv, level := level }
        AM.modify fun s => { s with stack := s.stack.tail }) s' := by
    intro s' hi hl
    refine .ite (fun _ => ?_) fun _ => hlast s' hi hl
    exact (compileA_bl hg hp hi).bind fun _ s1 h1 => hlast s1 h1.1 (hl.trans h1.2)
  refine updateFn_bl fun f1 hf1 => ?_
  have i1 : BInv ds N (s.setFn k { f1 with level := if f1.level = .unanalyzed then .shallow else f1.level }) :=
    h.update hg hp hf1 rfl rfl fun hs => ⟨hs.k, hs.params, hs.ret, hs.reqs, hs.body, hs.cv, hs.instances⟩
  have l1 : Lives s (s.setFn k { f1 with level := if f1.level = .unanalyzed then .shallow else f1.level }) := lives_setFn
  generalize s.setFn k { f1 with level := if f1.level = .unanalyzed then .shallow else f1.level } = s1 at i1 l1
  refine .ite (fun _ => ?_) fun _ => hcomp s1 i1 l1
  refine .get_bind (concreteType_noErr _) fun o ho => .value_bind fun t ht => ?_
  subst ht
  refine ((stmtsA_bl hg haf (hr.concrete ho) f0.body false f.body s1 (SimSs.mono l1 _ _ hb) (fun b hb => ⟨_, hp.mem, hb⟩) i1).mono
    (fun _ h => h.mono fun _ _ ⟨a, ha, hb⟩ => .body ha hb) fun _ _ h => h).bind fun body s2 h2 => ?_
  obtain ⟨i2, l2, hbody⟩ := h2
  refine updateFn_bl fun f2 hf2 => hcomp _ ?_ fun j hj => lives_setFn _ (l2 j (l1 j hj))
  exact i2.update hg hp hf2 rfl rfl fun hs => ⟨hs.k, hs.params, hs.ret, hs.reqs, hbody, hs.cv, hs.instances⟩

/-- Analysis of functions only reports errors of the program. -/
theorem functionA_bl (hg : BGiven ds N) : (n : Nat) → AfBl ds N (Ana.function n)
  | 0 => fun j level s h => by simp only [Ana.function]; exact .timeout
  | n + 1 => fun k level s h => by
    have haf := functionA_bl hg n
    rw [Ana.function]
    refine .assert_bind fun _ => .read_bind (.value_bind fun f hf => ?_)
    refine .ite (fun _ => .pure ⟨h, fun _ h => h⟩) fun _ => .ite (fun _ => ?_) fun hgen => ?_
    · exact forM_bl f.instances h fun i _ s hs => haf i.key level s hs
    · obtain ⟨f0, hf0⟩ := h.fns k f hf
      have hp : Plain ds N k f0 := ⟨hf0.mem, hf0.mod, fun hx => hgen (hf0.generic.2 hx)⟩
      refine Bl.mono (E := ErrAt ds N (BreaksF ds f0)) (P := fun _ s' => BInv ds N s' ∧ Lives s s') ?_
        (fun e he => he.elim (fun hb => .inr ⟨_, hp.mem, .function hb⟩) .inr) fun _ _ h => h
      refine .assert_bind fun _ => ?_
      refine (paramsA_bl hg haf hp f0.params f.params [] [] s rfl .nil hf0.sim.params h).bind fun _ s1 h1 => ?_
      obtain ⟨i1, l1⟩ := h1
      refine ((typeA_bl hg haf f0.ret f.ret s1 (SimT.mono l1 _ _ hf0.sim.ret) i1).mono (fun _ h => h.mono fun _ _ => .ret) fun _ _ h => h).bind
        fun ret s2 h2 => ?_
      obtain ⟨i2, l2, hr⟩ := h2
      refine updateFn_bl fun f2 hf2 => .modify_bind ?_
      have i3 : BInv ds N ({ s2.setFn k { f2 with ret := ret } with stack := k :: (s2.setFn k { f2 with ret := ret }).stack } : ASt) :=
        BInv.congr (i2.update hg hp hf2 (f' := { f2 with ret := ret }) rfl rfl fun hs =>
          ⟨hs.k, hs.params, hr, hs.reqs, hs.body, hs.cv, hs.instances⟩) rfl rfl rfl
      have l23 : Lives s2 ({ s2.setFn k { f2 with ret := ret } with stack := k :: (s2.setFn k { f2 with ret := ret }).stack } : ASt) :=
        fun j hj => lives_setFn (k := k) (f := { f2 with ret := ret }) j hj
      generalize ({ s2.setFn k { f2 with ret := ret } with stack := k :: (s2.setFn k { f2 with ret := ret }).stack } : ASt) = s3 at i3 l23
      have l3 : Lives s s3 := (l1.trans l2).trans l23
      have key : ∀ s', BInv ds N s' → Lives s3 s' → Bl (ErrAt ds N (BreaksF ds f0)) (fun _ s' => BInv ds N s' ∧ Lives s s')
          (afterSignature n k level f ret) s' := by
        intro s' hi hl
        exact (afterSignature_bl hg haf hp (SimT.mono (l23.trans hl) _ _ hr) (SimSs.mono (l3.trans hl) _ _ hf0.sim.body) hi).mono
          (fun _ h => h) fun _ _ h => ⟨h.1, (l3.trans hl).trans h.2⟩
      have hq := hf0.sim.reqs
      cases hreq : f.requires_ with
      | none => exact key s3 i3 (.refl _)
      | some e =>
        rw [hreq] at hq
        generalize hreq0 : f0.requires_ = o at hq
        cases hq with
        | @some e0 _ hq =>
          exact (requiresA_bl hg haf hp hreq0 (SimE.mono l3 _ _ hq) i3).bind fun _ s4 h4 => key s4 h4.1 h4.2

/-! ## Programs -/

theorem boundD_const {k : Key} {cv : Option Value} {name : Name} {ty : Option AType} {e : AExpr} :
    ⟨false, k, ty, some e⟩ ∈ boundD (.const_ k cv name ty e) := by simp [boundD]

theorem declA_bl (hg : BGiven ds N) {d : ADecl} (hd : d ∈ ds) {s : ASt} (h : BInv ds N s) :
    Bl (ErrAt ds N fun _ _ => False) (fun _ s' => BInv ds N s') (Ana.decl n d) s := by
  have haf := functionA_bl hg n
  have hL : ∀ j, IsFn ds j → Live s j := fun j ⟨f, hf, hj⟩ => hj ▸ h.all f hf
  have hraw := hg.raw.raw d hd
  have hlow := hg.low d hd
  have hkeys := fun k hk => hg.lt (k := k) hd hk
  cases d with
  | const_ k cv name ty e =>
    obtain ⟨rfl, h1, h2⟩ := hraw
    simp only [nodeKeys, List.mem_cons, List.mem_append] at hkeys
    simp only [Ana.decl]
    refine ((constA_bl hg haf (low_self (hkeys k (.inl rfl))) (simO_self fun t ht => ?_)
      (simE_self hL true e h2 (fun k h => hkeys k (.inr (.inr h))) hlow.2) ⟨_, hd, boundD_const⟩ h).mono
      (fun e he => ?_) fun _ _ h => h).bind fun r s1 h1 => ?_
    · subst ht
      exact simT_self hL t (h1 t rfl) (fun k h => hkeys k (.inr (.inl h))) hlow.1
    · exact he.elim (fun hb => .inr ⟨_, hd, .const_ hb⟩) .inr
    · obtain ⟨i1, l1, hv, -⟩ := h1
      refine .modify (i1.setDecl ?_)
      rw [low_self (hkeys k (.inl rfl))]
      exact ⟨⟨_, hd, _, boundD_const, rfl, rfl⟩, fun w hw => by cases hw; exact hv⟩
  | staticAssert k cv e =>
    obtain ⟨rfl, h1⟩ := hraw
    simp only [nodeKeys, List.mem_cons] at hkeys
    simp only [Ana.decl]
    refine ((staticAssertA_bl hg haf (low_self (hkeys k (.inl rfl)))
      (simE_self hL true e h1 (fun k h => hkeys k (.inr h)) hlow) h).mono (fun e he => ?_) fun _ _ h => h).bind fun r s1 h1 => .pure h1.1
    exact he.elim (fun hb => .inr ⟨_, hd, .staticAssert hb⟩) .inr
  | function f =>
    simp only [Ana.decl]
    exact (haf f.k .full s h).mono (fun _ h => h) fun _ _ h => h.1

theorem declsA_bl (hg : BGiven ds N) : (l : List ADecl) → (∀ d ∈ l, d ∈ ds) → {s : ASt} → BInv ds N s →
    Bl (ErrAt ds N fun _ _ => False) (fun _ s' => BInv ds N s') (Ana.decls n l) s
  | [], _, s, h => .pure h
  | d :: l, hl, s, h => by
    simp only [Ana.decls]
    exact (declA_bl hg (hl d (by simp)) h).bind fun _ s1 h1 => declsA_bl hg l (fun d hd => hl d (by simp [hd])) h1

/-! ## The state before analysis -/

theorem initialDecls_bl (hg : BGiven ds N) : (l : List ADecl) → (∀ d ∈ l, d ∈ ds) → (s : ASt) → DeclsBl ds N s.decl →
    DeclsBl ds N (l.foldl initStep s).decl
  | [], _, s, h => h
  | d :: l, hl, s, h => by
    refine initialDecls_bl hg l (fun d hd => hl d (by simp [hd])) (initStep s d) ?_
    have hd := hl d (by simp)
    have hraw := hg.raw.raw d hd
    cases d with
    | const_ k cv name ty e =>
      obtain ⟨rfl, -⟩ := hraw
      refine h.add ?_
      rw [low_self (hg.lt hd (by simp [nodeKeys]))]
      exact ⟨⟨_, hd, _, boundD_const, rfl, rfl⟩, fun w hw => by cases hw⟩
    | staticAssert k cv e => exact h
    | function f =>
      refine addFunction_decls (L := IsFn ds) hd (simF_self (fun _ h => h) hraw (fun k hk => hg.lt hd hk) (hg.low _ hd)) (fun p hp => ?_) h
      intro k cv c ki v nm ref ht
      have := (hraw.params p hp).1
      rw [ht] at this
      simp [RawT, RawE] at this

theorem initial_bl (hg : BGiven ds N) : BInv ds N (Ana.initial ds N) := by
  have hi : Ana.initial ds N = ds.foldl initStep
      { decl := fun _ => none, fns := fun _ => none, code := [], stack := [], next := N } := rfl
  obtain ⟨-, -, -, b4, b5, b6⟩ := initFold ds
    { decl := fun _ => none, fns := fun _ => none, code := [], stack := [], next := N } hg.raw.raw hg.raw.nodup
  have hd := initialDecls_bl hg ds (fun _ h => h)
    { decl := fun _ => none, fns := fun _ => none, code := [], stack := [], next := N } (fun j d h => by cases h)
  rw [← hi] at b4 b5 b6 hd
  have hall : ∀ f, .function f ∈ ds → Live (Ana.initial ds N) f.k := fun f hf => by
    unfold Live
    rw [b5 f hf]
    simp
  refine ⟨by rw [b4]; simp, fun j f hj => ⟨f, ?_⟩, hall, hd⟩
  rcases b6 j f hj with ⟨hf, hk⟩ | h
  · have hlt := hg.lt hf (k := f.k) (by simp [nodeKeys, Inst.keys])
    exact ⟨hf, hk, simF_self (fun j ⟨g, hg, hj⟩ => hj ▸ hall g hg) (hg.raw.raw _ hf) (fun k hk => hg.lt hf hk) (hg.low _ hf),
      by rw [← hk]; simp [hlt], fun _ => ⟨f.instances, rfl⟩⟩
  · cases h

end

end Bms
