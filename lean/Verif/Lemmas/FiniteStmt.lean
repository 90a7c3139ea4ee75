import Verif.Lemmas.FiniteExpr

/-!
# Analysis of statements ends, if analysis of calls does
-/

namespace Bms

open Spec

section

variable {ds : List ADecl} {N : Nat} {st : List Key} {K C : Key → Prop}

theorem declaredTypeF (hg : BGiven ds N) (hC : CallsEnd ds N st K C .forConst) {t0 t : AType} {s : ASt} (ht : SimT ds N (Live s) t0 t)
    (hc : ∀ j ∈ callsT t0, C j) (h : BInv ds N s) (hi : Good ds N s) (hst : s.stack = st) :
    Settles (fun _ s' => Good ds N s' ∧ Keep K s s') (fun n => Ana.declaredType n (Ana.function n) t) s := by
  unfold Ana.declaredType
  exact (typeF hg hC t0 t s ht hc h hi hst).bind fun t' s1 h' => .value_bind fun v _ => .pure h'

theorem constF (hg : BGiven ds N) (hC : CallsEnd ds N st K C .forConst) {k : Key} {ty0 ty : Option AType} {e0 e : AExpr} {s : ASt}
    (ht : SameO (SimT ds N (Live s)) ty0 ty) (he : SimE ds N (Live s) true e0 e) (hc : ∀ j ∈ callsO callsT ty0, C j)
    (hce : ∀ j ∈ callsE e0, C j) (h : BInv ds N s) (hi : Good ds N s) (hst : s.stack = st) :
    Settles (fun _ s' => Good ds N s' ∧ Keep K s s') (fun n => Ana.const_ n (Ana.function n) k ty e) s := by
  unfold Ana.const_
  have hw := fun j hj => hce j (widthCalls_sub e0 j hj)
  cases ht with
  | none =>
    refine (exprF hg hC e0 e true .forConst .constant C s he (fun _ => ⟨rfl, rfl⟩) hC hce hw h hi hst).bind fun e' s1 h' => ?_
    exact .deref_bind fun v hv => .assert_bind fun _ => .pure h'
  | @some t0 t ht =>
    refine ((declaredTypeF hg hC ht hc h hi hst).with_ fun n => declaredType_bl hg (functionA_bl hg n) ht h).bind fun r s1 h' => ?_
    obtain ⟨⟨i1, l1, -⟩, g1, k1⟩ := h'
    refine (exprF hg hC e0 e true .forConst .constant C s1 (SimE.mono l1 _ _ he) (fun _ => ⟨rfl, rfl⟩) hC hce hw i1 g1 (k1.1.trans hst)).bind
      fun e' s2 h' => ?_
    exact .deref_bind fun v hv => .ite (fun _ => .fail) fun _ => .lift_bind fun w hw => .pure ⟨h'.1, k1.trans h'.2⟩

theorem letF (hg : BGiven ds N) (hC : CallsEnd ds N st K C .forConst) {A : Key → Prop} {level : Level} (hA : CallsEnd ds N st K A level)
    {k : Key} {ty0 ty : Option AType} {e0 e : Option AExpr} {s : ASt}
    (ht : SameO (SimT ds N (Live s)) ty0 ty) (he : SameO (SimE ds N (Live s) false) e0 e) (hc : ∀ j ∈ callsO callsT ty0, C j)
    (hw : ∀ j ∈ callsO widthCallsE e0, C j) (ha : ∀ j ∈ callsO callsE e0, A j) (h : BInv ds N s) (hi : Good ds N s) (hst : s.stack = st) :
    Settles (fun _ s' => Good ds N s' ∧ Keep K s s') (fun n => Ana.let_ n (Ana.function n) k ty e level) s := by
  unfold Ana.let_
  cases ht with
  | none =>
    cases he with
    | none => exact .throws
    | @some e0 e he =>
      exact (exprF hg hC e0 e false level .normal A s he (fun h => by cases h) hA ha hw h hi hst).bind fun e' s1 h' =>
        .value_bind fun v hv => .pure h'
  | @some t0 t ht =>
    have hT := (declaredTypeF hg hC ht hc h hi hst).with_ fun n => declaredType_bl hg (functionA_bl hg n) ht h
    cases he with
    | none => exact hT.bind fun r s1 h' => .pure h'.2
    | @some e0 e he =>
      refine hT.bind fun r s1 h' => ?_
      obtain ⟨⟨i1, l1, -⟩, g1, k1⟩ := h'
      refine (exprF hg hC e0 e false level .normal A s1 (SimE.mono l1 _ _ he) (fun h => by cases h) hA ha hw i1 g1 (k1.1.trans hst)).bind
        fun e' s2 h' => ?_
      exact .deref_bind fun v hv => .ite (fun _ => .fail) fun _ => .pure ⟨h'.1, k1.trans h'.2⟩

theorem staticAssertF (hg : BGiven ds N) (hC : CallsEnd ds N st K C .forConst) {k : Key} {e0 e : AExpr} {s : ASt}
    (he : SimE ds N (Live s) true e0 e) (hc : ∀ j ∈ callsE e0, C j) (h : BInv ds N s) (hi : Good ds N s) (hst : s.stack = st) :
    Settles (fun _ s' => Good ds N s' ∧ Keep K s s') (fun n => Ana.staticAssert n (Ana.function n) k e) s := by
  unfold Ana.staticAssert
  refine (exprF hg hC e0 e true .forConst .constant C s he (fun _ => ⟨rfl, rfl⟩) hC hc (fun j hj => hc j (widthCalls_sub e0 j hj)) h hi
    hst).bind fun e' s1 h' => ?_
  exact .assert_bind fun _ => .deref_bind fun v hv => .ite (fun _ => .fail) fun _ => .get_bind fun b _ => .ite (fun _ => .fail) fun _ => .pure h'

theorem conditionF (hg : BGiven ds N) (hC : CallsEnd ds N st K C .forConst) {A : Key → Prop} {level : Level} (hA : CallsEnd ds N st K A level)
    {k : Key} {e0 e : AExpr} {s : ASt} (he : SimE ds N (Live s) false e0 e) (ha : ∀ j ∈ callsE e0, A j) (hw : ∀ j ∈ widthCallsE e0, C j)
    (h : BInv ds N s) (hi : Good ds N s) (hst : s.stack = st) :
    Settles (fun _ s' => Good ds N s' ∧ Keep K s s') (fun n => Ana.condition n (Ana.function n) k e level) s := by
  unfold Ana.condition
  exact (exprF hg hC e0 e false level .normal A s he (fun h => by cases h) hA ha hw h hi hst).bind fun e' s1 h' =>
    .value_bind fun v hv => .ite (fun _ => .fail) fun _ => .pure h'

mutual

theorem stmtF (hg : BGiven ds N) (hC : CallsEnd ds N st K C .forConst) {A : Key → Prop} {level : Level} (hA : CallsEnd ds N st K A level)
    {ret0 : AType} {ret : CType} (hret : Stands ret0 ret) :
    (s0 : AStmt) → (loop : Bool) → (sx : AStmt) → (s : ASt) → SimS ds N (Live s) s0 sx → (∀ b ∈ boundS s0, ∃ d ∈ ds, b ∈ boundD d) →
    (∀ j ∈ callsS s0, A j) → (∀ j ∈ constCallsS s0, C j) → BInv ds N s → Good ds N s → s.stack = st →
    Settles (fun _ s' => Good ds N s' ∧ Keep K s s') (fun n => Ana.stmt n (Ana.function n) ret level loop sx) s
  | .const_ k0 cv0 name ty0 e0, loop, sx, s, hs, hb, ha, hc, h, hi, hst => by
    cases hs with | @const_ _ k _ cv _ _ ty _ e h1 h2 h3 h4 =>
    simp only [constCallsS, List.mem_append] at hc
    simp only [Ana.stmt]
    cases cv with
    | some v => exact .pure ⟨hi, .refl _⟩
    | none =>
      refine (constF hg hC h2 h3 (fun j hj => hc j (.inl hj)) (fun j hj => hc j (.inr hj)) h hi hst).bind fun r s1 h' => ?_
      exact .modify_bind (.pure ⟨h'.1.setDecl, h'.2.trans keep_setDecl⟩)
  | .let_ k0 cv0 name ty0 e0, loop, sx, s, hs, hb, ha, hc, h, hi, hst => by
    cases hs with | @let_ _ k _ cv _ _ ty _ e h1 h2 h3 h4 =>
    simp only [constCallsS, callsS, List.mem_append] at hc ha
    simp only [Ana.stmt]
    refine (letF hg hC hA h2 h3 (fun j hj => hc j (.inl hj)) (fun j hj => hc j (.inr hj)) (fun j hj => ha j (.inr hj)) h hi hst).bind
      fun r s1 h' => ?_
    exact .modify_bind (.pure ⟨h'.1.setDecl, h'.2.trans keep_setDecl⟩)
  | .staticAssert k0 cv0 e0, loop, sx, s, hs, hb, ha, hc, h, hi, hst => by
    cases hs with | @staticAssert _ k _ cv _ e h1 h2 =>
    simp only [constCallsS] at hc
    simp only [Ana.stmt]
    cases cv with
    | some v => exact .assert_bind fun _ => .pure ⟨hi, .refl _⟩
    | none => exact (staticAssertF hg hC h2 hc h hi hst).bind fun r s1 h' => .pure h'
  | .ifThen k0 cv0 b0 t0, loop, sx, s, hs, hb, ha, hc, h, hi, hst => by
    cases hs with | @ifThen _ k _ cv _ b _ t h1 h2 h3 =>
    simp only [constCallsS, callsS, List.mem_append] at hc ha
    simp only [boundS] at hb
    simp only [Ana.stmt]
    refine ((conditionF hg hC hA h2 (fun j hj => ha j (.inl hj)) (fun j hj => hc j (.inl hj)) h hi hst).with_
      fun n => conditionA_bl hg (functionA_bl hg n) h1 h2 h).bind fun b' s1 h' => ?_
    obtain ⟨⟨i1, l1, -⟩, g1, k1⟩ := h'
    exact (stmtF hg hC hA hret t0 loop t s1 (SimS.mono l1 _ _ h3) hb (fun j hj => ha j (.inr hj)) (fun j hj => hc j (.inr hj)) i1 g1
      (k1.1.trans hst)).bind fun t' s2 h' => .pure ⟨h'.1, k1.trans h'.2⟩
  | .ifElse k0 cv0 b0 t0 e0, loop, sx, s, hs, hb, ha, hc, h, hi, hst => by
    cases hs with | @ifElse _ k _ cv _ b _ t _ e h1 h2 h3 h4 =>
    simp only [constCallsS, callsS, List.mem_append] at hc ha
    simp only [boundS, List.mem_append] at hb
    simp only [Ana.stmt]
    refine ((conditionF hg hC hA h2 (fun j hj => ha j (.inl hj)) (fun j hj => hc j (.inl hj)) h hi hst).with_
      fun n => conditionA_bl hg (functionA_bl hg n) h1 h2 h).bind fun b' s1 h' => ?_
    obtain ⟨⟨i1, l1, -⟩, g1, k1⟩ := h'
    refine ((stmtF hg hC hA hret t0 loop t s1 (SimS.mono l1 _ _ h3) (fun b hx => hb b (.inl hx)) (fun j hj => ha j (.inr (.inl hj)))
      (fun j hj => hc j (.inr (.inl hj))) i1 g1 (k1.1.trans hst)).with_
      fun n => stmtA_bl hg (functionA_bl hg n) hret t0 loop t s1 (SimS.mono l1 _ _ h3) (fun b hx => hb b (.inl hx)) i1).bind fun t' s2 h' => ?_
    obtain ⟨⟨i2, l2, -⟩, g2, k2⟩ := h'
    exact (stmtF hg hC hA hret e0 loop e s2 (SimS.mono (l1.trans l2) _ _ h4) (fun b hx => hb b (.inr hx)) (fun j hj => ha j (.inr (.inr hj)))
      (fun j hj => hc j (.inr (.inr hj))) i2 g2 (k2.1.trans (k1.1.trans hst))).bind fun e' s3 h' => .pure ⟨h'.1, (k1.trans k2).trans h'.2⟩
  | .while_ k0 cv0 b0 t0, loop, sx, s, hs, hb, ha, hc, h, hi, hst => by
    cases hs with | @while_ _ k _ cv _ b _ t h1 h2 h3 =>
    simp only [constCallsS, callsS, List.mem_append] at hc ha
    simp only [boundS] at hb
    simp only [Ana.stmt]
    refine ((conditionF hg hC hA h2 (fun j hj => ha j (.inl hj)) (fun j hj => hc j (.inl hj)) h hi hst).with_
      fun n => conditionA_bl hg (functionA_bl hg n) h1 h2 h).bind fun b' s1 h' => ?_
    obtain ⟨⟨i1, l1, -⟩, g1, k1⟩ := h'
    exact (stmtF hg hC hA hret t0 true t s1 (SimS.mono l1 _ _ h3) hb (fun j hj => ha j (.inr hj)) (fun j hj => hc j (.inr hj)) i1 g1
      (k1.1.trans hst)).bind fun t' s2 h' => .pure ⟨h'.1, k1.trans h'.2⟩
  | .control k0 cv0 c e0, loop, sx, s, hs, hb, ha, hc, h, hi, hst => by
    cases hs with | @control _ k _ cv _ _ e h1 h2 =>
    simp only [constCallsS, callsS] at hc ha
    have hP : Good ds N s ∧ Keep K s s := ⟨hi, .refl _⟩
    simp only [Ana.stmt]
    cases c with
    | break_ => exact .ite (fun _ => .pure hP) fun _ => .fail
    | continue_ => exact .ite (fun _ => .pure hP) fun _ => .fail
    | return_ =>
      cases h2 with
      | none => exact .ite (fun _ => .fail) fun _ => .pure hP
      | @some e0 e h2 =>
        refine (exprF hg hC e0 e false level .normal A s h2 (fun h => by cases h) hA ha hc h hi hst).bind fun e' s1 h' => ?_
        exact .value_bind fun v hv => .ite (fun _ => .fail) fun _ => .fold_bind fun w => .pure h'
  | .assign k0 cv0 name r0 e0, loop, sx, s, hs, hb, ha, hc, h, hi, hst => by
    cases hs with | @assign _ k _ cv _ _ r _ e h1 h2 h3 =>
    simp only [constCallsS, callsS] at hc ha
    simp only [Ana.stmt]
    cases h2 with
    | none => exact .throws
    | builtin => exact .throws
    | param hp => exact .fail
    | @node j j0 hj hl =>
      refine .read_bind ?_
      cases hfn : s.fns j with
      | some f => exact .fail
      | none =>
        simp only
        cases hd : s.decl j with
        | none => exact .throws
        | some d =>
          obtain ⟨kind, cvd⟩ := d
          cases kind with
          | param => exact .throws
          | width => exact .throws
          | const_ => exact .fail
          | let_ =>
            refine (exprF hg hC e0 e false level .normal A s h3 (fun h => by cases h) hA ha hc h hi hst).bind fun e' s1 h' => ?_
            exact .value_bind fun v hv => .read_bind (.value_bind fun d hd1 => .value_bind fun u hu =>
              .ite (fun _ => .fail) fun _ => .fold_bind fun w => .pure h')
  | .block k0 cv0 ss0, loop, sx, s, hs, hb, ha, hc, h, hi, hst => by
    cases hs with | @block _ k _ cv _ ss h1 =>
    simp only [constCallsS, callsS] at hc ha
    simp only [boundS] at hb
    simp only [Ana.stmt]
    exact (stmtsF hg hC hA hret ss0 loop ss s h1 hb ha hc h hi hst).bind fun ss' s1 h' => .pure h'
  | .call e0, loop, sx, s, hs, hb, ha, hc, h, hi, hst => by
    cases hs with | @call _ e h1 =>
    simp only [constCallsS, callsS] at hc ha
    simp only [Ana.stmt]
    exact (exprF hg hC e0 e false level .normal A s h1 (fun h => by cases h) hA ha hc h hi hst).bind fun e' s1 h' => .pure h'

theorem stmtsF (hg : BGiven ds N) (hC : CallsEnd ds N st K C .forConst) {A : Key → Prop} {level : Level} (hA : CallsEnd ds N st K A level)
    {ret0 : AType} {ret : CType} (hret : Stands ret0 ret) :
    (ss0 : List AStmt) → (loop : Bool) → (sx : List AStmt) → (s : ASt) → SimSs ds N (Live s) ss0 sx →
    (∀ b ∈ boundSs ss0, ∃ d ∈ ds, b ∈ boundD d) →
    (∀ j ∈ callsSs ss0, A j) → (∀ j ∈ constCallsSs ss0, C j) → BInv ds N s → Good ds N s → s.stack = st →
    Settles (fun _ s' => Good ds N s' ∧ Keep K s s') (fun n => Ana.stmts n (Ana.function n) ret level loop sx) s
  | [], loop, sx, s, hs, hb, ha, hc, h, hi, hst => by
    cases hs with | nil =>
    simp only [Ana.stmts]
    exact .pure ⟨hi, .refl _⟩
  | s0 :: ss0, loop, sx, s, hs, hb, ha, hc, h, hi, hst => by
    cases hs with | @cons _ a _ as h1 h2 =>
    simp only [constCallsSs, callsSs, List.mem_append] at hc ha
    simp only [boundSs, List.mem_append] at hb
    simp only [Ana.stmts]
    refine ((stmtF hg hC hA hret s0 loop a s h1 (fun b hx => hb b (.inl hx)) (fun j hj => ha j (.inl hj)) (fun j hj => hc j (.inl hj)) h hi
      hst).with_ fun n => stmtA_bl hg (functionA_bl hg n) hret s0 loop a s h1 (fun b hx => hb b (.inl hx)) h).bind fun a' s1 h' => ?_
    obtain ⟨⟨i1, l1, -⟩, g1, k1⟩ := h'
    exact (stmtsF hg hC hA hret ss0 loop as s1 (SimSs.mono l1 _ _ h2) (fun b hx => hb b (.inr hx)) (fun j hj => ha j (.inr hj))
      (fun j hj => hc j (.inr hj)) i1 g1 (k1.1.trans hst)).bind fun as' s2 h' => .pure ⟨h'.1, k1.trans h'.2⟩

end

end

end Bms
