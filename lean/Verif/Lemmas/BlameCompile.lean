import Verif.Lemmas.BlameState

/-!
# Functions that code cannot be generated for call functions
-/

namespace Bms

open Spec

namespace Gen

/-- Code generation has no error. -/
def Fine (r : GenResult) : Prop := ∀ x, r.2 ≠ .err x

theorem fine_emit {i : Instr} {out : List Instr} : Fine (emit i out) := fun _ h => by cases h

theorem fine_ok {out : List Instr} : Fine (out, .ok ()) := fun _ h => by cases h

theorem fine_throws {out : List Instr} : Fine (out, .throws) := fun _ h => by cases h

theorem fine_ub {out : List Instr} : Fine (out, .ub) := fun _ h => by cases h

theorem Fine.andThen {r : GenResult} {f : List Instr → GenResult} (h : Fine r) (hf : ∀ out, Fine (f out)) : Fine (andThen r f) := by
  obtain ⟨out, o⟩ := r
  cases o with
  | ok u => exact hf out
  | err e => exact absurd rfl (h e)
  | throws => exact h
  | ub => exact h

theorem Fine.restoring {r : GenResult} {n : Nat} (h : Fine r) : Fine (restoring n r) := by
  obtain ⟨out, o⟩ := r
  cases o with
  | err e => exact absurd rfl (h e)
  | ok u => exact h
  | throws => exact h
  | ub => exact h

theorem fine_patchJumpIf {i : Nat} {o : Int} {out : List Instr} : Fine (patchJumpIf i o out) := by
  unfold patchJumpIf
  split <;> exact fun _ h => by cases h

theorem fine_patchJump {i : Nat} {o : Int} {out : List Instr} : Fine (patchJump i o out) := by
  unfold patchJump
  split <;> exact fun _ h => by cases h

theorem fine_folded {cv : Option Value} {f : List Instr → GenResult} {out : List Instr} (h : ∀ out, Fine (f out)) :
    Fine (folded cv f out) := by
  unfold folded
  split
  · exact fine_throws
  · exact fine_emit
  · exact h _

theorem fine_target {r : Option Lookup} {f : Key → Instr} {out : List Instr} :
    Fine (match toTarget r with
      | .ok k => emit (f k) out
      | .err e => (out, .err e)
      | .throws => (out, .throws)
      | .ub => (out, .ub)) := by
  match r with
  | none => exact fine_throws
  | some (.node k) => exact fine_emit
  | some (.param k) => exact fine_emit
  | some (.builtin b) => exact fine_throws

theorem fine_convertArg {env : FnEnv} {r : Option Lookup} {i : Nat} {e : Expr} {out : List Instr} : Fine (convertArg env r i e out) := by
  unfold convertArg
  cases e.cv with
  | none => exact fine_throws
  | some v =>
    simp only
    have : ∀ x, paramType env r i ≠ .err x := by
      intro x
      unfold paramType
      repeat' split
      all_goals exact fun h => by cases h
    cases hp : paramType env r i with
    | ok t =>
      simp only
      split
      · exact fine_emit
      · exact fine_ok
    | err e => exact absurd hp (this e)
    | throws => exact fine_throws
    | ub => exact fine_ub

section

variable {ds : List ADecl} {N : Nat} {L : Key → Prop} {env : FnEnv}

theorem fine_callInstr (henv : ∀ j, env j ≠ none → IsFn ds (j % N)) {r0 r : Option Lookup} (hr : SimR ds N L r0 r)
    (hn : ∀ j, .node j ∈ r0.toList → ¬ IsFn ds j) {out : List Instr} : Fine (callInstr env r out) := by
  cases hr with
  | none => exact fine_throws
  | builtin => exact fine_emit
  | param => exact fine_throws
  | @node j j0 hj _ =>
    simp only [callInstr]
    cases he : env j with
    | none => simp only; exact fine_ok
    | some f =>
      refine absurd ?_ (hn j0 (by simp))
      rw [← hj]
      exact henv j (by rw [he]; simp)

mutual

theorem fineE (henv : ∀ j, env j ≠ none → IsFn ds (j % N)) {c : Bool} : (e0 : AExpr) → ∀ e, SimE ds N L c e0 e →
    (∀ j, .node j ∈ refsE e0 → ¬ IsFn ds j) → ∀ out, Fine (expr env e.erase out)
  | .literal .., e, hs, hn, out => by
    cases hs with | literal =>
    simp only [AExpr.erase, expr]
    exact fine_folded fun _ => fine_throws
  | .id .., e, hs, hn, out => by
    cases hs with | id =>
    simp only [AExpr.erase, expr]
    exact fine_folded fun _ => fine_target
  | .conversion _ _ e0 t0, e, hs, hn, out => by
    cases hs with | conversion _ h1 =>
    simp only [refsE, List.mem_append] at hn
    simp only [AExpr.erase, expr]
    refine fine_folded fun out => (fineE henv e0 _ h1 (fun j h => hn j (.inl h)) out).andThen fun out => ?_
    split
    · exact fine_emit
    · exact fine_throws
  | .ite _ _ l0 b0 r0, e, hs, hn, out => by
    cases hs with | ite _ h1 h2 h3 =>
    simp only [refsE, List.mem_append] at hn
    simp only [AExpr.erase, expr]
    exact fine_folded fun out => (fineE henv b0 _ h2 (fun j h => hn j (.inr (.inl h))) out).andThen fun out => fine_emit.andThen fun out =>
      (fineE henv l0 _ h1 (fun j h => hn j (.inl h)) out).restoring.andThen fun out => fine_patchJumpIf.andThen fun out =>
      fine_emit.andThen fun out => (fineE henv r0 _ h3 (fun j h => hn j (.inr (.inr h))) out).restoring.andThen fun out => fine_patchJump
  | .binary _ _ _ l0 r0, e, hs, hn, out => by
    cases hs with | binary _ h1 h2 =>
    simp only [refsE, List.mem_append] at hn
    simp only [AExpr.erase, expr]
    refine fine_folded fun out => (fineE henv l0 _ h1 (fun j h => hn j (.inl h)) out).andThen fun out => ?_
    split
    · exact fine_emit.andThen fun out => (fineE henv r0 _ h2 (fun j h => hn j (.inr h)) out).restoring.andThen fun out =>
        fine_patchJumpIf.andThen fun out => fine_emit.andThen fun out => fine_emit
    · exact (fineE henv r0 _ h2 (fun j h => hn j (.inr h)) out).restoring.andThen fun out => fine_emit
  | .prefix _ _ _ e0, e, hs, hn, out => by
    cases hs with | pre _ h1 =>
    simp only [refsE] at hn
    simp only [AExpr.erase, expr]
    exact fine_folded fun out => (fineE henv e0 _ h1 hn out).andThen fun out => fine_emit
  | .call _ _ _ _ r0 args0, e, hs, hn, out => by
    cases hs with | call _ h1 h2 =>
    simp only [refsE, List.mem_append] at hn
    simp only [AExpr.erase, expr]
    split
    · exact fine_throws
    · split
      · exact fine_ok
      · exact fine_emit
    · refine (fineEs henv args0 _ h2 (fun j h => hn j (.inr h)) _ _ _ out).andThen fun out =>
        (fine_callInstr henv h1 fun j h => hn j (.inl h)).andThen fun out => ?_
      split
      · exact fine_emit
      · exact fine_ok

theorem fineEs (henv : ∀ j, env j ≠ none → IsFn ds (j % N)) {c : Bool} : (es0 : List AExpr) → ∀ es, SimEs ds N L c es0 es →
    (∀ j, .node j ∈ refsEs es0 → ¬ IsFn ds j) → ∀ r n i out, Fine (args env r n i (eraseAll es) out)
  | [], es, hs, hn, r, n, i, out => by
    cases hs
    simp only [eraseAll, args]
    exact fine_ok
  | e0 :: es0, es, hs, hn, r, n, i, out => by
    cases hs with | cons h1 h2 =>
    simp only [refsEs, List.mem_append] at hn
    simp only [eraseAll, args]
    exact (fineE henv e0 _ h1 (fun j h => hn j (.inl h)) out).restoring.andThen fun out => fine_convertArg.andThen fun out =>
      fineEs henv es0 _ h2 (fun j h => hn j (.inr h)) _ _ _ out

end

mutual

theorem fineS (henv : ∀ j, env j ≠ none → IsFn ds (j % N)) {ret : Option CType} : (s0 : AStmt) → ∀ s, SimS ds N L s0 s →
    (∀ j, .node j ∈ refsS s0 → ¬ IsFn ds j) → ∀ out, Fine (stmt env ret s.erase out)
  | .const_ .., s, hs, hn, out => by
    cases hs with | const_ =>
    simp only [AStmt.erase, stmt]
    split
    · exact fine_ok
    · exact fine_throws
  | .let_ _ _ _ _ e0, s, hs, hn, out => by
    cases hs with | let_ _ _ h1 =>
    simp only [AStmt.erase, stmt]
    split
    · exact fine_throws
    · cases h1 with
      | none => exact fine_ok
      | some h1 =>
        simp only [refsS, List.mem_append, refsO] at hn
        exact (fineE henv _ _ h1 (fun j h => hn j (.inr h)) out).andThen fun out => fine_emit
  | .staticAssert .., s, hs, hn, out => by
    cases hs with | staticAssert =>
    simp only [AStmt.erase, stmt]
    split
    · exact fine_ok
    · exact fine_throws
  | .ifThen _ _ b0 t0, s, hs, hn, out => by
    cases hs with | ifThen _ h1 h2 =>
    simp only [refsS, List.mem_append] at hn
    simp only [AStmt.erase, stmt]
    exact (fineE henv b0 _ h1 (fun j h => hn j (.inl h)) out).andThen fun out => fine_emit.andThen fun out =>
      (fineS henv t0 _ h2 (fun j h => hn j (.inr h)) out).restoring.andThen fun out => fine_patchJumpIf
  | .ifElse _ _ b0 t0 e0, s, hs, hn, out => by
    cases hs with | ifElse _ h1 h2 h3 =>
    simp only [refsS, List.mem_append] at hn
    simp only [AStmt.erase, stmt]
    exact (fineE henv b0 _ h1 (fun j h => hn j (.inl h)) out).andThen fun out => fine_emit.andThen fun out =>
      (fineS henv t0 _ h2 (fun j h => hn j (.inr (.inl h))) out).restoring.andThen fun out => fine_patchJumpIf.andThen fun out =>
      fine_emit.andThen fun out => (fineS henv e0 _ h3 (fun j h => hn j (.inr (.inr h))) out).restoring.andThen fun out => fine_patchJump
  | .while_ _ _ b0 t0, s, hs, hn, out => by
    cases hs with | while_ _ h1 h2 =>
    simp only [refsS, List.mem_append] at hn
    simp only [AStmt.erase, stmt]
    exact (fineE henv b0 _ h1 (fun j h => hn j (.inl h)) out).andThen fun out => fine_emit.andThen fun out =>
      (fineS henv t0 _ h2 (fun j h => hn j (.inr h)) out).restoring.andThen fun out => fine_patchJumpIf.andThen fun out => fine_emit
  | .control _ _ _ e0, s, hs, hn, out => by
    cases hs with | control _ h1 =>
    simp only [AStmt.erase, stmt]
    split
    · split
      · exact fine_emit
      · exact fine_emit
      · unfold return_
        split
        · exact fine_throws
        · split
          · exact fine_emit.andThen fun _ => fine_emit
          · cases h1 with
            | none => exact fine_throws
            | some h1 =>
              simp only [refsS, refsO] at hn
              refine (fineE henv _ _ h1 hn out).andThen fun out => ?_
              split
              · exact fine_throws
              · refine Fine.andThen ?_ fun _ => fine_emit
                split
                · exact fine_emit
                · exact fine_ok
    · exact fine_throws
  | .assign _ _ _ _ e0, s, hs, hn, out => by
    cases hs with | assign _ _ h1 =>
    simp only [refsS, List.mem_append] at hn
    simp only [AStmt.erase, stmt]
    split
    · exact fine_throws
    · exact (fineE henv e0 _ h1 (fun j h => hn j (.inr h)) out).andThen fun out => fine_target
  | .block _ _ ss0, s, hs, hn, out => by
    cases hs with | block h1 =>
    simp only [refsS] at hn
    simp only [AStmt.erase, stmt]
    exact fineSs henv ss0 _ h1 hn _ out
  | .call e0, s, hs, hn, out => by
    cases hs with | call h1 =>
    simp only [refsS] at hn
    simp only [AStmt.erase, stmt]
    exact fineE henv e0 _ h1 hn out

theorem fineSs (henv : ∀ j, env j ≠ none → IsFn ds (j % N)) {ret : Option CType} : (ss0 : List AStmt) → ∀ ss, SimSs ds N L ss0 ss →
    (∀ j, .node j ∈ refsSs ss0 → ¬ IsFn ds j) → ∀ n out, Fine (stmts env ret n (eraseStmts ss) out)
  | [], ss, hs, hn, n, out => by
    cases hs
    simp only [eraseStmts, stmts]
    exact fine_ok
  | s0 :: ss0, ss, hs, hn, n, out => by
    cases hs with | cons h1 h2 =>
    simp only [refsSs, List.mem_append] at hn
    simp only [eraseStmts, stmts]
    exact (fineS henv s0 _ h1 (fun j h => hn j (.inl h)) out).restoring.andThen fun out =>
      fineSs henv ss0 _ h2 (fun j h => hn j (.inr h)) _ out

end

/-- If there is no code for a function, it refers to a function. -/
theorem load_err (henv : ∀ j, env j ≠ none → IsFn ds (j % N)) {f0 f : AFn} (hs : SimF ds N L f0 f) {prog : List Instr} {x : GenErr}
    (h : loadFunction env f.node prog = .err x) : ∃ j, IsFn ds j ∧ .node j ∈ refsSs f0.body := by
  refine Classical.byContradiction fun hc => ?_
  have hn : ∀ j, .node j ∈ refsSs f0.body → ¬ IsFn ds j := fun j hj hf => hc ⟨j, hf, hj⟩
  have : Fine (Gen.function env f.node prog) := by
    unfold Gen.function
    simp only
    split
    · exact fine_throws
    · refine Fine.andThen (Fine.restoring ?_) fun out => ?_
      · simp only [stmt]
        exact fineSs henv f0.body _ hs.body hn _ _
      · split
        · exact fine_ok
        · unfold returnsUnconditionally
          split <;> rename_i heq <;> (try split at heq) <;> first
            | exact fine_ok
            | exact fine_throws
            | exact fine_ub
            | exact fine_emit.andThen fun _ => fine_emit
            | cases heq
  unfold loadFunction at h
  split at h
  · cases h
  · rename_i heq
    rw [heq] at this
    exact this _ rfl
  · cases h
  · cases h

end

end Gen

end Bms
