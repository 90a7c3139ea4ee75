import Verif.Model.Codegen
import Verif.Props.DumpCode

/-!
# Dumps of generated code
-/

namespace Bms

open Spec

/-- If the value is known, it is small. -/
def Spec.SmallKnown (cv : Option Value) : Prop := ∀ t x, cv = some ⟨t, some x⟩ → SmallValue ⟨t, x⟩

mutual

/-- All known values in an expression are small, and operators have as many operands as they should. -/
def Spec.SmallExpr : Expr → Prop
  | .literal _ cv => SmallKnown cv
  | .id cv _ => SmallKnown cv
  | .conversion cv e _ => SmallKnown cv ∧ SmallExpr e
  | .ite cv l c r => SmallKnown cv ∧ SmallExpr l ∧ SmallExpr c ∧ SmallExpr r
  | .binary cv op l r => SmallKnown cv ∧ op ∈ binaryOps ∧ SmallExpr l ∧ SmallExpr r
  | .prefix cv op e => SmallKnown cv ∧ op ∈ unaryOps ∧ SmallExpr e
  | .call cv _ _ es => SmallKnown cv ∧ SmallExprs es

/-- All expressions of a list are such. -/
def Spec.SmallExprs : List Expr → Prop
  | [] => True
  | e :: es => SmallExpr e ∧ SmallExprs es

end

mutual

/-- The same for statements. -/
def Spec.SmallStmt : Stmt → Prop
  | .const_ .. => True
  | .let_ _ _ _ init => ∀ e, init = some e → SmallExpr e
  | .staticAssert .. => True
  | .ifThen c t => SmallExpr c ∧ SmallStmt t
  | .ifElse c t f => SmallExpr c ∧ SmallStmt t ∧ SmallStmt f
  | .while_ c b => SmallExpr c ∧ SmallStmt b
  | .control _ cv e => SmallKnown cv ∧ ∀ x, e = some x → SmallExpr x
  | .assign _ _ e => SmallExpr e
  | .block ss => SmallStmts ss
  | .call e => SmallExpr e

/-- The same for lists of statements. -/
def Spec.SmallStmts : List Stmt → Prop
  | [] => True
  | s :: ss => SmallStmt s ∧ SmallStmts ss

end

namespace DumpCode

/-- All instructions are small. -/
def All (out : List Instr) : Prop := ∀ i ∈ out, SmallInstr i

theorem all_emit {i : Instr} {out : List Instr} (h : All out) (hi : SmallInstr i) : All (Gen.emit i out).1 := by
  intro j hj
  rcases List.mem_append.1 hj with hj | hj
  · exact h j hj
  · rw [List.mem_singleton.1 hj]
    exact hi

theorem all_then {r : GenResult} {f : List Instr → GenResult} (h : All r.1) (hf : ∀ out, All out → All (f out).1) :
    All (Gen.andThen r f).1 := by
  obtain ⟨out, o⟩ := r
  cases o with
  | ok u => exact hf out h
  | err e => exact h
  | throws => exact h
  | ub => exact h

theorem all_restoring {n : Nat} {r : GenResult} (h : All r.1) : All (Gen.restoring n r).1 := by
  obtain ⟨out, o⟩ := r
  cases o with
  | err e =>
    unfold Gen.restoring
    by_cases hn : n ≤ out.length
    · simp only [hn, if_true]
      exact fun i hi => h i (List.mem_of_mem_take hi)
    · simp only [hn, if_false]
      exact h
  | ok u => exact h
  | throws => exact h
  | ub => exact h

theorem all_set {n : Nat} {i : Instr} {out : List Instr} (h : All out) (hi : SmallInstr i) : All (out.set n i) := by
  intro j hj
  rcases List.mem_or_eq_of_mem_set hj with hj | hj
  · exact h j hj
  · rw [hj]
    exact hi

theorem all_patchIf {n : Nat} {x : Int} {out : List Instr} (h : All out) : All (Gen.patchJumpIf n x out).1 := by
  unfold Gen.patchJumpIf
  split
  · exact all_set h trivial
  · exact h
  · exact h

theorem all_patch {n : Nat} {x : Int} {out : List Instr} (h : All out) : All (Gen.patchJump n x out).1 := by
  unfold Gen.patchJump
  split
  · exact all_set h trivial
  · exact h
  · exact h

theorem all_folded {cv : Option Value} {rest : List Instr → GenResult} {out : List Instr} (hc : SmallKnown cv)
    (h : All out) (hr : ∀ out, All out → All (rest out).1) : All (Gen.folded cv rest out).1 := by
  unfold Gen.folded
  split
  · exact h
  · exact all_emit h (hc _ _ rfl)
  · exact hr out h

theorem all_convert {env : FnEnv} {ref : Option Lookup} {i : Nat} {e : Expr} {out : List Instr} (h : All out) :
    All (Gen.convertArg env ref i e out).1 := by
  unfold Gen.convertArg
  split
  · exact h
  · split
    · split
      · exact all_emit h trivial
      · exact h
    · exact h
    · exact h
    · exact h

theorem all_call {env : FnEnv} {ref : Option Lookup} {out : List Instr} (h : All out) :
    All (Gen.callInstr env ref out).1 := by
  unfold Gen.callInstr
  split
  · split
    · split
      · exact all_emit h trivial
      · exact h
    · exact h
  · exact all_emit h trivial
  · exact h

theorem small_bool (b : Bool) : SmallInstr (.push (CVal.ofBool b)) := by
  cases b
  · exact .inl rfl
  · exact .inr rfl

mutual

theorem all_expr {env : FnEnv} : ∀ (e : Expr) {out : List Instr}, SmallExpr e → All out → All (Gen.expr env e out).1
  | .literal k cv, out, hs, h => by
    simp only [SmallExpr] at hs
    simp only [Gen.expr]
    exact all_folded hs h fun out h => h
  | .id cv ref, out, hs, h => by
    simp only [SmallExpr] at hs
    simp only [Gen.expr]
    refine all_folded hs h fun out h => ?_
    split
    · exact all_emit h trivial
    · exact h
    · exact h
    · exact h
  | .conversion cv e target, out, hs, h => by
    simp only [SmallExpr] at hs
    simp only [Gen.expr]
    refine all_folded hs.1 h fun out h => all_then (all_expr e hs.2 h) fun out h => ?_
    split
    · exact all_emit h trivial
    · exact h
  | .ite cv l c r, out, hs, h => by
    simp only [SmallExpr] at hs
    simp only [Gen.expr]
    exact all_folded hs.1 h fun out h => all_then (all_expr c hs.2.2.1 h) fun out h =>
      all_then (all_emit h trivial) fun out h => all_then (all_restoring (all_expr l hs.2.1 h)) fun out h =>
      all_then (all_patchIf h) fun out h => all_then (all_emit h trivial) fun out h =>
      all_then (all_restoring (all_expr r hs.2.2.2 h)) fun out h => all_patch h
  | .binary cv op l r, out, hs, h => by
    simp only [SmallExpr] at hs
    simp only [Gen.expr]
    refine all_folded hs.1 h fun out h => all_then (all_expr l hs.2.2.1 h) fun out h => ?_
    split
    · exact all_then (all_emit h trivial) fun out h => all_then (all_restoring (all_expr r hs.2.2.2 h)) fun out h =>
        all_then (all_patchIf h) fun out h => all_then (all_emit h trivial) fun out h => all_emit h (small_bool _)
    · exact all_then (all_restoring (all_expr r hs.2.2.2 h)) fun out h => all_emit h hs.2.1
  | .prefix cv op e, out, hs, h => by
    simp only [SmallExpr] at hs
    simp only [Gen.expr]
    exact all_folded hs.1 h fun out h => all_then (all_expr e hs.2.2 h) fun out h => all_emit h hs.2.1
  | .call cv s ref es, out, hs, h => by
    simp only [SmallExpr] at hs
    simp only [Gen.expr]
    split
    · exact h
    · split
      · exact h
      · exact all_emit h (hs.1 _ _ rfl)
    · refine all_then (all_args es hs.2 h) fun out h => all_then (all_call h) fun out h => ?_
      split
      · exact all_emit h trivial
      · exact h

theorem all_args {env : FnEnv} {ref : Option Lookup} {n : Nat} : ∀ (es : List Expr) {i : Nat} {out : List Instr},
    SmallExprs es → All out → All (Gen.args env ref n i es out).1
  | [], i, out, _, h => by
    simp only [Gen.args]
    exact h
  | e :: es, i, out, hs, h => by
    simp only [SmallExprs] at hs
    simp only [Gen.args]
    exact all_then (all_restoring (all_expr e hs.1 h)) fun out h => all_then (all_convert h) fun out h =>
      all_args es hs.2 h

end

theorem all_resolve {a b : Nat} {out : List Instr} (h : All out) : All (Gen.resolveLoop a b out) := by
  intro i hi
  unfold Gen.resolveLoop at hi
  obtain ⟨n, hn, rfl⟩ := List.mem_mapIdx.1 hi
  have := h _ (List.getElem_mem hn)
  split
  · exact this
  · split
    · trivial
    · trivial
    · exact this

theorem all_return {env : FnEnv} {ret : CType} {cv : Value} {e : Option Expr} {out : List Instr}
    (hc : SmallKnown (some cv)) (he : ∀ x, e = some x → SmallExpr x) (h : All out) :
    All (Gen.return_ env ret cv e out).1 := by
  unfold Gen.return_
  split
  · exact h
  · split
    · rename_i x hx
      refine all_then (all_emit h (hc _ _ ?_)) fun out h => all_emit h trivial
      obtain ⟨t, v⟩ := cv
      simp only at hx
      rw [hx]
    · split
      · exact h
      · refine all_then (all_expr _ (he _ rfl) h) fun out h => ?_
        split
        · exact h
        · refine all_then ?_ fun out h => all_emit h trivial
          split
          · exact all_emit h trivial
          · exact h

mutual

theorem all_stmt {env : FnEnv} {ret : Option CType} : ∀ (s : Stmt) {out : List Instr}, SmallStmt s → All out →
    All (Gen.stmt env ret s out).1
  | .const_ .., out, _, h => by
    simp only [Gen.stmt]
    exact h
  | .let_ k t cv init, out, hs, h => by
    simp only [SmallStmt] at hs
    simp only [Gen.stmt]
    split
    · exact h
    · split
      · exact h
      · exact all_then (all_expr _ (hs _ rfl) h) fun out h => all_emit h trivial
  | .staticAssert .., out, _, h => by
    simp only [Gen.stmt]
    exact h
  | .ifThen c t, out, hs, h => by
    simp only [SmallStmt] at hs
    simp only [Gen.stmt]
    exact all_then (all_expr c hs.1 h) fun out h => all_then (all_emit h trivial) fun out h =>
      all_then (all_restoring (all_stmt t hs.2 h)) fun out h => all_patchIf h
  | .ifElse c t f, out, hs, h => by
    simp only [SmallStmt] at hs
    simp only [Gen.stmt]
    exact all_then (all_expr c hs.1 h) fun out h => all_then (all_emit h trivial) fun out h =>
      all_then (all_restoring (all_stmt t hs.2.1 h)) fun out h => all_then (all_patchIf h) fun out h =>
      all_then (all_emit h trivial) fun out h => all_then (all_restoring (all_stmt f hs.2.2 h)) fun out h =>
      all_patch h
  | .while_ c b, out, hs, h => by
    simp only [SmallStmt] at hs
    simp only [Gen.stmt]
    exact all_then (all_expr c hs.1 h) fun out h => all_then (all_emit h trivial) fun out h =>
      all_then (all_restoring (all_stmt b hs.2 h)) fun out h => all_then (all_patchIf h) fun out h =>
      all_emit (all_resolve h) trivial
  | .control c cv e, out, hs, h => by
    simp only [SmallStmt] at hs
    simp only [Gen.stmt]
    split
    · split
      · exact all_emit h trivial
      · exact all_emit h trivial
      · exact all_return hs.1 hs.2 h
    · exact h
  | .assign cv target e, out, hs, h => by
    simp only [SmallStmt] at hs
    simp only [Gen.stmt]
    split
    · exact h
    · refine all_then (all_expr e hs h) fun out h => ?_
      split
      · exact all_emit h trivial
      · exact h
      · exact h
      · exact h
  | .block ss, out, hs, h => by
    simp only [SmallStmt] at hs
    simp only [Gen.stmt]
    exact all_stmts ss hs h
  | .call e, out, hs, h => by
    simp only [SmallStmt] at hs
    simp only [Gen.stmt]
    exact all_expr e hs h

theorem all_stmts {env : FnEnv} {ret : Option CType} {n : Nat} : ∀ (ss : List Stmt) {out : List Instr},
    SmallStmts ss → All out → All (Gen.stmts env ret n ss out).1
  | [], out, _, h => by
    simp only [Gen.stmts]
    exact h
  | s :: ss, out, hs, h => by
    simp only [SmallStmts] at hs
    simp only [Gen.stmts]
    exact all_then (all_restoring (all_stmt s hs.1 h)) fun out h => all_stmts ss hs.2 h

end

theorem all_function {env : FnEnv} {f : FunctionNode} {out : List Instr} (hs : SmallStmts f.body) (h : All out) :
    All (Gen.function env f out).1 := by
  have h0 : All (out ++ f.params.reverse.map Instr.store) := by
    intro i hi
    rcases List.mem_append.1 hi with hi | hi
    · exact h i hi
    · obtain ⟨k, -, rfl⟩ := List.mem_map.1 hi
      trivial
  unfold Gen.function
  simp only
  split
  · exact h0
  · refine all_then (all_restoring (all_stmt (.block f.body) (by simpa only [SmallStmt] using hs) h0)) fun out h => ?_
    split
    · exact h
    · split
      · exact h
      · exact all_then (all_emit h rfl) fun out h => all_emit h trivial
      · exact h
      · exact h
      · exact h

end DumpCode

end Bms
