import Verif.Lemmas.RenumberVm

/-!
# Other addresses of nodes: code generation
-/

namespace Bms

open Spec

namespace Renumber

variable (τ : Key → Key)

mutual

/-- Expressions as code generation sees them. -/
def gexpr : Expr → Expr
  | .literal l cv => .literal l cv
  | .id cv r => .id cv (r.map (lookup τ))
  | .conversion cv e t => .conversion cv (gexpr e) t
  | .ite cv l c r => .ite cv (gexpr l) (gexpr c) (gexpr r)
  | .binary cv op l r => .binary cv op (gexpr l) (gexpr r)
  | .prefix cv op e => .prefix cv op (gexpr e)
  | .call cv st r args => .call cv st (r.map (lookup τ)) (gexprs args)

/-- Several expressions. -/
def gexprs : List Expr → List Expr
  | [] => []
  | e :: es => gexpr e :: gexprs es

end

mutual

/-- Statements as code generation sees them. -/
def gstmt : Stmt → Stmt
  | .const_ k t cv e => .const_ (τ k) t cv (gexpr τ e)
  | .let_ k t cv e => .let_ (τ k) t cv (e.map (gexpr τ))
  | .staticAssert cv e => .staticAssert cv (gexpr τ e)
  | .ifThen c b => .ifThen (gexpr τ c) (gstmt b)
  | .ifElse c b e => .ifElse (gexpr τ c) (gstmt b) (gstmt e)
  | .while_ c b => .while_ (gexpr τ c) (gstmt b)
  | .control c cv e => .control c cv (e.map (gexpr τ))
  | .assign cv r e => .assign cv (r.map (lookup τ)) (gexpr τ e)
  | .block ss => .block (gstmts ss)
  | .call e => .call (gexpr τ e)

/-- Several statements. -/
def gstmts : List Stmt → List Stmt
  | [] => []
  | s :: ss => gstmt s :: gstmts ss

end

/-- Functions as code generation sees them. -/
def gfn (f : FunctionNode) : FunctionNode := { f with params := f.params.map τ, body := gstmts τ f.body }

/-- Results of code generation. -/
def gen (r : GenResult) : GenResult := (r.1.map (instr τ), r.2)

variable {τ}

theorem gexpr_cv (e : Expr) : (gexpr τ e).cv = e.cv := by
  cases e <;> simp only [gexpr, Expr.cv]

theorem gen_mk (out : List Instr) (r : Outcome GenErr Unit) : gen τ (out, r) = (out.map (instr τ), r) := rfl

theorem emit_ren {i i' : Instr} (out : List Instr) (h : i' = instr τ i) :
    Gen.emit i' (out.map (instr τ)) = gen τ (Gen.emit i out) := by
  subst h
  simp [Gen.emit, gen]

theorem andThen_ren {r r' : GenResult} {f f' : List Instr → GenResult} (h : r' = gen τ r)
    (hf : ∀ out, f' (out.map (instr τ)) = gen τ (f out)) : Gen.andThen r' f' = gen τ (Gen.andThen r f) := by
  subst h
  obtain ⟨out, r⟩ := r
  cases r with
  | ok u => exact hf out
  | err e => rfl
  | throws => rfl
  | ub => rfl

theorem restoring_ren {r r' : GenResult} (n : Nat) (h : r' = gen τ r) :
    Gen.restoring n r' = gen τ (Gen.restoring n r) := by
  subst h
  obtain ⟨out, r⟩ := r
  cases r with
  | ok u => rfl
  | throws => rfl
  | ub => rfl
  | err e =>
    simp only [Gen.restoring, gen, List.length_map]
    by_cases hl : n ≤ out.length
    · simp only [hl, if_true, List.map_take]
    · simp only [hl, if_false]

theorem patchJumpIf_ren (i : Nat) (o : Int) (out : List Instr) :
    Gen.patchJumpIf i o (out.map (instr τ)) = gen τ (Gen.patchJumpIf i o out) := by
  simp only [Gen.patchJumpIf, List.getElem?_map]
  cases out[i]? with
  | none => rfl
  | some x => cases x <;> simp [instr, gen]

theorem patchJump_ren (i : Nat) (o : Int) (out : List Instr) :
    Gen.patchJump i o (out.map (instr τ)) = gen τ (Gen.patchJump i o out) := by
  simp only [Gen.patchJump, List.getElem?_map]
  cases out[i]? with
  | none => rfl
  | some x => cases x <;> simp [instr, gen]

theorem folded_ren (cv : Option Value) {f f' : List Instr → GenResult} (out : List Instr)
    (hf : ∀ out, f' (out.map (instr τ)) = gen τ (f out)) :
    Gen.folded cv f' (out.map (instr τ)) = gen τ (Gen.folded cv f out) := by
  cases cv with
  | none => rfl
  | some v =>
    obtain ⟨t, x⟩ := v
    cases x with
    | none => exact hf out
    | some x => exact emit_ren out rfl

theorem toTarget_ren (r : Option Lookup) : Gen.toTarget (r.map (lookup τ)) = (Gen.toTarget r).map τ := by
  cases r with
  | none => rfl
  | some r => cases r <;> rfl

section
variable {env env' : FnEnv} (he : ∀ k, env' (τ k) = env k)
include he

theorem paramType_ren (r : Option Lookup) (i : Nat) : Gen.paramType env' (r.map (lookup τ)) i = Gen.paramType env r i := by
  cases r with
  | none => rfl
  | some r => cases r <;> simp only [Gen.paramType, Option.map_some, lookup, he]

theorem convertArg_ren (r : Option Lookup) (i : Nat) (a : Expr) (out : List Instr) :
    Gen.convertArg env' (r.map (lookup τ)) i (gexpr τ a) (out.map (instr τ)) = gen τ (Gen.convertArg env r i a out) := by
  simp only [Gen.convertArg, gexpr_cv, paramType_ren he]
  cases a.cv with
  | none => rfl
  | some v =>
    simp only []
    cases Gen.paramType env r i with
    | ok t =>
      simp only []
      by_cases hv : v.type ≠ t
      · rw [if_pos hv, if_pos hv]
        exact emit_ren out rfl
      · rw [if_neg hv, if_neg hv]
        rfl
    | err e => rfl
    | throws => rfl
    | ub => rfl

theorem callInstr_ren (r : Option Lookup) (out : List Instr) :
    Gen.callInstr env' (r.map (lookup τ)) (out.map (instr τ)) = gen τ (Gen.callInstr env r out) := by
  cases r with
  | none => rfl
  | some r =>
    cases r with
    | param k => rfl
    | builtin f => exact emit_ren out rfl
    | node k =>
      simp only [Gen.callInstr, Option.map_some, lookup, he]
      cases env k with
      | none => rfl
      | some f =>
        simp only []
        cases f.analyzed <;> cases f.address
        · rfl
        · rfl
        · rfl
        · exact emit_ren out rfl

mutual

theorem genExpr_ren : (e : Expr) → (out : List Instr) →
    Gen.expr env' (gexpr τ e) (out.map (instr τ)) = gen τ (Gen.expr env e out)
  | .literal l cv, out => by
    simp only [gexpr, Gen.expr]
    exact folded_ren cv out fun out => rfl
  | .id cv r, out => by
    simp only [gexpr, Gen.expr]
    refine folded_ren cv out fun out => ?_
    simp only [toTarget_ren]
    cases Gen.toTarget r with
    | ok k => exact emit_ren out rfl
    | err e => rfl
    | throws => rfl
    | ub => rfl
  | .conversion cv e t, out => by
    simp only [gexpr, Gen.expr]
    refine folded_ren cv out fun out => andThen_ren (genExpr_ren e out) fun out => ?_
    cases t with
    | none => rfl
    | some t => exact emit_ren out rfl
  | .ite cv l c r, out => by
    simp only [gexpr, Gen.expr]
    refine folded_ren cv out fun out => ?_
    simp only [List.length_map]
    refine andThen_ren (genExpr_ren c out) fun out1 => ?_
    simp only [List.length_map]
    refine andThen_ren (emit_ren out1 rfl) fun out2 => ?_
    simp only [List.length_map]
    refine andThen_ren (restoring_ren _ (genExpr_ren l out2)) fun out3 => ?_
    simp only [List.length_map]
    refine andThen_ren (patchJumpIf_ren _ _ out3) fun out4 => ?_
    simp only [List.length_map]
    refine andThen_ren (emit_ren out4 rfl) fun out5 => ?_
    simp only [List.length_map]
    refine andThen_ren (restoring_ren _ (genExpr_ren r out5)) fun out6 => ?_
    simp only [List.length_map]
    exact patchJump_ren _ _ out6
  | .binary cv op l r, out => by
    simp only [gexpr, Gen.expr]
    refine folded_ren cv out fun out => ?_
    simp only [List.length_map]
    refine andThen_ren (genExpr_ren l out) fun out1 => ?_
    by_cases ho : Gen.isShortCircuit op = true
    · rw [if_pos ho, if_pos ho]
      simp only [List.length_map]
      refine andThen_ren (emit_ren out1 rfl) fun out2 => ?_
      simp only [List.length_map]
      refine andThen_ren (restoring_ren _ (genExpr_ren r out2)) fun out3 => ?_
      simp only [List.length_map]
      refine andThen_ren (patchJumpIf_ren _ _ out3) fun out4 => ?_
      exact andThen_ren (emit_ren out4 rfl) fun out5 => emit_ren out5 rfl
    · rw [if_neg ho, if_neg ho]
      exact andThen_ren (restoring_ren _ (genExpr_ren r out1)) fun out2 => emit_ren out2 rfl
  | .prefix cv op e, out => by
    simp only [gexpr, Gen.expr]
    exact folded_ren cv out fun out => andThen_ren (genExpr_ren e out) fun out => emit_ren out rfl
  | .call cv st r args, out => by
    simp only [gexpr, Gen.expr]
    cases cv with
    | none => rfl
    | some v =>
      obtain ⟨t, x⟩ := v
      cases x with
      | some x =>
        cases st with
        | true => rfl
        | false => exact emit_ren out rfl
      | none =>
        simp only [List.length_map]
        refine andThen_ren (genArgs_ren r _ args _ out) fun out1 => ?_
        refine andThen_ren (callInstr_ren he r out1) fun out2 => ?_
        cases st with
        | true => exact emit_ren out2 rfl
        | false => rfl

theorem genArgs_ren (r : Option Lookup) (n : Nat) : (es : List Expr) → (i : Nat) → (out : List Instr) →
    Gen.args env' (r.map (lookup τ)) n i (gexprs τ es) (out.map (instr τ)) = gen τ (Gen.args env r n i es out)
  | [], i, out => by
    simp only [gexprs, Gen.args]
    rfl
  | e :: es, i, out => by
    simp only [gexprs, Gen.args]
    exact andThen_ren (restoring_ren _ (genExpr_ren e out)) fun out1 =>
      andThen_ren (convertArg_ren he r i e out1) fun out2 => genArgs_ren r n es (i + 1) out2

end

theorem genReturn_ren (ret : CType) (cv : Value) (e : Option Expr) (out : List Instr) :
    Gen.return_ env' ret cv (e.map (gexpr τ)) (out.map (instr τ)) = gen τ (Gen.return_ env ret cv e out) := by
  simp only [Gen.return_]
  by_cases hv : cv.type ≠ ret
  · rw [if_pos hv, if_pos hv]
    rfl
  · rw [if_neg hv, if_neg hv]
    cases cv.val with
    | some x => exact andThen_ren (emit_ren out rfl) fun out => emit_ren out rfl
    | none =>
      cases e with
      | none => rfl
      | some e =>
        refine andThen_ren (genExpr_ren he e out) fun out => ?_
        simp only [gexpr_cv]
        cases e.cv with
        | none => rfl
        | some v =>
          refine andThen_ren ?_ fun out => emit_ren out rfl
          by_cases hr : v.type ≠ ret
          · rw [if_pos hr, if_pos hr]
            exact emit_ren out rfl
          · rw [if_neg hr, if_neg hr]
            rfl

end

theorem resolveLoop_ren (a b : Nat) (out : List Instr) :
    Gen.resolveLoop a b (out.map (instr τ)) = (Gen.resolveLoop a b out).map (instr τ) := by
  unfold Gen.resolveLoop
  apply List.ext_getElem?
  intro i
  simp only [List.getElem?_map, List.getElem?_mapIdx, List.length_map, Option.map_map]
  cases out[i]? with
  | none => rfl
  | some x =>
    simp only [Option.map_some, Function.comp, Option.some.injEq]
    by_cases hi : i < b
    · rw [if_pos hi, if_pos hi]
    · rw [if_neg hi, if_neg hi]
      cases x <;> rfl

section
variable {env env' : FnEnv} (he : ∀ k, env' (τ k) = env k) (ret : Option CType)
include he

mutual

theorem genStmt_ren : (s : Stmt) → (out : List Instr) →
    Gen.stmt env' ret (gstmt τ s) (out.map (instr τ)) = gen τ (Gen.stmt env ret s out)
  | .const_ k t cv e, out => by
    simp only [gstmt, Gen.stmt]
    rfl
  | .let_ k t cv e, out => by
    simp only [gstmt, Gen.stmt]
    cases cv with
    | none => rfl
    | some v =>
      cases e with
      | none => rfl
      | some e => exact andThen_ren (genExpr_ren he e out) fun out => emit_ren out rfl
  | .staticAssert cv e, out => by
    simp only [gstmt, Gen.stmt]
    rfl
  | .ifThen c b, out => by
    simp only [gstmt, Gen.stmt, List.length_map]
    refine andThen_ren (genExpr_ren he c out) fun out1 => ?_
    simp only [List.length_map]
    refine andThen_ren (emit_ren out1 rfl) fun out2 => ?_
    simp only [List.length_map]
    refine andThen_ren (restoring_ren _ (genStmt_ren b out2)) fun out3 => ?_
    simp only [List.length_map]
    exact patchJumpIf_ren _ _ out3
  | .ifElse c b e, out => by
    simp only [gstmt, Gen.stmt, List.length_map]
    refine andThen_ren (genExpr_ren he c out) fun out1 => ?_
    simp only [List.length_map]
    refine andThen_ren (emit_ren out1 rfl) fun out2 => ?_
    simp only [List.length_map]
    refine andThen_ren (restoring_ren _ (genStmt_ren b out2)) fun out3 => ?_
    simp only [List.length_map]
    refine andThen_ren (patchJumpIf_ren _ _ out3) fun out4 => ?_
    simp only [List.length_map]
    refine andThen_ren (emit_ren out4 rfl) fun out5 => ?_
    simp only [List.length_map]
    refine andThen_ren (restoring_ren _ (genStmt_ren e out5)) fun out6 => ?_
    simp only [List.length_map]
    exact patchJump_ren _ _ out6
  | .while_ c b, out => by
    simp only [gstmt, Gen.stmt, List.length_map]
    refine andThen_ren (genExpr_ren he c out) fun out1 => ?_
    simp only [List.length_map]
    refine andThen_ren (emit_ren out1 rfl) fun out2 => ?_
    simp only [List.length_map]
    refine andThen_ren (restoring_ren _ (genStmt_ren b out2)) fun out3 => ?_
    simp only [List.length_map]
    refine andThen_ren (patchJumpIf_ren _ _ out3) fun out4 => ?_
    simp only [List.length_map, resolveLoop_ren]
    exact emit_ren _ rfl
  | .control c cv e, out => by
    simp only [gstmt, Gen.stmt]
    cases ret with
    | none => rfl
    | some ret =>
      cases cv with
      | none => rfl
      | some cv =>
        cases c with
        | break_ => exact emit_ren out rfl
        | continue_ => exact emit_ren out rfl
        | return_ => exact genReturn_ren he ret cv e out
  | .assign cv r e, out => by
    simp only [gstmt, Gen.stmt]
    cases cv with
    | none => rfl
    | some v =>
      refine andThen_ren (genExpr_ren he e out) fun out => ?_
      simp only [toTarget_ren]
      cases Gen.toTarget r with
      | ok k => exact emit_ren out rfl
      | err e => rfl
      | throws => rfl
      | ub => rfl
  | .block ss, out => by
    simp only [gstmt, Gen.stmt, List.length_map]
    exact genStmts_ren ss _ out
  | .call e, out => by
    simp only [gstmt, Gen.stmt]
    exact genExpr_ren he e out

theorem genStmts_ren : (ss : List Stmt) → (n : Nat) → (out : List Instr) →
    Gen.stmts env' ret n (gstmts τ ss) (out.map (instr τ)) = gen τ (Gen.stmts env ret n ss out)
  | [], n, out => by
    simp only [gstmts, Gen.stmts]
    rfl
  | s :: ss, n, out => by
    simp only [gstmts, Gen.stmts]
    exact andThen_ren (restoring_ren _ (genStmt_ren s out)) fun out1 => genStmts_ren ss n out1

end

end

theorem gstmts_map (ss : List Stmt) : gstmts τ ss = ss.map (gstmt τ) := by
  induction ss with
  | nil => simp [gstmts]
  | cons s ss ih => simp [gstmts, ih]

theorem controlOf_ren (s : Stmt) : Gen.controlOf (gstmt τ s) = Gen.controlOf s := by
  cases s <;> simp only [gstmt, Gen.controlOf]

theorem returns_ren (ss : List Stmt) : Gen.returnsUnconditionally (gstmts τ ss) = Gen.returnsUnconditionally ss := by
  unfold Gen.returnsUnconditionally
  rw [gstmts_map, ← List.map_reverse, List.findSome?_map]
  rw [show Gen.controlOf ∘ gstmt τ = Gen.controlOf from funext controlOf_ren]

theorem genFunction_ren {env env' : FnEnv} (he : ∀ k, env' (τ k) = env k) (f : FunctionNode) (out : List Instr) :
    Gen.function env' (gfn τ f) (out.map (instr τ)) = gen τ (Gen.function env f out) := by
  unfold Gen.function
  simp only [gfn]
  have hp : out.map (instr τ) ++ ((f.params.map τ).reverse.map Instr.store) =
      (out ++ f.params.reverse.map Instr.store).map (instr τ) := by
    simp only [List.map_append, ← List.map_reverse, List.map_map]
    rfl
  rw [hp]
  by_cases hr : f.retAnalyzed = true
  on_goal 2 =>
    simp only [hr, Bool.false_eq_true, not_false_eq_true, if_true]
    rfl
  · simp only [hr, not_true_eq_false, if_false]
    simp only [List.length_map]
    have hb := genStmt_ren he f.ret (.block f.body) (out ++ f.params.reverse.map Instr.store)
    simp only [gstmt] at hb
    refine andThen_ren (restoring_ren _ hb) fun out1 => ?_
    by_cases hv : f.ret = some .void
    on_goal 2 =>
      simp only [hv, ne_eq, not_false_eq_true, if_true]
      rfl
    · simp only [hv, ne_eq, not_true_eq_false, if_false, returns_ren]
      cases Gen.returnsUnconditionally f.body with
      | ok b =>
        cases b with
        | true => rfl
        | false => exact andThen_ren (emit_ren out1 rfl) fun out => emit_ren out rfl
      | err e => rfl
      | throws => rfl
      | ub => rfl

theorem loadFunction_ren {env env' : FnEnv} (he : ∀ k, env' (τ k) = env k) (f : FunctionNode) (out : List Instr) :
    loadFunction env' (gfn τ f) (out.map (instr τ)) =
      (loadFunction env f out).map fun p => (p.1.map (instr τ), p.2) := by
  unfold loadFunction
  rw [genFunction_ren he]
  obtain ⟨o, r⟩ := Gen.function env f out
  cases r with
  | ok u =>
    simp only [gen, List.length_map]
    rfl
  | err e => rfl
  | throws => rfl
  | ub => rfl

/-! ## The tree as code generation sees it -/

theorem concreteType_ren {ε : Type} (t : AType) : (type τ t).concreteType (ε := ε) = t.concreteType := by
  cases t with
  | base => rfl
  | uint k cv c w => cases c <;> simp only [type, AType.concreteType]

theorem typeCv_ren (t : AType) : (type τ t).cv = t.cv := by
  cases t <;> simp only [type, AType.cv]

theorem exprCv_ren (e : AExpr) : (expr τ e).cv = e.cv := by
  cases e <;> simp only [expr, AExpr.cv]

theorem exprKey_ren (e : AExpr) : (expr τ e).key = τ e.key := by
  cases e <;> simp only [expr, AExpr.key]

theorem eraseType_ren (t : AType) : (type τ t).eraseType = t.eraseType := by
  simp only [AType.eraseType, concreteType_ren]

theorem eraseTypes_ren (t : Option AType) : (t.map (type τ)).bind AType.eraseType = t.bind AType.eraseType := by
  cases t with
  | none => rfl
  | some t => exact eraseType_ren t

mutual

theorem eraseE_ren : (e : AExpr) → (expr τ e).erase = gexpr τ e.erase
  | .literal .. => by simp only [expr, AExpr.erase, gexpr]
  | .id .. => by simp only [expr, AExpr.erase, gexpr]
  | .conversion _ _ e t => by simp only [expr, AExpr.erase, gexpr, eraseE_ren e, eraseType_ren]
  | .ite _ _ l c r => by simp only [expr, AExpr.erase, gexpr, eraseE_ren l, eraseE_ren c, eraseE_ren r]
  | .binary _ _ _ l r => by simp only [expr, AExpr.erase, gexpr, eraseE_ren l, eraseE_ren r]
  | .prefix _ _ _ e => by simp only [expr, AExpr.erase, gexpr, eraseE_ren e]
  | .call _ _ _ _ _ args => by simp only [expr, AExpr.erase, gexpr, eraseEs_ren args]

theorem eraseEs_ren : (es : List AExpr) → eraseAll (exprs τ es) = gexprs τ (eraseAll es)
  | [] => by simp only [exprs, eraseAll, gexprs]
  | e :: es => by simp only [exprs, eraseAll, gexprs, eraseE_ren e, eraseEs_ren es]

end

theorem eraseO_ren (e : Option AExpr) : (e.map (expr τ)).map AExpr.erase = (e.map AExpr.erase).map (gexpr τ) := by
  cases e with
  | none => rfl
  | some e => simp only [Option.map_some, eraseE_ren]

mutual

theorem eraseS_ren : (s : AStmt) → (stmt τ s).erase = gstmt τ s.erase
  | .const_ _ _ _ t e => by simp only [stmt, AStmt.erase, gstmt, eraseTypes_ren, eraseE_ren]
  | .let_ _ _ _ t e => by simp only [stmt, AStmt.erase, gstmt, eraseTypes_ren, eraseO_ren]
  | .staticAssert _ _ e => by simp only [stmt, AStmt.erase, gstmt, eraseE_ren]
  | .ifThen _ _ c b => by simp only [stmt, AStmt.erase, gstmt, eraseE_ren, eraseS_ren b]
  | .ifElse _ _ c b e => by simp only [stmt, AStmt.erase, gstmt, eraseE_ren, eraseS_ren b, eraseS_ren e]
  | .while_ _ _ c b => by simp only [stmt, AStmt.erase, gstmt, eraseE_ren, eraseS_ren b]
  | .control _ _ c e => by simp only [stmt, AStmt.erase, gstmt, eraseO_ren]
  | .assign _ _ _ _ e => by simp only [stmt, AStmt.erase, gstmt, eraseE_ren]
  | .block _ _ ss => by simp only [stmt, AStmt.erase, gstmt, eraseSs_ren ss]
  | .call e => by simp only [stmt, AStmt.erase, gstmt, eraseE_ren]

theorem eraseSs_ren : (ss : List AStmt) → eraseStmts (stmts τ ss) = gstmts τ (eraseStmts ss)
  | [] => by simp only [stmts, eraseStmts, gstmts]
  | s :: ss => by simp only [stmts, eraseStmts, gstmts, eraseS_ren s, eraseSs_ren ss]

end

theorem node_ren (f : AFn) : (fn τ f).node = gfn τ f.node := by
  simp only [AFn.node, fn, gfn, typeCv_ren, eraseType_ren, eraseSs_ren, List.map_map, FunctionNode.mk.injEq, and_self,
    and_true]
  rfl

theorem info_ren (f : AFn) : (fn τ f).info = f.info := by
  simp only [AFn.info, fn, List.map_map, FnInfo.mk.injEq, and_self, and_true]
  exact List.map_congr_left fun p _ => typeCv_ren p.type

end Renumber

end Bms
