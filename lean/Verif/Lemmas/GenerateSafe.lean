import Verif.Lemmas.Generate
import Verif.Lemmas.GeneratePlain

/-!
# Generators have no undefined behaviour on what analysis has accepted
-/

namespace Bms

open Spec

namespace Gen

theorem bind_safe {ε α β : Type} {x : Outcome ε α} {f : α → Outcome ε β} (hx : x ≠ .ub) (hf : ∀ a, f a ≠ .ub) :
    (x >>= f) ≠ .ub := by
  cases x with
  | ok a => exact hf a
  | err e => simp
  | throws => simp
  | ub => exact absurd rfl hx

theorem ok_safe {ε α : Type} (a : α) : (Outcome.ok a : Outcome ε α) ≠ .ub := by simp

theorem generateType_safe (o : GenC.Options) (d : GenC.Dialect) (t : CType) : GenC.generateType o d t ≠ .ub := by
  unfold GenC.generateType
  refine bind_safe ?_ fun _ => ok_safe _
  cases t with
  | uint w =>
    simp only [GenC.targetType]
    repeat' split
    all_goals simp
  | _ => simp [GenC.targetType]

theorem mkUint_safe {ε : Type} (x : Int) : CType.mkUint (ε := ε) x ≠ .ub := by
  unfold CType.mkUint
  refine bind_safe ?_ fun _ => bind_safe ?_ fun _ => bind_safe ?_ fun _ => ok_safe _ <;>
  · unfold Outcome.assert
    split <;> simp

theorem type_safe (o : GenC.Options) (d : GenC.Dialect) (t : AType) : GenC.type o d t ≠ .ub := by
  unfold GenC.type
  refine bind_safe ?_ fun a => ?_
  · unfold AType.concreteType
    split
    · simp
    · rename_i w _
      have := mkUint_safe (ε := GenC.GenError) (w : Int)
      cases hm : CType.mkUint (ε := GenC.GenError) (w : Int) <;> simp_all
    · simp
  · cases a with
    | none => simp
    | some t => exact generateType_safe o d t

theorem constValue_safe {cv : Option Value} (h : cv ≠ none) : GenC.constValue cv ≠ .ub := by
  cases cv with
  | none => exact absurd rfl h
  | some v =>
    obtain ⟨t, x⟩ := v
    cases x <;> simp [GenC.constValue]

theorem constant_safe (o : GenC.Options) (d : GenC.Dialect) (n : Nat) (b : Bool) {cv : Option Value} (h : cv ≠ none)
    (x : Name) : GenC.constant o d n b cv x ≠ .ub := by
  unfold GenC.constant
  split
  · cases cv with
    | none => exact absurd rfl h
    | some v =>
      exact bind_safe (generateType_safe o d _) fun _ => bind_safe (constValue_safe (by simp)) fun _ => ok_safe _
  · simp

section

variable {s : ASt} {min : Level} {cs : C.Consts} {o : GenC.Options} {d : GenC.Dialect}

mutual

theorem expr_safe (hr : Reads cs s) : {e : AExpr} → Typed (ctxOf min s) e.erase → ∀ b, GenC.expr cs o d b e ≠ .ub
  | .literal _ cv l, h, _ => by
    simp only [AExpr.erase] at h
    cases h with
    | literal h => simp only [GenC.expr]; exact constValue_safe (by simp)
  | .id _ cv x ref g, h, _ => by
    simp only [AExpr.erase] at h
    simp only [GenC.expr]
    split
    · rename_i k
      split
      · rename_i cv' hc
        split
        · simp
        · refine constValue_safe ?_
          have hd : s.decl k = some ⟨.const_, cv'⟩ := hr _ _ hc
          cases h with
          | var _ h => rw [unknown_decl hd h]; simp
          | const_ h => rw [const_decl hd h]; simp
      · simp
    · simp
  | .conversion _ cv e t, h, _ => by
    simp only [AExpr.erase] at h
    generalize ht : t.eraseType = t' at h
    cases h with
    | conversion h _ _ _ _ =>
      simp only [GenC.expr]
      exact bind_safe (type_safe o d t) fun _ => bind_safe (expr_safe hr h _) fun _ => ok_safe _
  | .ite _ cv l c r, h, _ => by
    simp only [AExpr.erase] at h
    cases h with
    | ite h1 h2 h3 _ _ _ _ _ =>
      simp only [GenC.expr]
      exact bind_safe (expr_safe hr h2 _) fun _ => bind_safe (expr_safe hr h1 _) fun _ =>
        bind_safe (expr_safe hr h3 _) fun _ => ok_safe _
  | .binary _ cv op l r, h, _ => by
    simp only [AExpr.erase] at h
    cases h with
    | binary h1 h2 _ _ _ _ =>
      simp only [GenC.expr]
      exact bind_safe (expr_safe hr h1 _) fun _ => bind_safe (expr_safe hr h2 _) fun _ => ok_safe _
  | .prefix _ cv op e, h, _ => by
    simp only [AExpr.erase] at h
    cases h with
    | pre h _ _ _ =>
      simp only [GenC.expr]
      exact bind_safe (expr_safe hr h _) fun _ => ok_safe _
  | .call _ cv st x ref args, h, _ => by
    simp only [AExpr.erase] at h
    generalize ha : eraseAll args = as at h
    simp only [GenC.expr]
    refine bind_safe (arguments_safe (es := args) hr ?_ _) fun _ => ok_safe _
    rw [ha]
    cases h with
    | call _ h _ => exact h
    | builtin h _ _ => exact h

theorem arguments_safe (hr : Reads cs s) : {es : List AExpr} → (∀ e ∈ eraseAll es, Typed (ctxOf min s) e) →
    ∀ b, GenC.arguments cs o d b es ≠ .ub
  | [], _, _ => by simp [GenC.arguments]
  | e :: es, h, _ => by
    simp only [GenC.arguments]
    exact bind_safe (expr_safe hr (h _ (by simp [eraseAll])) _) fun _ =>
      bind_safe (arguments_safe hr (fun e he => h e (by simp [eraseAll, he])) _) fun _ => ok_safe _

end

theorem asBlockC_safe {b : AStmt} {r : Outcome GenC.GenError (List Char × Bool)} (h : r ≠ .ub) :
    GenC.asBlockC b r ≠ .ub := by
  unfold GenC.asBlockC
  split
  · exact h
  · simp

mutual

theorem stmt_safe {ret : CType} (hr : Reads cs s) : {st : AStmt} → {loop : Bool} →
    TypedS (ctxOf min s) ret loop st.erase → ∀ n b, GenC.stmt cs o d n b st ≠ .ub
  | .const_ k cv x t e, loop, h, n, b => by
    simp only [AStmt.erase] at h
    simp only [GenC.stmt]
    refine bind_safe (constant_safe o d n b ?_ x) fun _ => ok_safe _
    cases h <;> simp
  | .let_ k cv x t e, loop, h, n, b => by
    simp only [AStmt.erase] at h
    generalize he : e.map AExpr.erase = e' at h
    have hi : GenC.optInitializer cs o d e ≠ .ub := by
      cases e with
      | none => simp [GenC.optInitializer]
      | some e =>
        cases he
        cases h with
        | letInit _ _ h _ _ => exact bind_safe (expr_safe hr h _) fun _ => ok_safe _
    have hcv : ∃ v, cv = some v := by cases h <;> exact ⟨_, rfl⟩
    obtain ⟨v, rfl⟩ := hcv
    simp only [GenC.stmt]
    exact bind_safe (generateType_safe o d _) fun _ => bind_safe hi fun _ => ok_safe _
  | .staticAssert .., _, _, _, _ => by simp [GenC.stmt]
  | .ifThen _ _ c t, loop, h, n, b => by
    simp only [AStmt.erase] at h
    cases h with
    | ifThen h _ _ h' =>
      simp only [GenC.stmt]
      exact bind_safe (expr_safe hr h _) fun _ => bind_safe (asBlockC_safe (stmt_safe hr h' _ _)) fun _ => ok_safe _
  | .ifElse _ _ c t e, loop, h, n, b => by
    simp only [AStmt.erase] at h
    cases h with
    | ifElse h _ _ h' h'' =>
      simp only [GenC.stmt]
      refine bind_safe (expr_safe hr h _) fun _ => bind_safe (asBlockC_safe (stmt_safe hr h' _ _)) fun _ => ?_
      split
      · exact bind_safe (stmt_safe hr h'' _ _) fun _ => ok_safe _
      · exact bind_safe (asBlockC_safe (stmt_safe hr h'' _ _)) fun _ => ok_safe _
  | .while_ _ _ c t, loop, h, n, b => by
    simp only [AStmt.erase] at h
    cases h with
    | while_ h _ _ h' =>
      simp only [GenC.stmt]
      exact bind_safe (expr_safe hr h _) fun _ => bind_safe (asBlockC_safe (stmt_safe hr h' _ _)) fun _ => ok_safe _
  | .control _ cv c e, loop, h, n, b => by
    simp only [AStmt.erase] at h
    generalize he : e.map AExpr.erase = e' at h
    simp only [GenC.stmt]
    refine bind_safe ?_ fun _ => ok_safe _
    cases e with
    | none => simp [GenC.optValue]
    | some e =>
      cases he
      cases h with
      | return_ h _ _ _ => exact bind_safe (expr_safe (e := e) hr h _) fun _ => ok_safe _
  | .assign _ cv x ref e, loop, h, n, b => by
    simp only [AStmt.erase] at h
    cases h with
    | assign _ _ h _ _ _ =>
      simp only [GenC.stmt]
      exact bind_safe (expr_safe hr h _) fun _ => ok_safe _
  | .block _ _ ss, loop, h, n, b => by
    simp only [AStmt.erase] at h
    cases h with
    | block h =>
      simp only [GenC.stmt]
      exact bind_safe (stmts_safe hr h _) fun _ => ok_safe _
  | .call e, loop, h, n, b => by
    cases e with
    | call k cv st x ref args =>
      simp only [AStmt.erase, AExpr.erase] at h
      generalize ha : eraseAll args = as at h
      have hs : ∀ st, GenC.expr cs o d false (.call k cv st x ref args) ≠ .ub := by
        intro st'
        simp only [GenC.expr]
        refine bind_safe (arguments_safe (es := args) (min := min) hr ?_ _) fun _ => ok_safe _
        rw [ha]
        cases h with
        | call h =>
          cases h with
          | call _ h _ => exact h
          | builtin h _ _ => exact h
      cases st <;> simp only [GenC.stmt] <;> exact bind_safe (hs _) fun _ => ok_safe _
    | _ => simp only [AStmt.erase, AExpr.erase] at h; cases h

theorem stmts_safe {ret : CType} (hr : Reads cs s) : {ss : List AStmt} → {loop : Bool} →
    TypedSs (ctxOf min s) ret loop (eraseStmts ss) → ∀ n, GenC.stmts cs o d n ss ≠ .ub
  | [], _, _, _ => by simp [GenC.stmts]
  | a :: ss, loop, h, n => by
    simp only [eraseStmts] at h
    cases h with
    | cons h h' =>
      have h1 := stmt_safe hr h n true
      have h2 := stmts_safe hr h' n
      simp only [GenC.stmts]
      split
      · exact bind_safe h2 fun _ => ok_safe _
      · exact h2
      · simp
      · simp
      · rename_i he; exact absurd he h1

end

theorem parameters_safe : (ps : List AParam) → ∀ b, GenC.parameters o d b ps ≠ .ub
  | [], _ => by simp [GenC.parameters]
  | p :: ps, b => by
    simp only [GenC.parameters]
    exact bind_safe (type_safe o d _) fun _ => bind_safe (parameters_safe ps _) fun _ => ok_safe _

end

/-- The generator of C code has no undefined behaviour on declarations whose values are found. -/
theorem decls_safe {cs : C.Consts} {o : GenC.Options} {d : GenC.Dialect} : {ds : List ADecl} →
    (∀ x ∈ ds, ∀ sol, GenC.decl cs o d sol x ≠ .ub) → ∀ b, GenC.decls cs o d b ds ≠ .ub
  | [], _, _ => by simp [GenC.decls]
  | a :: ds, h, b => by
    have h1 := h a (by simp) true
    have h2 := fun b => decls_safe (ds := ds) (fun x hx => h x (by simp [hx])) b
    simp only [GenC.decls]
    split
    · exact bind_safe (h2 _) fun _ => ok_safe _
    · exact h2 _
    · simp
    · simp
    · rename_i he; exact absurd he h1

/-! ## BMS -/

theorem asBlock_some {b : AStmt} {r : Outcome Unit (List Char × Bool)} (h : IsBlock b) : GenBms.asBlock b r = r := by
  cases b <;> first | rfl | exact absurd h (by simp [IsBlock])

theorem isIf_iff (s : AStmt) : GenBms.isIf s = true ↔ IsIf s := by
  cases s <;> simp [GenBms.isIf, IsIf]

mutual

theorem bms_stmt_ok (o : GenBms.Options) : (s : AStmt) → BlocksS s → ∀ n b, ∃ r, GenBms.stmt o n b s = .ok r
  | .const_ .., _, _, _ | .let_ .., _, _, _ | .staticAssert .., _, _, _ | .control .., _, _, _
  | .assign .., _, _, _ => by simp only [GenBms.stmt]; exact ⟨_, rfl⟩
  | .ifThen _ _ c t, h, n, b => by
    obtain ⟨r, hr⟩ := bms_stmt_ok o t h.2 n false
    simp only [GenBms.stmt, asBlock_some h.1, hr, Outcome.ok_bind]
    exact ⟨_, rfl⟩
  | .ifElse _ _ c t e, h, n, b => by
    obtain ⟨r, hr⟩ := bms_stmt_ok o t h.2.1 n false
    simp only [GenBms.stmt, asBlock_some h.1, hr, Outcome.ok_bind]
    by_cases hi : GenBms.isIf e = true
    · obtain ⟨r', hr'⟩ := bms_stmt_ok o e h.2.2.2 n false
      simp only [hi, if_true, hr', Outcome.ok_bind]
      exact ⟨_, rfl⟩
    · obtain ⟨r', hr'⟩ := bms_stmt_ok o e h.2.2.2 n r.2
      have hb : IsBlock e := h.2.2.1.resolve_left fun h => hi ((isIf_iff e).2 h)
      simp only [hi, asBlock_some hb, hr']
      exact ⟨_, rfl⟩
  | .while_ _ _ c t, h, n, b => by
    obtain ⟨r, hr⟩ := bms_stmt_ok o t h.2 n false
    simp only [GenBms.stmt, asBlock_some h.1, hr, Outcome.ok_bind]
    exact ⟨_, rfl⟩
  | .block _ _ ss, h, n, b => by
    obtain ⟨r, hr⟩ := bms_stmts_ok o ss h (n + 1)
    simp only [GenBms.stmt, hr, Outcome.ok_bind]
    exact ⟨_, rfl⟩
  | .call e, _, n, b => by
    cases e with
    | call k cv st x r args => cases st <;> simp only [GenBms.stmt] <;> exact ⟨_, rfl⟩
    | _ => simp only [GenBms.stmt]; exact ⟨_, rfl⟩

theorem bms_stmts_ok (o : GenBms.Options) : (ss : List AStmt) → BlocksSs ss → ∀ n, ∃ r, GenBms.stmts o n ss = .ok r
  | [], _, _ => ⟨_, rfl⟩
  | s :: ss, h, n => by
    obtain ⟨r, hr⟩ := bms_stmt_ok o s h.1 n true
    obtain ⟨r', hr'⟩ := bms_stmts_ok o ss h.2 n
    simp only [GenBms.stmts, hr, hr', Outcome.ok_bind]
    exact ⟨_, rfl⟩

end

theorem bms_decls_ok (o : GenBms.Options) : (ds : List ADecl) → (∀ d ∈ ds, BlocksD d) → ∀ b,
    ∃ r, GenBms.decls o b ds = .ok r
  | [], _, _ => ⟨_, rfl⟩
  | d :: ds, h, b => by
    obtain ⟨r', hr'⟩ := bms_decls_ok o ds (fun x hx => h x (by simp [hx])) false
    have h1 := h d (by simp)
    have : ∃ r, GenBms.decl o true d = .ok r := by
      cases d with
      | const_ => exact ⟨_, rfl⟩
      | staticAssert => exact ⟨_, rfl⟩
      | function f =>
        obtain ⟨r, hr⟩ := bms_stmt_ok o (.block f.bodyKey none f.body) h1 0 false
        simp only [GenBms.decl, GenBms.function, hr, Outcome.ok_bind]
        exact ⟨_, rfl⟩
    obtain ⟨r, hr⟩ := this
    simp only [GenBms.decls, hr, hr', Outcome.ok_bind]
    exact ⟨_, rfl⟩

theorem bms_program_ok (o : GenBms.Options) {ds : List ADecl} (h : ∀ d ∈ ds, BlocksD d) :
    ∃ r, GenBms.program o ds = .ok r := by
  obtain ⟨r, hr⟩ := bms_decls_ok o ds h true
  simp only [GenBms.program, hr, Outcome.ok_bind]
  exact ⟨_, rfl⟩

end Gen

end Bms
