import Verif.Lemmas.RenumberAna
import Verif.Lemmas.GeneratePlain
import Verif.Lemmas.RenumberNew
import Verif.Model.Generate

/-!
# Other addresses of nodes: generated code

The generators of code do not read addresses, except to find the constant that a name is bound to.
-/

namespace Bms

open Spec

namespace Renumber

variable {τ : Key → Key}

theorem exprType_ren (e : AExpr) : GenBms.exprType (expr τ e) = GenBms.exprType e := by
  cases e <;> simp only [expr, GenBms.exprType]

theorem typeC_ren (o : GenC.Options) (d : GenC.Dialect) (t : AType) :
    GenC.type o d (type τ t) = GenC.type o d t := by
  simp only [GenC.type, concreteType_ren]

theorem isIf_ren (s : AStmt) : GenBms.isIf (stmt τ s) = GenBms.isIf s := by
  cases s <;> simp only [stmt, GenBms.isIf]

theorem asBlockC_ren (s : AStmt) (r : Outcome GenC.GenError (List Char × Bool)) :
    GenC.asBlockC (stmt τ s) r = GenC.asBlockC s r := by
  cases s <;> simp only [stmt, GenC.asBlockC]

theorem parametersC_ren (o : GenC.Options) (d : GenC.Dialect) : (ps : List AParam) → ∀ b : Bool,
    GenC.parameters o d b (ps.map (param τ)) = GenC.parameters o d b ps
  | [], b => rfl
  | p :: ps, b => by simp only [List.map_cons, GenC.parameters, param, typeC_ren, parametersC_ren o d ps]

section

variable {cs cs' : Key → Option (Option Value)} (h : ∀ k, cs' (τ k) = cs k) (o : GenC.Options) (d : GenC.Dialect)

include h

mutual

theorem exprC_ren : (e : AExpr) → ∀ b : Bool, GenC.expr cs' o d b (expr τ e) = GenC.expr cs o d b e
  | .literal .., b => by simp only [expr, GenC.expr]
  | .id _ _ x r _, b => by
    cases r with
    | none => simp only [expr, GenC.expr, Option.map_none]
    | some l => cases l <;> simp only [expr, GenC.expr, Option.map_some, lookup, h]
  | .conversion _ _ e t, b => by simp only [expr, GenC.expr, exprC_ren e, typeC_ren, exprType_ren]
  | .ite _ _ l c r, b => by simp only [expr, GenC.expr, exprC_ren l, exprC_ren c, exprC_ren r, exprType_ren]
  | .binary _ _ _ l r, b => by simp only [expr, GenC.expr, exprC_ren l, exprC_ren r, exprType_ren]
  | .prefix _ _ _ e, b => by simp only [expr, GenC.expr, exprC_ren e, exprType_ren]
  | .call _ _ _ _ _ as, b => by simp only [expr, GenC.expr, argumentsC_ren as]

theorem argumentsC_ren : (es : List AExpr) → ∀ b : Bool,
    GenC.arguments cs' o d b (exprs τ es) = GenC.arguments cs o d b es
  | [], b => by simp only [exprs, GenC.arguments]
  | e :: es, b => by simp only [exprs, GenC.arguments, exprC_ren e, argumentsC_ren es]

end

theorem optInitializer_ren (e : Option AExpr) :
    GenC.optInitializer cs' o d (e.map (expr τ)) = GenC.optInitializer cs o d e := by
  cases e with
  | none => rfl
  | some e => simp only [Option.map_some, GenC.optInitializer, exprC_ren h]

theorem optValue_ren (e : Option AExpr) :
    GenC.optValue cs' o d (e.map (expr τ)) = GenC.optValue cs o d e := by
  cases e with
  | none => rfl
  | some e => simp only [Option.map_some, GenC.optValue, exprC_ren h]

mutual

theorem stmtC_ren : (s : AStmt) → ∀ (n : Nat) (b : Bool), GenC.stmt cs' o d n b (stmt τ s) = GenC.stmt cs o d n b s
  | .const_ .., n, b => by simp only [stmt, GenC.stmt]
  | .let_ _ cv _ _ e, n, b => by cases cv <;> simp only [stmt, GenC.stmt, optInitializer_ren h]
  | .staticAssert .., n, b => by simp only [stmt, GenC.stmt]
  | .ifThen _ _ c s, n, b => by simp only [stmt, GenC.stmt, exprC_ren h, asBlockC_ren, stmtC_ren s]
  | .ifElse _ _ c s e, n, b => by
    simp only [stmt, GenC.stmt, exprC_ren h, asBlockC_ren, stmtC_ren s, stmtC_ren e, isIf_ren]
  | .while_ _ _ c s, n, b => by simp only [stmt, GenC.stmt, exprC_ren h, asBlockC_ren, stmtC_ren s]
  | .control .., n, b => by simp only [stmt, GenC.stmt, optValue_ren h]
  | .assign .., n, b => by simp only [stmt, GenC.stmt, exprC_ren h]
  | .block _ _ ss, n, b => by simp only [stmt, GenC.stmt, stmtsC_ren ss]
  | .call (.call k cv st x r as), n, b => by
    have e := exprC_ren h o d (.call k cv st x r as) false
    cases st <;> simp only [expr] at e <;> simp only [stmt, expr, GenC.stmt, e]
  | .call (.literal k cv l), n, b => by simp only [stmt, expr, GenC.stmt, GenC.expr]
  | .call (.id k cv x r g), n, b => by
    have e := exprC_ren h o d (.id k cv x r g) false
    simp only [expr] at e
    simp only [stmt, expr, GenC.stmt, e]
  | .call (.conversion k cv x t), n, b => by
    have e := exprC_ren h o d (.conversion k cv x t) false
    simp only [expr] at e
    simp only [stmt, expr, GenC.stmt, e]
  | .call (.ite k cv l c r), n, b => by
    have e := exprC_ren h o d (.ite k cv l c r) false
    simp only [expr] at e
    simp only [stmt, expr, GenC.stmt, e]
  | .call (.binary k cv p l r), n, b => by
    have e := exprC_ren h o d (.binary k cv p l r) false
    simp only [expr] at e
    simp only [stmt, expr, GenC.stmt, e]
  | .call (.prefix k cv p x), n, b => by
    have e := exprC_ren h o d (.prefix k cv p x) false
    simp only [expr] at e
    simp only [stmt, expr, GenC.stmt, e]

theorem stmtsC_ren : (ss : List AStmt) → ∀ n : Nat, GenC.stmts cs' o d n (stmts τ ss) = GenC.stmts cs o d n ss
  | [], n => by simp only [stmts, GenC.stmts]
  | s :: ss, n => by simp only [stmts, GenC.stmts, stmtC_ren s, stmtsC_ren ss]

end

theorem declC_ren (x : ADecl) (b : Bool) : GenC.decl cs' o d b (decl τ x) = GenC.decl cs o d b x := by
  cases x with
  | const_ => simp only [decl, GenC.decl]
  | staticAssert => simp only [decl, GenC.decl]
  | function f =>
    have hb : GenC.stmt cs' o d 0 false (.block (τ f.bodyKey) none (stmts τ f.body)) =
        GenC.stmt cs o d 0 false (.block f.bodyKey none f.body) := by
      simp only [GenC.stmt, stmtsC_ren h]
    simp only [decl, GenC.decl, GenC.function, fn, typeC_ren, parametersC_ren, hb]

theorem declsC_ren : (ds : List ADecl) → ∀ b : Bool,
    GenC.decls cs' o d b (ds.map (decl τ)) = GenC.decls cs o d b ds
  | [], b => rfl
  | x :: xs, b => by simp only [List.map_cons, GenC.decls, declC_ren h, declsC_ren xs]

end

/-! ## Constants -/

/-- A node with a value. -/
def pair (τ : Key → Key) (p : Key × Option Value) : Key × Option Value := (τ p.1, p.2)

mutual

theorem constantsS_ren : (s : AStmt) → GenC.constantsS (stmt τ s) = (GenC.constantsS s).map (pair τ)
  | .const_ .. => by simp only [stmt, GenC.constantsS, List.map_cons, List.map_nil, pair]
  | .let_ .. => by simp only [stmt, GenC.constantsS, List.map_nil]
  | .staticAssert .. => by simp only [stmt, GenC.constantsS, List.map_nil]
  | .ifThen _ _ _ b => by simp only [stmt, GenC.constantsS, constantsS_ren b]
  | .ifElse _ _ _ b e => by simp only [stmt, GenC.constantsS, constantsS_ren b, constantsS_ren e, List.map_append]
  | .while_ _ _ _ b => by simp only [stmt, GenC.constantsS, constantsS_ren b]
  | .control .. => by simp only [stmt, GenC.constantsS, List.map_nil]
  | .assign .. => by simp only [stmt, GenC.constantsS, List.map_nil]
  | .block _ _ ss => by simp only [stmt, GenC.constantsS, constantsSs_ren ss]
  | .call e => by simp only [stmt, GenC.constantsS, List.map_nil]

theorem constantsSs_ren : (ss : List AStmt) → GenC.constantsSs (stmts τ ss) = (GenC.constantsSs ss).map (pair τ)
  | [] => by simp only [stmts, GenC.constantsSs, List.map_nil]
  | s :: ss => by simp only [stmts, GenC.constantsSs, constantsS_ren s, constantsSs_ren ss, List.map_append]

end

theorem constantNodes_ren : (ds : List ADecl) →
    GenC.constantNodes (ds.map (decl τ)) = (GenC.constantNodes ds).map (pair τ)
  | [] => rfl
  | .const_ .. :: ds => by simp only [List.map_cons, decl, GenC.constantNodes, constantNodes_ren ds, pair]
  | .staticAssert .. :: ds => by simp only [List.map_cons, decl, GenC.constantNodes, constantNodes_ren ds]
  | .function f :: ds => by
    simp only [List.map_cons, decl, GenC.constantNodes, constantNodes_ren ds, fn, constantsSs_ren, List.map_append]

theorem constants_ren (hi : Ren τ) (ds : List ADecl) (k : Key) :
    GenC.constants (ds.map (decl τ)) (τ k) = GenC.constants ds k := by
  simp only [GenC.constants, constantNodes_ren]
  induction GenC.constantNodes ds with
  | nil => rfl
  | cons p l ih =>
    have e : (τ k == τ p.1) = (k == p.1) := by
      by_cases hk : k = p.1
      · rw [hk, beq_self_eq_true, beq_self_eq_true]
      · rw [beq_eq_false_iff_ne.mpr hk, beq_eq_false_iff_ne.mpr fun x => hk (hi.inj _ _ x)]
    obtain ⟨a, v⟩ := p
    simp only [List.map_cons, pair, List.lookup_cons, ih] at e ⊢
    rw [e]

theorem programC_ren (hi : Ren τ) (l : GenC.Language) (o : GenC.Options) (ds : List ADecl) :
    GenC.program l o (ds.map (decl τ)) = GenC.program l o ds :=
  declsC_ren (constants_ren hi ds) _ _ _ _

/-! ## All languages -/

theorem programBms_ren (o : GenBms.Options) (ds : List ADecl) :
    GenBms.program o (ds.map (decl τ)) = GenBms.program o ds := by
  rw [← Gen.program_plain, ← Gen.program_plain (ds := ds), List.map_map]
  exact congrArg _ (List.map_congr_left fun d _ => plainD_ren τ d)

theorem generate_ren (hi : Ren τ) (o : GenC.Options) (l : Gen.Lang) (ds : List ADecl) :
    Gen.generate o l (ds.map (decl τ)) = Gen.generate o l ds := by
  cases l <;> simp only [Gen.generate, programBms_ren, programC_ren hi]

/-! ## The analyzed program -/

theorem result_ren {s s' : ASt} (h : On τ s s') (d : ADecl) : Ana.result s' (decl τ d) = decl τ (Ana.result s d) := by
  cases d with
  | const_ => simp only [decl, Ana.result, h.decl]
  | staticAssert => rfl
  | function f =>
    have hf : s'.fns (fn τ f).k = (s.fns f.k).map (fn τ) := h.fns f.k
    simp only [decl, Ana.result, hf]
    cases s.fns f.k <;> rfl

theorem results_ren {s s' : ASt} (h : On τ s s') (ds : List ADecl) :
    (ds.map (decl τ)).map (Ana.result s') = (ds.map (Ana.result s)).map (decl τ) := by
  rw [List.map_map, List.map_map]
  exact List.map_congr_left fun d _ => result_ren h d

end Renumber

end Bms
