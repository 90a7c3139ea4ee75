import Verif.Spec.Analysis
import Verif.Spec.Generate
import Verif.Spec.Scopes

/-!
# Generators of BMS code read what is written in the source
-/

namespace Bms

open Spec

namespace Gen

/-! ## Lookup and analysis do not change what is written -/

mutual

theorem plainE_strip : (e : AExpr) → plainE (stripE e) = plainE e
  | .literal .. | .id .. => by simp [stripE, plainE]
  | .conversion _ _ e t => by simp [stripE, plainE, plainE_strip e, plainT_strip t]
  | .ite _ _ l c r => by simp [stripE, plainE, plainE_strip l, plainE_strip c, plainE_strip r]
  | .binary _ _ _ l r => by simp [stripE, plainE, plainE_strip l, plainE_strip r]
  | .prefix _ _ _ e => by simp [stripE, plainE, plainE_strip e]
  | .call _ _ _ _ _ args => by simp [stripE, plainE, plainEs_strip args]

theorem plainT_strip : (t : AType) → plainT (stripT t) = plainT t
  | .base .. => by simp [stripT, plainT]
  | .uint _ _ _ w => by simp [stripT, plainT, plainE_strip w]

theorem plainEs_strip : (es : List AExpr) → plainEs (stripEs es) = plainEs es
  | [] => by simp [stripEs, plainEs]
  | e :: es => by simp [stripEs, plainEs, plainE_strip e, plainEs_strip es]

end

theorem plainO_strip (o : Option AExpr) : (o.map stripE).map plainE = o.map plainE := by
  cases o <;> simp [plainE_strip]

theorem plainOT_strip (o : Option AType) : (o.map stripT).map plainT = o.map plainT := by
  cases o <;> simp [plainT_strip]

mutual

theorem plainS_strip : (s : AStmt) → plainS (stripS s) = plainS s
  | .const_ _ _ _ t e => by simp only [stripS, plainS, plainE_strip, plainOT_strip]
  | .let_ _ _ _ t e => by simp only [stripS, plainS, plainO_strip, plainOT_strip]
  | .staticAssert _ _ e => by simp only [stripS, plainS, plainE_strip]
  | .ifThen _ _ c b => by simp only [stripS, plainS, plainE_strip, plainS_strip b]
  | .ifElse _ _ c b e => by simp only [stripS, plainS, plainE_strip, plainS_strip b, plainS_strip e]
  | .while_ _ _ c b => by simp only [stripS, plainS, plainE_strip, plainS_strip b]
  | .control _ _ _ e => by simp only [stripS, plainS, plainO_strip]
  | .assign _ _ _ _ e => by simp only [stripS, plainS, plainE_strip]
  | .block _ _ ss => by simp only [stripS, plainS, plainSs_strip ss]
  | .call e => by simp only [stripS, plainS, plainE_strip]

theorem plainSs_strip : (ss : List AStmt) → plainSs (stripSs ss) = plainSs ss
  | [] => by simp [stripSs, plainSs]
  | s :: ss => by simp only [stripSs, plainSs, plainS_strip s, plainSs_strip ss]

end

theorem plainD_strip (d : ADecl) : plainD (stripD d) = plainD d := by
  cases d with
  | const_ k cv x t e => simp only [stripD, plainD, plainE_strip, plainOT_strip]
  | staticAssert k cv e => simp only [stripD, plainD, plainE_strip]
  | function f =>
    have : f.params.map (plainP ∘ stripParam) = f.params.map plainP :=
      List.map_congr_left fun p _ => by simp [plainP, stripParam, plainT_strip]
    simp only [stripD, plainD, plainF, stripF, plainT_strip, plainO_strip, plainSs_strip, List.map_map, this]

section

variable {R : Lookup → Lookup → Prop}

mutual

theorem plainE_same : {e e' : AExpr} → SameE R e e' → plainE e' = plainE e
  | _, _, .literal | _, _, .id => by simp [plainE]
  | _, _, .conversion h1 h2 => by simp [plainE, plainE_same h1, plainT_same h2]
  | _, _, .ite h1 h2 h3 => by simp [plainE, plainE_same h1, plainE_same h2, plainE_same h3]
  | _, _, .binary h1 h2 => by simp [plainE, plainE_same h1, plainE_same h2]
  | _, _, .pre h => by simp [plainE, plainE_same h]
  | _, _, .call _ h => by simp [plainE, plainEs_same h]
  | _, _, .callNone h => by simp [plainE, plainEs_same h]

theorem plainT_same : {t t' : AType} → SameT R t t' → plainT t' = plainT t
  | _, _, .base => by simp [plainT]
  | _, _, .uint h => by simp [plainT, plainE_same h]

theorem plainEs_same : {e e' : List AExpr} → SameEs R e e' → plainEs e' = plainEs e
  | _, _, .nil => by simp [plainEs]
  | _, _, .cons h h' => by simp [plainEs, plainE_same h, plainEs_same h']

end

theorem plainO_same {o o' : Option AExpr} (h : SameO (SameE R) o o') : o'.map plainE = o.map plainE := by
  cases h with
  | none => rfl
  | some h => simp [plainE_same h]

theorem plainOT_same {o o' : Option AType} (h : SameO (SameT R) o o') : o'.map plainT = o.map plainT := by
  cases h with
  | none => rfl
  | some h => simp [plainT_same h]

mutual

theorem plainS_same : {s s' : AStmt} → SameS R s s' → plainS s' = plainS s
  | _, _, .const_ h h' => by simp only [plainS, plainOT_same h, plainE_same h']
  | _, _, .let_ h h' => by simp only [plainS, plainOT_same h, plainO_same h']
  | _, _, .staticAssert h => by simp only [plainS, plainE_same h]
  | _, _, .ifThen h h' => by simp only [plainS, plainE_same h, plainS_same h']
  | _, _, .ifElse h h' h'' => by simp only [plainS, plainE_same h, plainS_same h', plainS_same h'']
  | _, _, .while_ h h' => by simp only [plainS, plainE_same h, plainS_same h']
  | _, _, .control h => by simp only [plainS, plainO_same h]
  | _, _, .assign h => by simp only [plainS, plainE_same h]
  | _, _, .block h => by simp only [plainS, plainSs_same h]
  | _, _, .call h => by simp only [plainS, plainE_same h]

theorem plainSs_same : {s s' : List AStmt} → SameSs R s s' → plainSs s' = plainSs s
  | _, _, .nil => by simp [plainSs]
  | _, _, .cons h h' => by simp only [plainSs, plainS_same h, plainSs_same h']

end

theorem plainPs_same : {p p' : List AParam} → List.Forall₂ (SameP R) p p' → p'.map plainP = p.map plainP
  | _, _, .nil => rfl
  | _, _, .cons h h' => by
    simp only [List.map_cons, plainPs_same h', plainP, h.2.1, plainT_same h.2.2]

theorem plainF_same {f f' : AFn} (h : SameF R f f') : plainF f' = plainF f := by
  simp only [plainF, h.name, plainPs_same h.params, plainT_same h.ret, plainO_same h.reqs, plainSs_same h.body]

end

/-! ## Shapes -/

theorem isBlock_plain (s : AStmt) : IsBlock (plainS s) ↔ IsBlock s := by
  cases s <;> simp [plainS, IsBlock]

theorem isIf_plain (s : AStmt) : IsIf (plainS s) ↔ IsIf s := by
  cases s <;> simp [plainS, IsIf]

mutual

theorem blocksS_plain : (s : AStmt) → (BlocksS (plainS s) ↔ BlocksS s)
  | .ifThen _ _ c b => by simp only [plainS, BlocksS, isBlock_plain, blocksS_plain b]
  | .ifElse _ _ c b e => by
    simp only [plainS, BlocksS, isBlock_plain, isIf_plain, blocksS_plain b, blocksS_plain e]
  | .while_ _ _ c b => by simp only [plainS, BlocksS, isBlock_plain, blocksS_plain b]
  | .block _ _ ss => by simp only [plainS, BlocksS, blocksSs_plain ss]
  | .const_ .. | .let_ .. | .staticAssert .. | .control .. | .assign .. | .call .. => by simp [plainS, BlocksS]

theorem blocksSs_plain : (ss : List AStmt) → (BlocksSs (plainSs ss) ↔ BlocksSs ss)
  | [] => by simp [plainSs]
  | s :: ss => by simp only [plainSs, BlocksSs, blocksS_plain s, blocksSs_plain ss]

end

theorem blocksD_plain (d : ADecl) : BlocksD (plainD d) ↔ BlocksD d := by
  cases d <;> simp [plainD, BlocksD, plainF, blocksSs_plain]

/-! ## The generator of BMS code -/

theorem exprType_plain (e : AExpr) : GenBms.exprType (plainE e) = GenBms.exprType e := by
  cases e <;> simp [plainE, GenBms.exprType]

variable (o : GenBms.Options)

mutual

theorem expr_plain : (e : AExpr) → GenBms.expr o (plainE e) = GenBms.expr o e
  | .literal .. | .id .. => by simp [plainE, GenBms.expr]
  | .conversion _ _ e t => by simp only [plainE, GenBms.expr, exprType_plain, expr_plain e, type_plain t]
  | .ite _ _ l c r => by
    simp only [plainE, GenBms.expr, exprType_plain, expr_plain l, expr_plain c, expr_plain r]
  | .binary _ _ _ l r => by simp only [plainE, GenBms.expr, exprType_plain, expr_plain l, expr_plain r]
  | .prefix _ _ _ e => by simp only [plainE, GenBms.expr, exprType_plain, expr_plain e]
  | .call _ _ _ _ _ args => by simp only [plainE, GenBms.expr, arguments_plain args]

theorem type_plain : (t : AType) → GenBms.type o (plainT t) = GenBms.type o t
  | .base .. => by simp [plainT, GenBms.type]
  | .uint _ _ _ w => by simp only [plainT, GenBms.type, expr_plain w]

theorem arguments_plain : (es : List AExpr) → ∀ {b : Bool}, GenBms.arguments o b (plainEs es) = GenBms.arguments o b es
  | [], _ => by simp [plainEs]
  | e :: es, b => by simp only [plainEs, GenBms.arguments, expr_plain e, arguments_plain es]

end

theorem optType_plain (t : Option AType) : GenBms.optType o (t.map plainT) = GenBms.optType o t := by
  cases t <;> simp [GenBms.optType, type_plain]

theorem optInitializer_plain (e : Option AExpr) :
    GenBms.optInitializer o (e.map plainE) = GenBms.optInitializer o e := by
  cases e <;> simp [GenBms.optInitializer, expr_plain]

theorem optValue_plain (e : Option AExpr) : GenBms.optValue o (e.map plainE) = GenBms.optValue o e := by
  cases e <;> simp [GenBms.optValue, expr_plain]

theorem asBlock_plain (s : AStmt) (r : Outcome Unit (List Char × Bool)) :
    GenBms.asBlock (plainS s) r = GenBms.asBlock s r := by
  cases s <;> simp [plainS, GenBms.asBlock]

theorem isIf_plain' (s : AStmt) : GenBms.isIf (plainS s) = GenBms.isIf s := by
  cases s <;> simp [plainS, GenBms.isIf]

mutual

theorem stmt_plain : (s : AStmt) → ∀ {n : Nat} {b : Bool}, GenBms.stmt o n b (plainS s) = GenBms.stmt o n b s
  | .const_ _ _ x t e, n, b => by
    simp only [plainS, GenBms.stmt, GenBms.constant, optType_plain, expr_plain]
  | .let_ _ _ x t e, n, b => by simp only [plainS, GenBms.stmt, optType_plain, optInitializer_plain]
  | .staticAssert _ _ e, n, b => by simp only [plainS, GenBms.stmt, GenBms.staticAssert, expr_plain]
  | .ifThen _ _ c t, n, b => by simp only [plainS, GenBms.stmt, asBlock_plain, expr_plain, stmt_plain t]
  | .ifElse _ _ c t e, n, b => by
    simp only [plainS, GenBms.stmt, asBlock_plain, isIf_plain', expr_plain, stmt_plain t, stmt_plain e]
  | .while_ _ _ c t, n, b => by simp only [plainS, GenBms.stmt, asBlock_plain, expr_plain, stmt_plain t]
  | .control _ _ c e, n, b => by simp only [plainS, GenBms.stmt, optValue_plain]
  | .assign _ _ x r e, n, b => by simp only [plainS, GenBms.stmt, expr_plain]
  | .block _ _ ss, n, b => by simp only [plainS, GenBms.stmt, stmts_plain ss]
  | .call (.call k cv true x r args), n, b => by
    have := expr_plain o (.call k cv true x r args)
    simp only [plainE] at this
    simp only [plainS, plainE, GenBms.stmt, this]
  | .call (.call k cv false x r args), n, b => by
    have := expr_plain o (.call k cv false x r args)
    simp only [plainE] at this
    simp only [plainS, plainE, GenBms.stmt, this]
  | .call (.literal k cv l), n, b => by simp [plainS, plainE, GenBms.stmt, GenBms.expr]
  | .call (.id k cv x r g), n, b => by simp [plainS, plainE, GenBms.stmt, GenBms.expr]
  | .call (.conversion k cv e t), n, b => by
    have := expr_plain o (.conversion k cv e t)
    simp only [plainE] at this
    simp only [plainS, plainE, GenBms.stmt, this]
  | .call (.ite k cv l c r), n, b => by
    have := expr_plain o (.ite k cv l c r)
    simp only [plainE] at this
    simp only [plainS, plainE, GenBms.stmt, this]
  | .call (.binary k cv p l r), n, b => by
    have := expr_plain o (.binary k cv p l r)
    simp only [plainE] at this
    simp only [plainS, plainE, GenBms.stmt, this]
  | .call (.prefix k cv p e), n, b => by
    have := expr_plain o (.prefix k cv p e)
    simp only [plainE] at this
    simp only [plainS, plainE, GenBms.stmt, this]

theorem stmts_plain : (ss : List AStmt) → ∀ {n : Nat}, GenBms.stmts o n (plainSs ss) = GenBms.stmts o n ss
  | [], _ => by simp [plainSs]
  | s :: ss, n => by simp only [plainSs, GenBms.stmts, stmt_plain s, stmts_plain ss]

end

theorem parameters_plain : (ps : List AParam) → ∀ {b : Bool},
    GenBms.parameters o b (ps.map plainP) = GenBms.parameters o b ps
  | [], _ => rfl
  | p :: ps, b => by
    simp only [List.map_cons, GenBms.parameters, parameters_plain ps, plainP, type_plain]

theorem decl_plain (d : ADecl) {b : Bool} : GenBms.decl o b (plainD d) = GenBms.decl o b d := by
  cases d with
  | const_ k cv x t e => simp only [plainD, GenBms.decl, GenBms.constant, optType_plain, expr_plain]
  | staticAssert k cv e => simp only [plainD, GenBms.decl, GenBms.staticAssert, expr_plain]
  | function f =>
    have h : GenBms.stmt o 0 false (.block 0 none (plainSs f.body)) =
        GenBms.stmt o 0 false (.block f.bodyKey none f.body) := by
      simp only [GenBms.stmt, stmts_plain]
    simp only [plainD, GenBms.decl, GenBms.function, plainF, parameters_plain, type_plain, h]

theorem decls_plain : (ds : List ADecl) → ∀ {b : Bool}, GenBms.decls o b (ds.map plainD) = GenBms.decls o b ds
  | [], _ => rfl
  | d :: ds, b => by simp only [List.map_cons, GenBms.decls, decl_plain, decls_plain ds]

/-- The generator of BMS code only reads what is written in the source. -/
theorem program_plain (ds : List ADecl) : GenBms.program o (ds.map plainD) = GenBms.program o ds := by
  simp only [GenBms.program, decls_plain]

end Gen

end Bms
