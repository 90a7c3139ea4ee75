import Verif.Lemmas.RenumberGen
import Verif.Lemmas.RenumberPlain

/-!
# Other addresses of nodes: instances of generic functions
-/

namespace Bms

open Spec

namespace Renumber

variable (τ : Key → Key)

/-- What a copy knows. -/
def remap (b : Nat) (m : Inst.Remap) : Inst.Remap := ⟨m.nodes.map τ, m.params.map τ, b⟩

variable {τ}

/-! ## Which children are null -/

mutual

theorem copyableE_ren : (e : AExpr) → Inst.copyableE (expr τ e) = Inst.copyableE e
  | .literal .. => by simp only [expr, Inst.copyableE]
  | .id .. => by simp only [expr, Inst.copyableE]
  | .conversion _ _ e t => by simp only [expr, Inst.copyableE, copyableE_ren e, copyableT_ren t]
  | .ite _ _ l c r => by simp only [expr, Inst.copyableE, copyableE_ren l, copyableE_ren c, copyableE_ren r]
  | .binary _ _ _ l r => by simp only [expr, Inst.copyableE, copyableE_ren l, copyableE_ren r]
  | .prefix _ _ _ e => by simp only [expr, Inst.copyableE, copyableE_ren e]
  | .call _ _ _ _ _ args => by simp only [expr, Inst.copyableE, copyableEs_ren args]

theorem copyableT_ren : (t : AType) → Inst.copyableT (type τ t) = Inst.copyableT t
  | .base .. => by simp only [type, Inst.copyableT]
  | .uint _ _ _ w => by simp only [type, Inst.copyableT, copyableE_ren w]

theorem copyableEs_ren : (es : List AExpr) → Inst.copyableEs (exprs τ es) = Inst.copyableEs es
  | [] => by simp only [exprs]
  | e :: es => by simp only [exprs, Inst.copyableEs, copyableE_ren e, copyableEs_ren es]

end

theorem copyableOT_ren (t : Option AType) : (t.map (type τ)).any Inst.copyableT = t.any Inst.copyableT := by
  cases t with
  | none => rfl
  | some t => exact copyableT_ren t

theorem copyableOE_ren (e : Option AExpr) : (e.map (expr τ)).any Inst.copyableE = e.any Inst.copyableE := by
  cases e with
  | none => rfl
  | some e => exact copyableE_ren e

theorem copyableAE_ren (e : Option AExpr) : (e.map (expr τ)).all Inst.copyableE = e.all Inst.copyableE := by
  cases e with
  | none => rfl
  | some e => exact copyableE_ren e

mutual

theorem copyableS_ren : (s : AStmt) → Inst.copyableS (stmt τ s) = Inst.copyableS s
  | .const_ _ _ _ t e => by simp only [stmt, Inst.copyableS, copyableOT_ren, copyableE_ren]
  | .let_ _ _ _ t e => by simp only [stmt, Inst.copyableS, copyableOT_ren, copyableOE_ren]
  | .staticAssert _ _ e => by simp only [stmt, Inst.copyableS, copyableE_ren]
  | .ifThen _ _ c b => by simp only [stmt, Inst.copyableS]
  | .ifElse _ _ c b e => by simp only [stmt, Inst.copyableS, copyableE_ren, copyableS_ren b, copyableS_ren e]
  | .while_ _ _ c b => by simp only [stmt, Inst.copyableS, copyableE_ren, copyableS_ren b]
  | .control _ _ c e => by simp only [stmt, Inst.copyableS, copyableOE_ren]
  | .assign _ _ _ _ e => by simp only [stmt, Inst.copyableS, copyableE_ren]
  | .block _ _ ss => by simp only [stmt, Inst.copyableS, copyableSs_ren ss]
  | .call e => by simp only [stmt, Inst.copyableS, copyableE_ren]

theorem copyableSs_ren : (ss : List AStmt) → Inst.copyableSs (stmts τ ss) = Inst.copyableSs ss
  | [] => by simp only [stmts]
  | s :: ss => by simp only [stmts, Inst.copyableSs, copyableS_ren s, copyableSs_ren ss]

end

theorem copyable_ren (f : AFn) : Inst.copyable (fn τ f) = Inst.copyable f := by
  simp only [Inst.copyable, fn, copyableT_ren, copyableAE_ren, copyableSs_ren, List.all_map]
  congr 3
  congr 1
  funext p
  exact copyableT_ren p.type

/-! ## Widths -/

theorem hasWidths_ren (w : List Nat) (i : Nat) (xs : List Nat) :
    outcome τ id (Inst.hasWidths w i xs) = Inst.hasWidths w i xs := by
  induction xs generalizing i with
  | nil => rfl
  | cons x xs ih =>
    simp only [Inst.hasWidths, Inst.getWidth]
    cases w[i]? with
    | none => rfl
    | some y =>
      simp only [Outcome.ok_bind]
      by_cases h : x ≠ y
      · rw [if_pos h]
        rfl
      · rw [if_neg h]
        exact ih (i + 1)

theorem findInstance_ren (w : List Nat) (is : List AInstance) :
    Inst.findInstance w (is.map (inst τ)) = outcome τ (Option.map (inst τ)) (Inst.findInstance w is) := by
  induction is with
  | nil => rfl
  | cons i is ih =>
    simp only [Inst.findInstance, List.map_cons, inst, ih]
    have := hasWidths_ren (τ := τ) w 0 i.widths
    cases h : Inst.hasWidths w 0 i.widths with
    | ok b =>
      simp only [Outcome.ok_bind]
      cases b with
      | true => rfl
      | false => rfl
    | err e =>
      rw [h] at this
      simp only [outcome, Outcome.map_err, Outcome.mapErr_err, Outcome.err.injEq] at this
      simp [outcome, this]
    | throws => rfl
    | ub => rfl

/-! ## Copies -/

theorem mem_ren (hi : Ren τ) (k : Key) (l : List Key) : (τ k ∈ l.map τ) = (k ∈ l) := by
  apply propext
  rw [List.mem_map]
  constructor
  · rintro ⟨a, ha, e⟩
    rw [← hi.inj _ _ e]
    exact ha
  · exact fun h => ⟨k, h, rfl⟩

section
variable (hi : Ren τ) {m : Inst.Remap} {b : Nat} (hb : ∀ k, τ (k + m.base) = τ k + b)
include hi hb

theorem instLookup_ren (r : Option Lookup) :
    Inst.lookup (remap τ b m) (r.map (lookup τ)) = outcome τ (Option.map (lookup τ)) (Inst.lookup m r) := by
  cases r with
  | none => rfl
  | some r =>
    cases r with
    | builtin f => rfl
    | node k =>
      simp only [Option.map_some, lookup, Inst.lookup, remap, mem_ren hi]
      by_cases h : k ∈ m.nodes
      · rw [if_pos h, if_pos h]
        simp [outcome, lookup, hb]
      · rw [if_neg h, if_neg h]
        rfl
    | param k =>
      simp only [Option.map_some, lookup, Inst.lookup, remap, mem_ren hi]
      by_cases h : k ∈ m.params
      · rw [if_pos h, if_pos h]
        simp [outcome, lookup, hb]
      · rw [if_neg h, if_neg h]
        rfl

mutual

theorem instExpr_ren : (e : AExpr) →
    Inst.expr (remap τ b m) (expr τ e) = outcome τ (expr τ) (Inst.expr m e)
  | .literal .. => by simp [Inst.expr, expr, outcome, hb, remap]
  | .id _ _ x r _ => by
    simp only [Inst.expr, expr, instLookup_ren hi hb]
    cases Inst.lookup m r <;> simp [outcome, expr, hb, remap]
  | .conversion _ _ e ty => by
    simp only [Inst.expr, expr, instExpr_ren e, instType_ren ty]
    cases Inst.expr m e <;> cases Inst.type m ty <;> simp [outcome, expr, hb, remap]
  | .ite _ _ l c r => by
    simp only [Inst.expr, expr, instExpr_ren l, instExpr_ren c, instExpr_ren r]
    cases Inst.expr m l <;> cases Inst.expr m c <;> cases Inst.expr m r <;> simp [outcome, expr, hb, remap]
  | .binary _ _ _ l r => by
    simp only [Inst.expr, expr, instExpr_ren l, instExpr_ren r]
    cases Inst.expr m l <;> cases Inst.expr m r <;> simp [outcome, expr, hb, remap]
  | .prefix _ _ _ e => by
    simp only [Inst.expr, expr, instExpr_ren e]
    cases Inst.expr m e <;> simp [outcome, expr, hb, remap]
  | .call _ _ _ x r args => by
    simp only [Inst.expr, expr, instLookup_ren hi hb, instExprs_ren args]
    cases Inst.lookup m r <;> cases Inst.exprs m args <;> simp [outcome, expr, hb, remap]

theorem instType_ren : (ty : AType) →
    Inst.type (remap τ b m) (type τ ty) = outcome τ (type τ) (Inst.type m ty)
  | .base .. => by simp [Inst.type, type, outcome, hb, remap]
  | .uint _ _ _ w => by
    simp only [Inst.type, type, instExpr_ren w]
    cases Inst.expr m w <;> simp [outcome, type, hb, remap]

theorem instExprs_ren : (es : List AExpr) →
    Inst.exprs (remap τ b m) (exprs τ es) = outcome τ (exprs τ) (Inst.exprs m es)
  | [] => by simp [Inst.exprs, exprs, outcome]
  | e :: es => by
    simp only [Inst.exprs, exprs, instExpr_ren e, instExprs_ren es]
    cases Inst.expr m e <;> cases Inst.exprs m es <;> simp [outcome, exprs]

end

theorem instOE_ren (e : Option AExpr) :
    Names.optional (Inst.expr (remap τ b m)) (e.map (expr τ)) =
      outcome τ (Option.map (expr τ)) (Names.optional (Inst.expr m) e) := by
  cases e with
  | none => rfl
  | some e =>
    simp only [Option.map_some, Names.optional, instExpr_ren hi hb]
    cases Inst.expr m e <;> simp [outcome]

theorem instOT_ren (e : Option AType) :
    Names.optional (Inst.type (remap τ b m)) (e.map (type τ)) =
      outcome τ (Option.map (type τ)) (Names.optional (Inst.type m) e) := by
  cases e with
  | none => rfl
  | some e =>
    simp only [Option.map_some, Names.optional, instType_ren hi hb]
    cases Inst.type m e <;> simp [outcome]

mutual

theorem instStmt_ren : (s : AStmt) →
    Inst.stmt (remap τ b m) (stmt τ s) = outcome τ (stmt τ) (Inst.stmt m s)
  | .const_ k cv x ty e => by
    simp only [Inst.stmt, stmt, instOT_ren hi hb, instExpr_ren hi hb]
    cases Names.optional (Inst.type m) ty <;> cases Inst.expr m e <;> simp [outcome, stmt, hb, remap]
  | .let_ k cv x ty e => by
    simp only [Inst.stmt, stmt, instOT_ren hi hb, instOE_ren hi hb]
    cases Names.optional (Inst.type m) ty <;> cases Names.optional (Inst.expr m) e <;> simp [outcome, stmt, hb, remap]
  | .staticAssert _ _ e => by
    simp only [Inst.stmt, stmt, instExpr_ren hi hb]
    cases Inst.expr m e <;> simp [outcome, stmt, hb, remap]
  | .ifThen _ _ c t => by
    simp only [Inst.stmt, stmt, instExpr_ren hi hb, instStmt_ren t]
    cases Inst.expr m c <;> cases Inst.stmt m t <;> simp [outcome, stmt, hb, remap]
  | .ifElse _ _ c t e => by
    simp only [Inst.stmt, stmt, instExpr_ren hi hb, instStmt_ren t, instStmt_ren e]
    cases Inst.expr m c <;> cases Inst.stmt m t <;> cases Inst.stmt m e <;> simp [outcome, stmt, hb, remap]
  | .while_ _ _ c t => by
    simp only [Inst.stmt, stmt, instExpr_ren hi hb, instStmt_ren t]
    cases Inst.expr m c <;> cases Inst.stmt m t <;> simp [outcome, stmt, hb, remap]
  | .control _ _ c e => by
    simp only [Inst.stmt, stmt, instOE_ren hi hb]
    cases Names.optional (Inst.expr m) e <;> simp [outcome, stmt, hb, remap]
  | .assign _ _ x r e => by
    simp only [Inst.stmt, stmt, instLookup_ren hi hb, instExpr_ren hi hb]
    cases Inst.lookup m r <;> cases Inst.expr m e <;> simp [outcome, stmt, hb, remap]
  | .block _ _ ss => by
    simp only [Inst.stmt, stmt, instStmts_ren ss]
    cases Inst.stmts m ss <;> simp [outcome, stmt, hb, remap]
  | .call e => by
    simp only [Inst.stmt, stmt, instExpr_ren hi hb]
    cases Inst.expr m e <;> simp [outcome, stmt]

theorem instStmts_ren : (ss : List AStmt) →
    Inst.stmts (remap τ b m) (stmts τ ss) = outcome τ (stmts τ) (Inst.stmts m ss)
  | [] => by simp [Inst.stmts, stmts, outcome]
  | s :: ss => by
    simp only [Inst.stmts, stmts, instStmt_ren s, instStmts_ren ss]
    cases Inst.stmt m s <;> cases Inst.stmts m ss <;> simp [outcome, stmts]

end

theorem instParams_ren (ps : List AParam) :
    Inst.params (remap τ b m) (ps.map (param τ)) = outcome τ (List.map (param τ)) (Inst.params m ps) := by
  induction ps with
  | nil => rfl
  | cons p ps ih =>
    simp only [Inst.params, List.map_cons, ih]
    rw [show (param τ p).type = type τ p.type from rfl, instType_ren hi hb]
    cases Inst.type m p.type <;> cases Inst.params m ps <;> simp [outcome, param, remap, hb]

end

theorem keysF_ren (f : AFn) : Inst.keys (fn τ f) = (Inst.keys f).map τ := by
  simp only [Inst.keys, fn, keysT_ren, keysSs_ren, List.map_cons, List.map_append, List.flatMap_map, List.map_flatMap,
    param]
  cases f.requires_ <;> simp [Inst.keysO, keysE_ren]

theorem copy_ren (hi : Ren τ) {b b' : Nat} (hb : ∀ k, τ (k + b) = τ k + b') (f : AFn) :
    Inst.copy b' (fn τ f) = outcome τ (fn τ) (Inst.copy b f) := by
  unfold Inst.copy
  simp only [copyable_ren]
  by_cases hc : Inst.copyable f = true
  on_goal 2 =>
    simp only [hc, Bool.false_eq_true, not_false_eq_true, if_true]
    rfl
  · simp only [hc, not_true_eq_false, if_false]
    have hm : (⟨Inst.keys (fn τ f), (fn τ f).params.map AParam.k, b'⟩ : Inst.Remap) =
        remap τ b' ⟨Inst.keys f, f.params.map AParam.k, b⟩ := by
      simp only [remap, keysF_ren, Inst.Remap.mk.injEq, true_and, and_true]
      simp only [fn, List.map_map]
      rfl
    rw [hm]
    simp only [fn]
    rw [instParams_ren hi hb, instType_ren hi hb, instOE_ren hi hb, instStmts_ren hi hb]
    cases Inst.params ⟨Inst.keys f, f.params.map AParam.k, b⟩ f.params <;>
      cases Inst.type ⟨Inst.keys f, f.params.map AParam.k, b⟩ f.ret <;>
      cases Names.optional (Inst.expr ⟨Inst.keys f, f.params.map AParam.k, b⟩) f.requires_ <;>
      cases Inst.stmts ⟨Inst.keys f, f.params.map AParam.k, b⟩ f.body <;> simp [outcome, fn, hb]

theorem substitute_ren (w : List Nat) (ps : List AParam) (ws : List Nat) :
    Inst.substitute w ws (ps.map (param τ)) =
      outcome τ (fun q => (q.1, q.2.map (param τ))) (Inst.substitute w ws ps) := by
  induction ps generalizing ws with
  | nil => rfl
  | cons p ps ih =>
    obtain ⟨k, x, ty⟩ := p
    have hrest : (do
        let (ws, ps) ← Inst.substitute w ws (ps.map (param τ))
        Outcome.ok (ws, param τ ⟨k, x, ty⟩ :: ps)) =
        outcome τ (fun q => (q.1, q.2.map (param τ))) (do
          let (ws, ps) ← Inst.substitute w ws ps
          Outcome.ok (ws, (⟨k, x, ty⟩ : AParam) :: ps)) := by
      rw [ih]
      cases Inst.substitute w ws ps <;> simp [outcome]
    cases ty with
    | base kt cv t => simpa only [List.map_cons, param, type, Inst.substitute] using hrest
    | uint kt cv c e =>
      cases e with
      | id ki cvi name r g =>
        cases g with
        | false => simpa only [List.map_cons, param, type, expr, Inst.substitute] using hrest
        | true =>
          simp only [List.map_cons, param, type, expr, Inst.substitute, Inst.getWidth]
          cases w[ws.length]? with
          | none => rfl
          | some y =>
            simp only [Outcome.ok_bind]
            rw [ih]
            cases Inst.substitute w (ws ++ [y]) ps <;> simp [outcome, param, type, expr]
      | _ => simpa only [List.map_cons, param, type, expr, Inst.substitute] using hrest

theorem instFunction_ren (hi : Ren τ) {b b' : Nat} (hb : ∀ k, τ (k + b) = τ k + b') (f : AFn) (w : List Nat) :
    Inst.function b' (fn τ f) w =
      outcome τ (fun q => (inst τ q.1, q.2.map (fn τ))) (Inst.function b f w) := by
  unfold Inst.function
  rw [show (fn τ f).generic = f.generic from rfl, show (fn τ f).instances = f.instances.map (inst τ) from rfl,
    findInstance_ren, copy_ren hi hb]
  cases f.generic with
  | false => rfl
  | true =>
    simp only [Outcome.assert_true, Outcome.ok_bind]
    cases Inst.findInstance w f.instances with
    | ok o =>
      cases o with
      | some i => rfl
      | none =>
        cases Inst.copy b f with
        | ok g =>
          simp only [outcome, Outcome.map_ok, Outcome.mapErr_ok, Outcome.ok_bind, Option.map_none]
          rw [show (fn τ g).params = g.params.map (param τ) from rfl, substitute_ren]
          cases Inst.substitute w [] g.params <;> simp [outcome, inst, fn]
        | err e => rfl
        | throws => rfl
        | ub => rfl
    | err e => rfl
    | throws => rfl
    | ub => rfl

end Renumber

end Bms
