import Verif.Spec.GenBms
import Verif.Spec.Build

/-!
# A syntax tree stands for one program
-/

namespace Bms.GenBms

open Spec
open Tree (node)

theorem lit_unique {x : List Char} {t : TokenType} {a b : Option Lit} (h : LitIs x t a) (h' : LitIs x t b) :
    a = b := by
  cases h with
  | true_ => cases h' with
    | true_ => rfl
    | integer h => exact absurd h (by decide)
  | false_ => cases h' with
    | false_ => rfl
    | integer h => exact absurd h (by decide)
  | integer h => cases h' with
    | true_ => exact absurd h (by decide)
    | false_ => exact absurd h (by decide)
    | integer _ => rfl
    | string => exact absurd h (by decide)
  | string => cases h' with
    | integer h => exact absurd h (by decide)
    | string => rfl

mutual

theorem plain_expr {t : Tree} {a b : AExpr} (h : ExprIs t a) (h' : ExprIs t b) : plainE a = plainE b := by
  cases h with
  | literal h => cases h' with
    | literal h' => rw [plainE, plainE, lit_unique h h']
  | id => cases h' with
    | id => rw [plainE, plainE]
  | conversion h1 h2 => cases h' with
    | conversion h1' h2' => rw [plainE, plainE, plain_expr h1 h1', plain_type h2 h2']
  | ite h1 h2 h3 => cases h' with
    | ite h1' h2' h3' => rw [plainE, plainE, plain_expr h1 h1', plain_expr h2 h2', plain_expr h3 h3']
  | binary h h1 h2 => cases h' with
    | binary h' h1' h2' =>
      rw [h] at h'
      cases h'
      rw [plainE, plainE, plain_expr h1 h1', plain_expr h2 h2']
  | pre h h1 => cases h' with
    | pre h' h1' =>
      rw [h] at h'
      cases h'
      rw [plainE, plainE, plain_expr h1 h1']
  | @call k x args es a h =>
    generalize ht : node (.function_call_expression x false) (args ++ [a]) = t at h'
    cases h' with
    | @call k' x' args' es' a' h' =>
      obtain ⟨e1, e2⟩ := Tree.node.inj ht
      cases e1
      obtain ⟨e3, -⟩ := List.append_inj' e2 rfl
      subst e3
      rw [plainE, plainE, plain_exprs h h']
    | _ => cases ht

theorem plain_type {t : Tree} {a b : AType} (h : TypeIs t a) (h' : TypeIs t b) : plainT a = plainT b := by
  cases h with
  | void => cases h' with
    | void => rw [plainT, plainT]
  | bool => cases h' with
    | bool => rw [plainT, plainT]
  | int => cases h' with
    | int => rw [plainT, plainT]
  | uint h => cases h' with
    | uint h' => rw [plainT, plainT, plain_expr h h']

theorem plain_exprs {ts : List (Option Tree)} {a b : List AExpr} (h : ExprsIs ts a) (h' : ExprsIs ts b) :
    plainEs a = plainEs b := by
  cases h with
  | nil => cases h' with
    | nil => rfl
  | cons h hs => cases h' with
    | cons h' hs' => rw [plainEs, plainEs, plain_expr h h', plain_exprs hs hs']

end

theorem plain_opt {α : Type} {S : Tree → α → Prop} {f : α → α}
    (hf : ∀ {t a b}, S t a → S t b → f a = f b) {o : Option Tree} {a b : Option α} (h : OptIs S o a)
    (h' : OptIs S o b) : a.map f = b.map f := by
  cases h with
  | none => cases h' with
    | none => rfl
  | some h => cases h' with
    | some h' => simp [hf h h']

theorem plain_optType {o : Option Tree} {a b : Option AType} (h : OptIs TypeIs o a) (h' : OptIs TypeIs o b) :
    a.map plainT = b.map plainT := plain_opt (S := TypeIs) (fun h h' => plain_type h h') h h'

theorem plain_optExpr {o : Option Tree} {a b : Option AExpr} (h : OptIs ExprIs o a) (h' : OptIs ExprIs o b) :
    a.map plainE = b.map plainE := plain_opt (S := ExprIs) (fun h h' => plain_expr h h') h h'

mutual

theorem plain_stmt {t : Tree} {a b : AStmt} (h : StmtIs t a) (h' : StmtIs t b) : plainS a = plainS b := by
  cases h with
  | const_ h1 h2 => cases h' with
    | const_ h1' h2' => rw [plainS, plainS, plain_optType h1 h1', plain_expr h2 h2']
  | let_ h1 h2 => cases h' with
    | let_ h1' h2' => rw [plainS, plainS, plain_optType h1 h1', plain_optExpr h2 h2']
  | staticAssert h1 => cases h' with
    | staticAssert h1' => rw [plainS, plainS, plain_expr h1 h1']
  | ifThen h1 h2 => cases h' with
    | ifThen h1' h2' => rw [plainS, plainS, plain_expr h1 h1', plain_stmt h2 h2']
  | ifElse h1 h2 h3 => cases h' with
    | ifElse h1' h2' h3' => rw [plainS, plainS, plain_expr h1 h1', plain_stmt h2 h2', plain_stmt h3 h3']
  | while_ h1 h2 => cases h' with
    | while_ h1' h2' => rw [plainS, plainS, plain_expr h1 h1', plain_stmt h2 h2']
  | break_ => cases h' with
    | break_ => rw [plainS, plainS]
  | continue_ => cases h' with
    | continue_ => rw [plainS, plainS]
  | return_ h1 => cases h' with
    | return_ h1' => rw [plainS, plainS, plain_optExpr h1 h1']
  | assign h1 => cases h' with
    | assign h1' => rw [plainS, plainS, plain_expr h1 h1']
  | block h1 => cases h' with
    | block h1' => rw [plainS, plainS, plain_stmts h1 h1']
  | @call k x args es a h =>
    generalize ht : node (.function_call_expression x true) (args ++ [a]) = t at h'
    cases h' with
    | @call k' x' args' es' a' h' =>
      obtain ⟨e1, e2⟩ := Tree.node.inj ht
      cases e1
      obtain ⟨e3, -⟩ := List.append_inj' e2 rfl
      subst e3
      rw [plainS, plainS, plainE, plainE, plain_exprs h h']
    | _ => cases ht

theorem plain_stmts {ts : List (Option Tree)} {a b : List AStmt} (h : StmtsIs ts a) (h' : StmtsIs ts b) :
    plainSs a = plainSs b := by
  cases h with
  | nil => cases h' with
    | nil => rfl
  | cons h hs => cases h' with
    | cons h' hs' => rw [plainSs, plainSs, plain_stmt h h', plain_stmts hs hs']

end

theorem plain_params {ts : List (Option Tree)} {a b : List AParam} (h : ParamsIs ts a) (h' : ParamsIs ts b) :
    a.map plainP = b.map plainP := by
  induction h generalizing b with
  | nil => cases h'; rfl
  | cons h _ ih =>
    cases h' with
    | cons h' hs' => simp [plainP, plain_type h h', ih hs']

theorem plain_fn {t : Tree} {a b : AFn} (h : FnIs t a) (h' : FnIs t b) : plainF a = plainF b := by
  cases h with
  | mk h1 h2 h3 h4 => cases h' with
    | mk h1' h2' h3' h4' =>
      have e : ∀ {o : Option Tree} {a b : List AParam}, ParamListIs o a → ParamListIs o b →
          a.map plainP = b.map plainP := by
        intro o a b h h'
        cases h with
        | none => cases h'; rfl
        | some h => cases h' with
          | some h' => exact plain_params h h'
      simp only [plainF]
      rw [e h1 h1', plain_type h2 h2', plain_optExpr h3 h3', plain_stmts h4 h4']

theorem plain_decl {t : Tree} {a b : ADecl} (h : DeclIs t a) (h' : DeclIs t b) : plainD a = plainD b := by
  cases h with
  | const_ h1 h2 => cases h' with
    | const_ h1' h2' => rw [plainD, plainD, plain_optType h1 h1', plain_expr h2 h2']
    | function h => cases h
  | staticAssert h => cases h' with
    | staticAssert h' => rw [plainD, plainD, plain_expr h h']
    | function h => cases h
  | function h => cases h' with
    | const_ => cases h
    | staticAssert => cases h
    | function h' => rw [plainD, plainD, plain_fn h h']

theorem plain_decls {ts : List (Option Tree)} {a b : List ADecl} (h : DeclsIs ts a) (h' : DeclsIs ts b) :
    a.map plainD = b.map plainD := by
  induction h generalizing b with
  | nil => cases h'; rfl
  | cons h _ ih =>
    cases h' with
    | cons h' hs' => rw [List.map_cons, List.map_cons, plain_decl h h', ih hs']

/-- Apart from the addresses of nodes, a syntax tree stands for one program. -/
theorem plain_program {t : Tree} {a b : List ADecl} (h : ProgramIs t a) (h' : ProgramIs t b) :
    a.map plainD = b.map plainD := by
  cases h with
  | mk h => cases h' with
    | mk h' => exact plain_decls h h'

/-! ## What is written in the source is not reduced further -/

mutual

theorem plain_plainE : ∀ e : AExpr, plainE (plainE e) = plainE e
  | .literal .. => by simp only [plainE]
  | .id .. => by simp only [plainE]
  | .conversion _ _ e t => by simp only [plainE, plain_plainE e, plain_plainT t]
  | .ite _ _ l c r => by simp only [plainE, plain_plainE l, plain_plainE c, plain_plainE r]
  | .binary _ _ op l r => by simp only [plainE, plain_plainE l, plain_plainE r]
  | .prefix _ _ op e => by simp only [plainE, plain_plainE e]
  | .call _ _ st x _ args => by simp only [plainE, plain_plainEs args]

theorem plain_plainT : ∀ t : AType, plainT (plainT t) = plainT t
  | .base .. => by simp only [plainT]
  | .uint _ _ _ w => by simp only [plainT, plain_plainE w]

theorem plain_plainEs : ∀ es : List AExpr, plainEs (plainEs es) = plainEs es
  | [] => by simp only [plainEs]
  | e :: es => by simp only [plainEs, plain_plainE e, plain_plainEs es]

end

theorem plain_plainOE (e : Option AExpr) : (e.map plainE).map plainE = e.map plainE := by
  cases e <;> simp [plain_plainE]

theorem plain_plainOT (e : Option AType) : (e.map plainT).map plainT = e.map plainT := by
  cases e <;> simp [plain_plainT]

mutual

theorem plain_plainS : ∀ s : AStmt, plainS (plainS s) = plainS s
  | .const_ .. => by simp only [plainS, plain_plainE, plain_plainOT]
  | .let_ .. => by simp only [plainS, plain_plainOE, plain_plainOT]
  | .staticAssert .. => by simp only [plainS, plain_plainE]
  | .ifThen _ _ c b => by simp only [plainS, plain_plainE, plain_plainS b]
  | .ifElse _ _ c b e => by simp only [plainS, plain_plainE, plain_plainS b, plain_plainS e]
  | .while_ _ _ c b => by simp only [plainS, plain_plainE, plain_plainS b]
  | .control .. => by simp only [plainS, plain_plainOE]
  | .assign .. => by simp only [plainS, plain_plainE]
  | .block _ _ ss => by simp only [plainS, plain_plainSs ss]
  | .call e => by simp only [plainS, plain_plainE]

theorem plain_plainSs : ∀ ss : List AStmt, plainSs (plainSs ss) = plainSs ss
  | [] => by simp only [plainSs]
  | s :: ss => by simp only [plainSs, plain_plainS s, plain_plainSs ss]

end

theorem plain_plain (d : ADecl) : plainD (plainD d) = plainD d := by
  cases d with
  | const_ => simp only [plainD, plain_plainE, plain_plainOT]
  | staticAssert => simp only [plainD, plain_plainE]
  | function f =>
    simp only [plainD, plainF, plain_plainT, plain_plainOE, plain_plainSs, List.map_map]
    congr 2
    refine List.map_congr_left fun p _ => ?_
    simp only [Function.comp_apply, plainP, plain_plainT]

end Bms.GenBms
