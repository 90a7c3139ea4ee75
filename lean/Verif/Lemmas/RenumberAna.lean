import Verif.Lemmas.RenumberInst
import Verif.Lemmas.BlameState

/-!
# Other addresses of nodes: type analysis

Analysis of a program with other addresses of nodes does the same, step by step. The copies of nodes that
instantiation of generic functions makes have addresses that correspond too.
-/

namespace Bms

open Spec

namespace Renumber

/-- States that are equal apart from the addresses of nodes. -/
structure On (τ : Key → Key) (s s' : ASt) : Prop where
  decl : ∀ k, s'.decl (τ k) = s.decl k
  fns : ∀ k, s'.fns (τ k) = (s.fns k).map (fn τ)
  code : s'.code = s.code.map (instr τ)
  stack : s'.stack = s.stack.map τ
  next : ∀ k, τ (k + s.next) = τ k + s'.next

/-- Results that are equal apart from the addresses of nodes. -/
def ResOn (τ : Key → Key) {α β : Type} (g : α → β) : ARes α → ARes β → Prop
  | .ok a s, .ok b s' => b = g a ∧ On τ s s'
  | .err e, .err e' => e' = error τ e
  | .throws, .throws => True
  | .ub, .ub => True
  | .timeout, .timeout => True
  | _, _ => False

/-- Analyses that do the same apart from the addresses of nodes. -/
def Same (τ : Key → Key) {α β : Type} (g : α → β) (x : AM α) (x' : AM β) : Prop :=
  ∀ s s', On τ s s' → ResOn τ g (x s) (x' s')

variable {τ : Key → Key}

namespace Same

variable {α β γ δ : Type} {g : α → β} {h : γ → δ}

theorem pure {a : α} {b : β} (e : b = g a) : Same τ g (Pure.pure a) (Pure.pure b) := fun _ _ hs => ⟨e, hs⟩

theorem bind {x : AM α} {x' : AM β} {f : α → AM γ} {f' : β → AM δ} (hx : Same τ g x x')
    (hf : ∀ a, Same τ h (f a) (f' (g a))) : Same τ h (x >>= f) (x' >>= f') := by
  intro s s' hs
  have h1 := hx s s' hs
  show ResOn τ h (AM.bind x f s) (AM.bind x' f' s')
  unfold AM.bind
  cases hr : x s <;> cases hr' : x' s' <;> rw [hr, hr'] at h1 <;> first | exact h1.elim | skip
  · obtain ⟨rfl, h2⟩ := h1
    exact hf _ _ _ h2
  · exact h1
  · trivial
  · trivial
  · trivial

theorem read {f : ASt → AM α} {f' : ASt → AM β} (hf : ∀ s s', On τ s s' → Same τ g (f s) (f' s')) :
    Same τ g (AM.read >>= f) (AM.read >>= f') := fun s s' hs => hf s s' hs s s' hs

theorem modify {f f' : ASt → ASt} (hf : ∀ s s', On τ s s' → On τ (f s) (f' s')) :
    Same τ (fun a => a) (AM.modify f) (AM.modify f') := fun s s' hs => ⟨rfl, hf s s' hs⟩

theorem fail {c : ACode} {k : Key} : Same τ g (AM.fail c k) (AM.fail c (τ k)) := fun _ _ _ => rfl

theorem throws : Same τ g (AM.throws : AM α) AM.throws := fun _ _ _ => trivial

theorem ub : Same τ g (AM.ub : AM α) AM.ub := fun _ _ _ => trivial

theorem timeout : Same τ g (AM.timeout : AM α) AM.timeout := fun _ _ _ => trivial

theorem value {o : Option α} {o' : Option β} (e : o' = o.map g) : Same τ g (AM.value o) (AM.value o') := by
  subst e
  cases o with
  | none => exact fun _ _ _ => trivial
  | some a => exact fun _ _ hs => ⟨rfl, hs⟩

theorem deref {o : Option α} {o' : Option β} (e : o' = o.map g) : Same τ g (AM.deref o) (AM.deref o') := by
  subst e
  cases o with
  | none => exact fun _ _ _ => trivial
  | some a => exact fun _ _ hs => ⟨rfl, hs⟩

theorem assert {b b' : Bool} (e : b' = b) : Same τ (fun a => a) (AM.assert b) (AM.assert b') := by
  subst e
  cases b' with
  | true => exact fun _ _ hs => ⟨rfl, hs⟩
  | false => exact fun _ _ _ => trivial

theorem lift {ε : Type} {f f' : ε → AErr} {o : Outcome ε α} {o' : Outcome ε β} (e : o' = o.map g)
    (hf : ∀ e, f' e = error τ (f e)) : Same τ g (AM.lift f o) (AM.lift f' o') := by
  subst e
  cases o with
  | ok a => exact fun _ _ hs => ⟨rfl, hs⟩
  | err e => exact fun _ _ _ => hf e
  | throws => exact fun _ _ _ => trivial
  | ub => exact fun _ _ _ => trivial

theorem getOutcome {o : Outcome AErr α} {o' : Outcome AErr β} (e : o' = outcome τ g o) :
    Same τ g (AM.get o) (AM.get o') := by
  subst e
  cases o with
  | ok a => exact fun _ _ hs => ⟨rfl, hs⟩
  | err e => exact fun _ _ _ => rfl
  | throws => exact fun _ _ _ => trivial
  | ub => exact fun _ _ _ => trivial

theorem get {o o' : Outcome AErr α} (e : o' = o) (hn : ∀ e, o ≠ .err e) : Same τ (fun a => a) (AM.get o) (AM.get o') := by
  subst e
  cases o' with
  | ok a => exact fun _ _ hs => ⟨rfl, hs⟩
  | err e => exact absurd rfl (hn e)
  | throws => exact fun _ _ _ => trivial
  | ub => exact fun _ _ _ => trivial

theorem cond {p p' : Prop} {d : Decidable p} {d' : Decidable p'} {x y : AM α} {x' y' : AM β} (e : p' ↔ p)
    (hx : p → Same τ g x x') (hy : ¬ p → Same τ g y y') : Same τ g (if p then x else y) (if p' then x' else y') := by
  by_cases hp : p
  · rw [if_pos hp, if_pos (e.mpr hp)]
    exact hx hp
  · rw [if_neg hp, if_neg (fun h => hp (e.mp h))]
    exact hy hp

end Same

/-- The value of an expression. -/
theorem valueE (e : AExpr) : Same τ (fun a => a) (AM.value e.cv) (AM.value (expr τ e).cv) :=
  .value (by rw [exprCv_ren]; simp)

theorem derefE (e : AExpr) : Same τ (fun a => a) (AM.deref e.cv) (AM.deref (expr τ e).cv) :=
  .deref (by rw [exprCv_ren]; simp)

theorem valueO {α : Type} (o : Option α) : Same τ (fun a => a) (AM.value o) (AM.value o) := .value (by simp)

theorem derefO {α : Type} (o : Option α) : Same τ (fun a => a) (AM.deref o) (AM.deref o) := .deref (by simp)

theorem valueT (t : AType) : Same τ (fun a => a) (AM.value t.cv) (AM.value (type τ t).cv) :=
  .value (by rw [typeCv_ren]; simp)

theorem getT (t : AType) : Same τ (fun a => a) (AM.get t.concreteType) (AM.get (type τ t).concreteType) :=
  .get (concreteType_ren t) (concreteType_noErr t)

theorem getBool (v : Value) : Same τ (fun a => a) (AM.get v.asBool) (AM.get v.asBool) := .get rfl (asBool_noErr v)

theorem liftO {ε α : Type} {f f' : ε → AErr} (o : Outcome ε α) (hf : ∀ e, f' e = error τ (f e)) :
    Same τ (fun a => a) (AM.lift f o) (AM.lift f' o) := .lift (by cases o <;> rfl) hf

theorem checked_same {α : Type} (k : Key) (o : Outcome CheckErr α) :
    Same τ (fun a => a) (Ana.checked k o) (Ana.checked (τ k) o) := liftO o fun _ => rfl

theorem fold_same (o : Outcome EvalErr Value) (t : CType) (b : Bool) (k : Key) :
    Same τ (fun a => a) (foldResult o t b k) (foldResult o t b (τ k)) := by
  cases o with
  | ok v => exact .pure rfl
  | err e => exact .cond Iff.rfl (fun _ => .fail) fun _ => .pure rfl
  | throws => exact .throws
  | ub => exact .ub

/-! ## States -/

theorem On.setDecl (hi : Ren τ) {s s' : ASt} (h : On τ s s') (k : Key) (d : Decl) :
    On τ (s.setDecl k d) (s'.setDecl (τ k) d) where
  decl j := by simp only [ASt.setDecl, hi.eq, h.decl]
  fns := h.fns
  code := h.code
  stack := h.stack
  next := h.next

theorem On.setFn (hi : Ren τ) {s s' : ASt} (h : On τ s s') (k : Key) (f : AFn) :
    On τ (s.setFn k f) (s'.setFn (τ k) (fn τ f)) where
  decl := h.decl
  fns j := by
    simp only [ASt.setFn, hi.eq, h.fns]
    by_cases e : j = k
    · simp [e]
    · simp [e]
  code := h.code
  stack := h.stack
  next := h.next

theorem On.env {s s' : ASt} (h : On τ s s') (k : Key) : s'.env (τ k) = s.env k := by
  simp only [ASt.env, h.fns, Option.map_map]
  cases s.fns k with
  | none => rfl
  | some f => exact congrArg some (info_ren f)

theorem declareParams_ren (hi : Ren τ) (ps : List AParam) {d d' : Key → Option Decl} (h : ∀ k, d' (τ k) = d k) (k : Key) :
    Ana.declareParams (ps.map (param τ)) d' (τ k) = Ana.declareParams ps d k := by
  induction ps generalizing d d' with
  | nil => exact h k
  | cons p ps ih =>
    refine ih (d := _) (d' := _) fun k => ?_
    obtain ⟨kp, x, ty⟩ := p
    have h1 : ∀ k, (if τ k = τ kp then some (⟨.param, (type τ ty).cv⟩ : Decl) else d' (τ k)) =
        if k = kp then some ⟨.param, ty.cv⟩ else d k := by
      intro k
      simp only [hi.eq, typeCv_ren, h]
    cases ty with
    | base => exact h1 k
    | uint kt cv c w =>
      cases w with
      | id ki cvi name r g =>
        cases g with
        | false => exact h1 k
        | true =>
          simp only [param, type, expr, hi.eq]
          by_cases e : k = ki
          · simp only [e, if_true]
          · simp only [e, if_false]
            have := h1 k
            simp only [type, expr, AType.cv] at this
            simpa only [hi.eq, AType.cv] using this
      | _ => exact h1 k

mutual

theorem declareStmt_ren (hi : Ren τ) : (t : AStmt) → {d d' : Key → Option Decl} → (∀ k, d' (τ k) = d k) → ∀ k,
    Ana.declareStmt (stmt τ t) d' (τ k) = Ana.declareStmt t d k
  | .const_ .., _, _, h, k => by simp only [stmt, Ana.declareStmt, hi.eq, h]
  | .let_ .., _, _, h, k => by simp only [stmt, Ana.declareStmt, hi.eq, h]
  | .staticAssert .., _, _, h, k => by simp only [stmt, Ana.declareStmt, h]
  | .ifThen _ _ _ t, _, _, h, k => by
    simp only [stmt, Ana.declareStmt]
    exact declareStmt_ren hi t h k
  | .ifElse _ _ _ t e, _, _, h, k => by
    simp only [stmt, Ana.declareStmt]
    exact declareStmt_ren hi e (declareStmt_ren hi t h) k
  | .while_ _ _ _ t, _, _, h, k => by
    simp only [stmt, Ana.declareStmt]
    exact declareStmt_ren hi t h k
  | .control .., _, _, h, k => by simp only [stmt, Ana.declareStmt, h]
  | .assign .., _, _, h, k => by simp only [stmt, Ana.declareStmt, h]
  | .block _ _ ss, _, _, h, k => by
    simp only [stmt, Ana.declareStmt]
    exact declareStmts_ren hi ss h k
  | .call _, _, _, h, k => by simp only [stmt, Ana.declareStmt, h]

theorem declareStmts_ren (hi : Ren τ) : (ts : List AStmt) → {d d' : Key → Option Decl} → (∀ k, d' (τ k) = d k) → ∀ k,
    Ana.declareStmts (stmts τ ts) d' (τ k) = Ana.declareStmts ts d k
  | [], _, _, h, k => by simp only [stmts, Ana.declareStmts, h]
  | t :: ts, _, _, h, k => by
    simp only [stmts, Ana.declareStmts]
    exact declareStmts_ren hi ts (declareStmt_ren hi t h) k

end

theorem On.addFunction (hi : Ren τ) {s s' : ASt} (h : On τ s s') (f : AFn) :
    On τ (Ana.addFunction f s) (Ana.addFunction (fn τ f) s') where
  decl := declareStmts_ren hi f.body (declareParams_ren hi f.params h.decl)
  fns := (h.setFn hi f.k f).fns
  code := h.code
  stack := h.stack
  next := h.next

theorem On.double {s s' : ASt} (h : On τ s s') :
    On τ { s with next := s.next + s.next } { s' with next := s'.next + s'.next } where
  decl := h.decl
  fns := h.fns
  code := h.code
  stack := h.stack
  next k := by
    have h1 := h.next (k + s.next)
    rw [h.next k] at h1
    show τ (k + (s.next + s.next)) = τ k + (s'.next + s'.next)
    rw [← Nat.add_assoc, ← Nat.add_assoc]
    exact h1

/-! ## Expressions -/

theorem literal_same (k : Key) (cv : Option Value) (l : Option Lit) :
    Same τ (expr τ) (Ana.literal k cv l) (Ana.literal (τ k) cv l) := by
  unfold Ana.literal
  cases cv with
  | some v => exact .bind (.assert rfl) fun _ => .pure (by simp only [expr])
  | none =>
    cases l with
    | none => exact .throws
    | some l =>
      cases l with
      | true_ => exact .pure (by simp only [expr])
      | false_ => exact .pure (by simp only [expr])
      | integer text =>
        simp only []
        cases parseIntegerLiteral text with
        | some x => exact .pure (by simp only [expr])
        | none => exact .fail

theorem fns_isNone {s s' : ASt} (h : On τ s s') {k : Key} (e : s.fns k = none) : s'.fns (τ k) = none := by
  rw [h.fns, e]
  rfl

theorem fns_some {s s' : ASt} (h : On τ s s') {k : Key} {f : AFn} (e : s.fns k = some f) :
    s'.fns (τ k) = some (fn τ f) := by
  rw [h.fns, e]
  rfl

theorem idValue_same (k : Key) (r : Option Lookup) (ctx : ECtx) :
    Same τ (fun a => a) (Ana.idValue k r ctx) (Ana.idValue (τ k) (r.map (lookup τ)) ctx) := by
  unfold Ana.idValue
  cases r with
  | none => exact .throws
  | some r =>
    cases r with
    | builtin f => exact .throws
    | param p =>
      refine .cond Iff.rfl (fun _ => .fail) fun _ => .read fun s s' hs => ?_
      simp only [hs.decl]
      cases s.decl p with
      | none => exact .throws
      | some d => exact .pure rfl
    | node j =>
      refine .read fun s s' hs => ?_
      cases hf : s.fns j with
      | some f =>
        simp only [fns_some hs hf]
        exact .fail
      | none =>
        simp only [fns_isNone hs hf, hs.decl]
        cases s.decl j with
        | none => exact .throws
        | some d =>
          obtain ⟨kd, cv⟩ := d
          cases kd with
          | let_ =>
            refine .cond Iff.rfl (fun _ => .fail) fun _ => ?_
            cases cv with
            | none => exact .fail
            | some v => exact .pure rfl
          | const_ =>
            cases cv with
            | none => exact .fail
            | some v => exact .pure rfl
          | width =>
            cases cv with
            | none => exact .throws
            | some v => exact .cond Iff.rfl (fun _ => .fail) fun _ => .pure rfl
          | param => exact .throws

theorem rightContext_same (k : Key) (op : ExprType) (l : Option Value) (ctx : ECtx) :
    Same τ (fun a => a) (Ana.rightContext k op l ctx) (Ana.rightContext (τ k) op l ctx) := by
  unfold Ana.rightContext
  exact .cond Iff.rfl (fun _ => .bind (derefO l) fun l => .cond Iff.rfl (fun _ => .fail) fun _ =>
    .bind (getBool l) fun b => .pure rfl) fun _ => .pure rfl

theorem deduce_same : (as : List AExpr) → (ps : List AParam) →
    Same τ (fun a => a) (Ana.deduce as ps) (Ana.deduce (exprs τ as) (ps.map (param τ)))
  | [], _ => by
    simp only [exprs, Ana.deduce]
    exact .pure rfl
  | _ :: _, [] => by
    simp only [exprs, List.map_nil, Ana.deduce]
    exact .pure rfl
  | a :: as, p :: ps => by
    have ih := deduce_same as ps
    obtain ⟨kp, x, ty⟩ := p
    simp only [exprs, List.map_cons, Ana.deduce, param]
    refine .bind (.assert (by rw [typeCv_ren])) fun _ => ?_
    cases ty with
    | base => exact .throws
    | uint kt cv c w =>
      simp only [type]
      cases c with
      | some c => exact ih
      | none =>
        cases w with
        | id ki cvi name r g =>
          cases g with
          | false => exact ih
          | true =>
            simp only [expr]
            refine .bind (valueE a) fun v => .cond Iff.rfl (fun _ => ?_) fun _ => .bind ih fun ws => .pure rfl
            rw [exprKey_ren]
            exact .fail
        | _ =>
          simp only [expr]
          exact ih

theorem callee_same (hi : Ren τ) (f : AFn) (args : List AExpr) :
    Same τ τ (Ana.callee f args) (Ana.callee (fn τ f) (exprs τ args)) := by
  unfold Ana.callee
  refine .cond Iff.rfl (fun _ => ?_) fun _ => .pure rfl
  refine .bind (.assert (by simp [fn])) fun _ => .bind (deduce_same args f.params) fun ws => .read fun s s' hs => ?_
  refine .bind (.getOutcome (instFunction_ren hi hs.next f ws)) fun q => ?_
  obtain ⟨i, o⟩ := q
  cases o with
  | none => exact .pure rfl
  | some g =>
    refine .bind (.modify fun s s' hs => (hs.addFunction hi g).double) fun _ => .bind (.modify fun s s' hs => ?_) fun _ =>
      .pure rfl
    have := hs.setFn hi f.k { f with instances := f.instances ++ [i] }
    simpa only [fn, List.map_append, List.map_cons, List.map_nil] using this

theorem passArgs_same (k : Key) (ctx : ECtx) : (as : List AExpr) → (ps : List AParam) →
    Same τ (fun a => a) (Ana.passArgs k ctx as ps) (Ana.passArgs (τ k) ctx (exprs τ as) (ps.map (param τ)))
  | [], _ => by
    simp only [exprs, Ana.passArgs]
    exact .pure rfl
  | _ :: _, [] => by
    simp only [exprs, List.map_nil, Ana.passArgs]
    exact .pure rfl
  | a :: as, p :: ps => by
    have ih := passArgs_same k ctx as ps
    simp only [exprs, List.map_cons, Ana.passArgs]
    refine .bind (getT p.type) fun t => .bind (valueO t) fun t => .bind (valueE a) fun v =>
      .cond Iff.rfl (fun _ => .fail) fun _ => ?_
    cases evalConversionV v t with
    | ok w =>
      refine .cond Iff.rfl (fun _ => ?_) fun _ => ih
      exact .bind (.get rfl (concrete_noErr w)) fun c => .bind ih fun cs => .pure rfl
    | err e => exact .cond Iff.rfl (fun _ => .fail) fun _ => ih
    | throws => exact .throws
    | ub => exact .ub

theorem exprs_length (es : List AExpr) : (exprs τ es).length = es.length := by
  induction es with
  | nil => simp [exprs]
  | cons e es ih => simp [exprs, ih]

theorem mapM_value_same (es : List AExpr) :
    Same τ (fun a => a) (es.mapM fun (a : AExpr) => AM.value a.cv) ((exprs τ es).mapM fun (a : AExpr) => AM.value a.cv) := by
  induction es with
  | nil =>
    simp only [exprs, List.mapM_nil]
    exact .pure rfl
  | cons e es ih =>
    simp only [exprs, List.mapM_cons]
    exact .bind (valueE e) fun v => .bind ih fun vs => .pure rfl

section
variable (hi : Ren τ) {n : Nat} {af af' : Key → Level → AM Unit} (haf : ∀ k l, Same τ (fun a => a) (af k l) (af' (τ k) l))
include hi haf

theorem callFunction_same (k j : Key) (args : List AExpr) (level : Level) (ctx : ECtx) :
    Same τ (fun q => (τ q.1, q.2)) (Ana.callFunction n af k j args level ctx)
      (Ana.callFunction n af' (τ k) (τ j) (exprs τ args) level ctx) := by
  unfold Ana.callFunction
  refine .read fun s s' hs => ?_
  cases hf : s.fns j with
  | none =>
    simp only [fns_isNone hs hf]
    exact .fail
  | some f =>
    simp only [fns_some hs hf]
    refine .cond (by simp [fn, exprs_length]) (fun _ => .fail) fun _ => ?_
    refine .bind (callee_same hi f args) fun j => .read fun s s' hs => ?_
    refine .bind (.value (hs.fns j)) fun f => .bind (.assert rfl) fun _ => ?_
    refine .cond (by rw [hs.stack, mem_ren hi]) (fun _ => .fail) fun _ => ?_
    refine .bind (haf _ _) fun _ => .read fun s s' hs => .bind (.value (hs.fns j)) fun f => .bind (.assert rfl) fun _ => ?_
    refine .bind (derefO f.cv) fun r => .cond Iff.rfl (fun _ => ?_) fun _ => ?_
    · refine .bind (valueO f.address) fun a => .bind (.assert (by rw [hs.code, List.length_map])) fun _ => ?_
      refine .bind (passArgs_same k ctx args f.params) fun cs => ?_
      have hc := constantCall_ren hi { Vm.initial with instructions := s.code } a cs n
      rw [show vm τ { Vm.initial with instructions := s.code } = { Vm.initial with instructions := s'.code } by
        rw [hs.code]; rfl] at hc
      rw [hc]
      cases constantCall { Vm.initial with instructions := s.code } a cs n with
      | none => exact .timeout
      | some o =>
        cases o with
        | ok v => exact .pure rfl
        | err e => exact .fail
        | throws => exact .throws
        | ub => exact .ub
    · exact .bind (passArgs_same k ctx args f.params) fun _ => .pure rfl

mutual

theorem expr_same : (e : AExpr) → (level : Level) → (ctx : ECtx) →
    Same τ (expr τ) (Ana.expr n af e level ctx) (Ana.expr n af' (expr τ e) level ctx)
  | .literal .., _, _ => by
    simp only [expr, Ana.expr]
    exact literal_same _ _ _
  | .id k cv x r g, _, ctx => by
    simp only [expr, Ana.expr]
    cases cv with
    | some v => exact .pure (by simp only [expr])
    | none => exact .bind (idValue_same k r ctx) fun cv => .pure (by simp only [expr])
  | .conversion k cv e ty, level, ctx => by
    simp only [expr, Ana.expr]
    refine .bind (expr_same e level ctx) fun e => .bind (type_same ty) fun t => .bind (valueE e) fun v => ?_
    refine .bind (getT t) fun u => .bind (valueO u) fun u => .cond Iff.rfl (fun _ => .fail) fun _ => ?_
    exact .bind (fold_same _ _ _ _) fun w => .pure (by simp only [expr])
  | .ite k cv l c r, level, ctx => by
    simp only [expr, Ana.expr]
    refine .bind (expr_same c level ctx) fun c => .bind (derefE c) fun v => .cond Iff.rfl (fun _ => .fail) fun _ => ?_
    have hrest : ∀ chosen : Option Bool, Same τ (expr τ)
        (do
          let left ← Ana.expr n af l level (if chosen = some false then .normal else ctx)
          let right ← Ana.expr n af r level (if chosen = some true then .normal else ctx)
          let l ← AM.deref left.cv
          let r ← AM.deref right.cv
          let t ← Ana.checked k (checkIf l.type v.type r.type)
          match evalIfV l v r with
          | .ok w => Pure.pure (AExpr.ite k (some w) left c right)
          | .err _ =>
            if ctx = .constant then AM.throws
            else Pure.pure (AExpr.ite k (some (Value.unknownOf t)) left c right)
          | .throws => AM.throws
          | .ub => AM.ub)
        (do
          let left ← Ana.expr n af' (expr τ l) level (if chosen = some false then .normal else ctx)
          let right ← Ana.expr n af' (expr τ r) level (if chosen = some true then .normal else ctx)
          let l ← AM.deref left.cv
          let r ← AM.deref right.cv
          let t ← Ana.checked (τ k) (checkIf l.type v.type r.type)
          match evalIfV l v r with
          | .ok w => Pure.pure (AExpr.ite (τ k) (some w) left (expr τ c) right)
          | .err _ =>
            if ctx = .constant then AM.throws
            else Pure.pure (AExpr.ite (τ k) (some (Value.unknownOf t)) left (expr τ c) right)
          | .throws => AM.throws
          | .ub => AM.ub) := by
      intro chosen
      refine .bind (expr_same l level _) fun l => .bind (expr_same r level _) fun r => .bind (derefE l) fun x =>
        .bind (derefE r) fun y => .bind (checked_same k _) fun t => ?_
      cases evalIfV x v y with
      | ok w => exact .pure (by simp only [expr])
      | err e => exact .cond Iff.rfl (fun _ => .throws) fun _ => .pure (by simp only [expr])
      | throws => exact .throws
      | ub => exact .ub
    refine .cond Iff.rfl (fun _ => ?_) fun _ => ?_
    · exact .bind (.assert rfl) fun _ => .bind (getBool v) fun b => .bind (.pure (g := fun a => a) rfl) fun ch => hrest ch
    · exact .bind (.pure (g := fun a => a) rfl) fun ch => hrest ch
  | .binary k cv op l r, level, ctx => by
    simp only [expr, Ana.expr]
    refine .bind (expr_same l level ctx) fun l => .bind (.assert (by rw [exprCv_ren])) fun _ => ?_
    simp only [exprCv_ren]
    refine .bind (rightContext_same k op l.cv ctx) fun c => .bind (expr_same r level c) fun r => ?_
    simp only [exprCv_ren]
    refine .bind (.assert rfl) fun _ => .bind (derefO _) fun x => .bind (derefO _) fun y => ?_
    exact .bind (checked_same k _) fun t => .bind (fold_same _ _ _ _) fun w => .pure (by simp only [expr])
  | .prefix k cv op e, level, ctx => by
    simp only [expr, Ana.expr]
    exact .bind (expr_same e level ctx) fun e => .bind (valueE e) fun v => .bind (checked_same k _) fun t =>
      .bind (fold_same _ _ _ _) fun w => .pure (by simp only [expr])
  | .call k cv st x r args, level, ctx => by
    simp only [expr]
    rw [Ana.expr.eq_def, Ana.expr.eq_def]
    cases r with
    | none => exact .throws
    | some r =>
      cases r with
      | builtin f =>
        refine .bind (exprs_same args level ctx) fun args => .bind (mapM_value_same args) fun vs => ?_
        exact .bind (checked_same k _) fun _ => .bind (liftO _ fun _ => rfl) fun w => .pure (by simp only [expr]; rfl)
      | param p => exact .bind (exprs_same args level ctx) fun _ => .ub
      | node j =>
        refine .bind (exprs_same args level ctx) fun args => .bind (callFunction_same hi haf k j args level ctx) fun q => ?_
        exact .pure (by simp only [expr]; rfl)

theorem type_same : (t : AType) → Same τ (type τ) (Ana.type n af t) (Ana.type n af' (type τ t))
  | .base k cv b => by
    simp only [type, Ana.type]
    cases cv with
    | some v => exact .pure (by simp only [type])
    | none => exact .pure (by simp only [type])
  | .uint k cv c w => by
    simp only [type]
    rw [Ana.type.eq_def, Ana.type.eq_def]
    cases cv with
    | some v => exact .pure (by simp only [type])
    | none =>
      refine .bind (expr_same w _ _) fun w => .bind (valueE w) fun v => ?_
      rw [exprKey_ren]
      refine .cond Iff.rfl (fun _ => .fail) fun _ => .bind (.get rfl (asInt_noErr v)) fun x =>
        .cond Iff.rfl (fun _ => .fail) fun _ => .bind (.get rfl (mkUint_noErr x)) fun t => .pure (by simp only [type])

theorem exprs_same : (es : List AExpr) → (level : Level) → (ctx : ECtx) →
    Same τ (exprs τ) (Ana.exprs n af es level ctx) (Ana.exprs n af' (exprs τ es) level ctx)
  | [], _, _ => by
    simp only [exprs, Ana.exprs]
    exact .pure (by simp only [exprs])
  | e :: es, level, ctx => by
    simp only [exprs, Ana.exprs]
    exact .bind (expr_same e level ctx) fun e => .bind (valueE e) fun _ => .bind (exprs_same es level ctx) fun es =>
      .pure (by simp only [exprs])

end

/-! ## Statements -/

theorem declaredType_same (t : AType) :
    Same τ (fun q => (type τ q.1, q.2)) (Ana.declaredType n af t) (Ana.declaredType n af' (type τ t)) :=
  .bind (type_same hi haf t) fun t => .bind (valueT t) fun v => .pure rfl

theorem const_same (k : Key) (t : Option AType) (e : AExpr) :
    Same τ (fun q => (q.1, q.2.1.map (type τ), expr τ q.2.2)) (Ana.const_ n af k t e)
      (Ana.const_ n af' (τ k) (t.map (type τ)) (expr τ e)) := by
  cases t with
  | none => exact .bind (expr_same hi haf e _ _) fun e => .bind (derefE e) fun v => .bind (.assert rfl) fun _ => .pure rfl
  | some t =>
    refine .bind (declaredType_same hi haf t) fun q => .bind (expr_same hi haf e _ _) fun e => .bind (derefE e) fun v => ?_
    exact .cond Iff.rfl (fun _ => .fail) fun _ => .bind (liftO _ fun _ => rfl) fun w => .pure rfl

theorem let_same (k : Key) (t : Option AType) (e : Option AExpr) (level : Level) :
    Same τ (fun q => (q.1, q.2.1.map (type τ), q.2.2.map (expr τ))) (Ana.let_ n af k t e level)
      (Ana.let_ n af' (τ k) (t.map (type τ)) (e.map (expr τ)) level) := by
  cases t with
  | none =>
    cases e with
    | none => exact .throws
    | some e => exact .bind (expr_same hi haf e _ _) fun e => .bind (valueE e) fun v => .pure rfl
  | some t =>
    cases e with
    | none => exact .bind (declaredType_same hi haf t) fun q => .pure rfl
    | some e =>
      refine .bind (declaredType_same hi haf t) fun q => .bind (expr_same hi haf e _ _) fun e => .bind (derefE e) fun v => ?_
      exact .cond Iff.rfl (fun _ => .fail) fun _ => .pure rfl

theorem staticAssert_same (k : Key) (e : AExpr) :
    Same τ (fun q => (q.1, expr τ q.2)) (Ana.staticAssert n af k e) (Ana.staticAssert n af' (τ k) (expr τ e)) := by
  refine .bind (expr_same hi haf e _ _) fun e => .bind (.assert (by rw [exprCv_ren])) fun _ => .bind (derefE e) fun v => ?_
  exact .cond Iff.rfl (fun _ => .fail) fun _ => .bind (getBool v) fun b => .cond Iff.rfl (fun _ => .fail) fun _ => .pure rfl

theorem condition_same (k : Key) (e : AExpr) (level : Level) :
    Same τ (expr τ) (Ana.condition n af k e level) (Ana.condition n af' (τ k) (expr τ e) level) :=
  .bind (expr_same hi haf e _ _) fun e => .bind (valueE e) fun v => .cond Iff.rfl (fun _ => .fail) fun _ => .pure rfl

mutual

theorem stmt_same {ret : CType} {level : Level} : (t : AStmt) → (loop : Bool) →
    Same τ (stmt τ) (Ana.stmt n af ret level loop t) (Ana.stmt n af' ret level loop (stmt τ t))
  | .const_ k cv name ty e, loop => by
    simp only [stmt]
    rw [Ana.stmt.eq_def, Ana.stmt.eq_def]
    cases cv with
    | some v => exact .pure (by simp only [stmt])
    | none =>
      exact .bind (const_same hi haf k ty e) fun q => .bind (.modify fun s s' hs => hs.setDecl hi k _) fun _ =>
        .pure (by simp only [stmt])
  | .let_ k cv name ty e, loop => by
    simp only [stmt, Ana.stmt]
    exact .bind (let_same hi haf k ty e level) fun q => .bind (.modify fun s s' hs => hs.setDecl hi k _) fun _ =>
      .pure (by simp only [stmt])
  | .staticAssert k cv e, loop => by
    simp only [stmt]
    rw [Ana.stmt.eq_def, Ana.stmt.eq_def]
    cases cv with
    | some v => exact .bind (.assert rfl) fun _ => .pure (by simp only [stmt])
    | none => exact .bind (staticAssert_same hi haf k e) fun q => .pure (by simp only [stmt])
  | .ifThen k cv c t, loop => by
    simp only [stmt, Ana.stmt]
    exact .bind (condition_same hi haf k c level) fun c => .bind (stmt_same t loop) fun t => .pure (by simp only [stmt])
  | .ifElse k cv c t e, loop => by
    simp only [stmt, Ana.stmt]
    exact .bind (condition_same hi haf k c level) fun c => .bind (stmt_same t loop) fun t => .bind (stmt_same e loop) fun e =>
      .pure (by simp only [stmt])
  | .while_ k cv c t, loop => by
    simp only [stmt, Ana.stmt]
    exact .bind (condition_same hi haf k c level) fun c => .bind (stmt_same t true) fun t => .pure (by simp only [stmt])
  | .control k cv c e, loop => by
    simp only [stmt]
    rw [Ana.stmt.eq_def, Ana.stmt.eq_def]
    cases c with
    | break_ => exact .cond Iff.rfl (fun _ => .pure (by simp only [stmt])) fun _ => .fail
    | continue_ => exact .cond Iff.rfl (fun _ => .pure (by simp only [stmt])) fun _ => .fail
    | return_ =>
      cases e with
      | none => exact .cond Iff.rfl (fun _ => .fail) fun _ => .pure (by simp only [stmt]; rfl)
      | some e =>
        refine .bind (expr_same hi haf e _ _) fun e => .bind (valueE e) fun v => .cond Iff.rfl (fun _ => .fail) fun _ => ?_
        exact .bind (fold_same _ _ _ _) fun w => .pure (by simp only [stmt]; rfl)
  | .assign k cv name r e, loop => by
    simp only [stmt]
    rw [Ana.stmt.eq_def, Ana.stmt.eq_def]
    cases r with
    | none => exact .throws
    | some r =>
      cases r with
      | builtin f => exact .throws
      | param p => exact .fail
      | node j =>
        refine .read fun s s' hs => ?_
        cases hf : s.fns j with
        | some f =>
          simp only [fns_some hs hf]
          exact .fail
        | none =>
          simp only [fns_isNone hs hf, hs.decl]
          cases s.decl j with
          | none => exact .throws
          | some d =>
            obtain ⟨kd, o⟩ := d
            cases kd with
            | let_ =>
              refine .bind (expr_same hi haf e _ _) fun e => .bind (valueE e) fun v => .read fun s s' hs => ?_
              refine .bind (.value (g := fun a => a) (by rw [hs.decl]; simp)) fun d => .bind (valueO _) fun d =>
                .cond Iff.rfl (fun _ => .fail) fun _ => ?_
              exact .bind (fold_same _ _ _ _) fun w => .pure (by simp only [stmt, Option.map_some, lookup])
            | const_ => exact .fail
            | param => exact .throws
            | width => exact .throws
  | .block k cv ss, loop => by
    simp only [stmt, Ana.stmt]
    exact .bind (stmts_same ss loop) fun ss => .pure (by simp only [stmt])
  | .call e, loop => by
    simp only [stmt, Ana.stmt]
    exact .bind (expr_same hi haf e _ _) fun e => .pure (by simp only [stmt])

theorem stmts_same {ret : CType} {level : Level} : (ts : List AStmt) → (loop : Bool) →
    Same τ (stmts τ) (Ana.stmts n af ret level loop ts) (Ana.stmts n af' ret level loop (stmts τ ts))
  | [], loop => by
    simp only [stmts, Ana.stmts]
    exact .pure (by simp only [stmts])
  | t :: ts, loop => by
    simp only [stmts, Ana.stmts]
    exact .bind (stmt_same t loop) fun t => .bind (stmts_same ts loop) fun ts => .pure (by simp only [stmts])

end

/-! ## Functions -/

omit haf in
theorem updateFn_same (k : Key) {g g' : AFn → AFn} (hg : ∀ f, g' (fn τ f) = fn τ (g f)) :
    Same τ (fun a => a) (Ana.updateFn k g) (Ana.updateFn (τ k) g') := by
  refine .read fun s s' hs => .bind (.value (hs.fns k)) fun f => .modify fun s s' hs => ?_
  rw [hg]
  exact hs.setFn hi k (g f)

theorem params_same (k : Key) : (ps before : List AParam) →
    Same τ (fun a => a) (Ana.params n af k before ps)
      (Ana.params n af' (τ k) (before.map (param τ)) (ps.map (param τ)))
  | [], before => by
    simp only [List.map_nil, Ana.params]
    exact .pure rfl
  | p :: ps, before => by
    simp only [List.map_cons, Ana.params]
    refine .bind (type_same hi haf p.type) fun t => .bind (updateFn_same hi k fun f => ?_) fun _ =>
      .bind (.modify fun s s' hs => ?_) fun _ => ?_
    · simp only [fn, List.map_append, List.map_cons, param]
    · have := hs.setDecl hi p.k ⟨.param, t.cv⟩
      rw [typeCv_ren]
      exact this
    · have := params_same k ps (before ++ [⟨p.k, p.name, t⟩])
      simpa only [List.map_append, List.map_cons, List.map_nil, param] using this

theorem requires_same (k : Key) (e : AExpr) :
    Same τ (fun a => a) (Ana.requires_ n af k e) (Ana.requires_ n af' (τ k) (expr τ e)) := by
  unfold Ana.requires_
  rw [exprCv_ren]
  cases e.cv with
  | some v => exact .pure rfl
  | none =>
    refine .bind (expr_same hi haf e _ _) fun e => .bind (updateFn_same hi k fun f => ?_) fun _ => ?_
    · simp only [fn, exprCv_ren, Option.map_some]
    · rw [exprCv_ren, exprKey_ren]
      refine .bind (.assert rfl) fun _ => .bind (derefO _) fun v => .cond Iff.rfl (fun _ => .fail) fun _ => ?_
      exact .bind (getBool v) fun b => .cond Iff.rfl (fun _ => .fail) fun _ => .pure rfl

end

theorem compile_same (hi : Ren τ) (k : Key) : Same τ (fun a => a) (Ana.compile k) (Ana.compile (τ k)) := by
  refine .read fun s s' hs => .bind (.value (hs.fns k)) fun f => ?_
  have hl := loadFunction_ren hs.env f.node s.code
  rw [← node_ren, ← hs.code] at hl
  refine .bind (.lift hl fun _ => rfl) fun q => .bind (.modify fun s s' hs => ?_) fun _ => updateFn_same hi k fun f => rfl
  exact ⟨hs.decl, hs.fns, rfl, hs.stack, hs.next⟩

theorem forM_same {α β : Type} {g : α → β} {x : α → AM Unit} {x' : β → AM Unit}
    (h : ∀ a, Same τ (fun a => a) (x a) (x' (g a))) : (l : List α) → Same τ (fun a => a) (l.forM x) ((l.map g).forM x')
  | [] => .pure rfl
  | a :: l => .bind (h a) fun _ => forM_same h l

theorem function_same (hi : Ren τ) : (n : Nat) → (k : Key) → (level : Level) →
    Same τ (fun a => a) (Ana.function n k level) (Ana.function n (τ k) level)
  | 0, k, level => by
    rw [Ana.function, Ana.function]
    exact .timeout
  | n + 1, k, level => by
    have ih := function_same hi n
    rw [Ana.function, Ana.function]
    refine .bind (.assert rfl) fun _ => .read fun s s' hs => .bind (.value (hs.fns k)) fun f => ?_
    refine .cond Iff.rfl (fun _ => .pure rfl) fun _ => .cond Iff.rfl (fun _ =>
      forM_same (g := inst τ) (x := fun i => Ana.function n i.key level) (x' := fun i => Ana.function n i.key level)
        (fun i => ih i.key level) f.instances) fun _ => ?_
    refine .bind (.assert (by simp [fn])) fun _ => .bind (params_same hi ih k f.params []) fun _ =>
      .bind (type_same hi ih f.ret) fun ret => .bind (updateFn_same hi k fun f => rfl) fun _ =>
      .bind (.modify fun s s' hs => ⟨hs.decl, hs.fns, hs.code, by rw [hs.stack]; rfl, hs.next⟩) fun _ => ?_
    have htail : Same τ (fun a => a)
        (do Ana.updateFn k fun f => { f with cv := ret.cv, level := level }
            AM.modify fun s => { s with stack := s.stack.tail })
        (do Ana.updateFn (τ k) fun f => { f with cv := (type τ ret).cv, level := level }
            AM.modify fun s => { s with stack := s.stack.tail }) :=
      .bind (updateFn_same hi k fun f => by rw [typeCv_ren]; rfl) fun _ =>
        .modify fun s s' hs => ⟨hs.decl, hs.fns, hs.code, by rw [hs.stack]; exact (List.map_tail ..).symm, hs.next⟩
    have hcode : Same τ (fun a => a)
        (if level = .forConst then do
            Ana.compile k
            Ana.updateFn k fun f => { f with cv := ret.cv, level := level }
            AM.modify fun s => { s with stack := s.stack.tail }
          else do
            Ana.updateFn k fun f => { f with cv := ret.cv, level := level }
            AM.modify fun s => { s with stack := s.stack.tail })
        (if level = .forConst then do
            Ana.compile (τ k)
            Ana.updateFn (τ k) fun f => { f with cv := (type τ ret).cv, level := level }
            AM.modify fun s => { s with stack := s.stack.tail }
          else do
            Ana.updateFn (τ k) fun f => { f with cv := (type τ ret).cv, level := level }
            AM.modify fun s => { s with stack := s.stack.tail }) :=
      .cond Iff.rfl (fun _ => .bind (compile_same hi k) fun _ => htail) fun _ => htail
    obtain ⟨kf, cvf, x, ps, r, q, kb, ss, is, ge, ad, lv⟩ := f
    cases q with
    | none =>
      refine .bind (updateFn_same hi k fun f => rfl) fun _ => .cond Iff.rfl (fun _ => ?_) fun _ => hcode
      refine .bind (getT ret) fun t => .bind (valueO t) fun t => .bind (stmts_same hi ih ss false) fun body => ?_
      exact .bind (updateFn_same hi k fun f => rfl) fun _ => hcode
    | some e =>
      refine .bind (requires_same hi ih k e) fun _ =>
        .bind (updateFn_same hi k fun f => rfl) fun _ => .cond Iff.rfl (fun _ => ?_) fun _ => hcode
      refine .bind (getT ret) fun t => .bind (valueO t) fun t => .bind (stmts_same hi ih ss false) fun body => ?_
      exact .bind (updateFn_same hi k fun f => rfl) fun _ => hcode

theorem declAna_same (hi : Ren τ) (n : Nat) (d : ADecl) :
    Same τ (fun a => a) (Ana.decl n d) (Ana.decl n (decl τ d)) := by
  have ih := function_same hi n
  cases d with
  | const_ k cv x t e =>
    cases cv with
    | some v => exact .pure rfl
    | none => exact .bind (const_same hi ih k t e) fun q => .modify fun s s' hs => hs.setDecl hi k _
  | staticAssert k cv e =>
    cases cv with
    | some v => exact .assert rfl
    | none => exact .bind (staticAssert_same hi ih k e) fun q => .pure rfl
  | function f => exact ih f.k .full

theorem declsAna_same (hi : Ren τ) (n : Nat) : (ds : List ADecl) →
    Same τ (fun a => a) (Ana.decls n ds) (Ana.decls n (ds.map (decl τ)))
  | [] => .pure rfl
  | d :: ds => .bind (declAna_same hi n d) fun _ => declsAna_same hi n ds

theorem initial_on (hi : Ren τ) {next next' : Nat} (hn : ∀ k, τ (k + next) = τ k + next') (ds : List ADecl) :
    On τ (Ana.initial ds next) (Ana.initial (ds.map (decl τ)) next') := by
  unfold Ana.initial
  have : ∀ (ds : List ADecl) (s s' : ASt), On τ s s' → On τ
      (ds.foldl (fun s d =>
        match d with
        | .const_ k cv _ _ _ => s.setDecl k ⟨.const_, cv⟩
        | .staticAssert .. => s
        | .function f => Ana.addFunction f s) s)
      ((ds.map (decl τ)).foldl (fun s d =>
        match d with
        | .const_ k cv _ _ _ => s.setDecl k ⟨.const_, cv⟩
        | .staticAssert .. => s
        | .function f => Ana.addFunction f s) s') := by
    intro ds
    induction ds with
    | nil => exact fun _ _ h => h
    | cons d ds ih =>
      intro s s' h
      simp only [List.map_cons, List.foldl_cons]
      refine ih _ _ ?_
      cases d with
      | const_ k cv x t e => exact h.setDecl hi k _
      | staticAssert => exact h
      | function f => exact h.addFunction hi f
  exact this ds _ _ ⟨fun _ => rfl, fun _ => rfl, rfl, rfl, hn⟩

/-- Analysis does not depend on the addresses of nodes. -/
theorem program_ren (hi : Ren τ) {next next' : Nat} (hn : ∀ k, τ (k + next) = τ k + next') (n : Nat) (ds : List ADecl) :
    ResOn τ (fun a => a) (Ana.program n ds next) (Ana.program n (ds.map (decl τ)) next') := by
  unfold Ana.program
  rw [names_ren hi.inj]
  cases Names.program ds with
  | ok ds1 => exact declsAna_same hi n ds1 _ _ (initial_on hi hn ds1)
  | err e => exact rfl
  | throws => trivial
  | ub => trivial

end Renumber

end Bms
