import Verif.Model.Analyze
import Verif.Lemmas.Run

/-!
# The bound of analysis does not matter if it is large enough
-/

namespace Bms

/-- `x` does not end within its bound, or `y` does the same. -/
def Within {α : Type} (x y : AM α) : Prop := ∀ s, x s = .timeout ∨ y s = x s

namespace Within

variable {α β : Type}

theorem refl (x : AM α) : Within x x := fun _ => .inr rfl

theorem timeout (y : AM α) : Within AM.timeout y := fun _ => .inl rfl

theorem step {x y : AM α} {f g : α → AM β} (h : Within x y) (hf : ∀ a, Within (f a) (g a)) :
    Within (x >>= f) (y >>= g) := by
  intro s
  show AM.bind x f s = .timeout ∨ AM.bind y g s = AM.bind x f s
  unfold AM.bind
  rcases h s with h | h
  · rw [h]
    exact .inl rfl
  · rw [h]
    cases x s with
    | ok a s' => exact hf a s'
    | timeout => exact .inl rfl
    | _ => exact .inr rfl

theorem same {x : AM α} {f g : α → AM β} (hf : ∀ a, Within (f a) (g a)) : Within (x >>= f) (x >>= g) :=
  (refl x).step hf

theorem last {x y : AM α} {f : α → AM β} (h : Within x y) : Within (x >>= f) (y >>= f) :=
  h.step fun a => refl _

theorem cond {c : Prop} [Decidable c] {x y x' y' : AM α} (h : Within x x') (h' : Within y y') :
    Within (if c then x else y) (if c then x' else y') := by
  split
  · exact h
  · exact h'

theorem trans {x y z : AM α} (h : Within x y) (h' : Within y z) : Within x z := by
  intro s
  rcases h s with a | a
  · exact .inl a
  · rcases h' s with b | b
    · exact .inl (a ▸ b)
    · exact .inr (b.trans a)

end Within

open Within

theorem constantCall_within {vm : Vm} {a : Nat} {cs : List CVal} {n m : Nat} (hnm : n ≤ m) :
    constantCall vm a cs n = none ∨ constantCall vm a cs m = constantCall vm a cs n := by
  unfold constantCall
  cases vm.reset.jumpTo (ε := ExecErr) a with
  | ok vm =>
    simp only []
    cases hr : (cs.foldl Vm.pushValue vm).run n with
    | none => exact .inl rfl
    | some r => rw [run_mono hr hnm]; exact .inr rfl
  | _ => exact .inr rfl

section

variable {n m : Nat} {af af' : Key → Level → AM Unit}

theorem callFunction_within (hnm : n ≤ m) (haf : ∀ j l, Within (af j l) (af' j l)) {k j : Key} {args : List AExpr}
    {level : Level} {ctx : ECtx} :
    Within (Ana.callFunction n af k j args level ctx) (Ana.callFunction m af' k j args level ctx) := by
  unfold Ana.callFunction
  refine same fun s => ?_
  cases s.fns j with
  | none => exact refl _
  | some f =>
    refine cond (refl _) (same fun j => same fun s => same fun f => same fun _ => cond (refl _) ?_)
    refine step (haf _ _) fun _ => same fun s => same fun f => same fun _ => same fun r => cond ?_ (refl _)
    refine same fun a => same fun _ => same fun cs => ?_
    rcases constantCall_within (vm := { Vm.initial with instructions := s.code }) (a := a) (cs := cs) hnm with h | h
    · rw [h]
      exact timeout _
    · rw [h]
      exact refl _

mutual

theorem expr_within (hnm : n ≤ m) (haf : ∀ j l, Within (af j l) (af' j l)) : (e : AExpr) → (level : Level) → (ctx : ECtx) →
    Within (Ana.expr n af e level ctx) (Ana.expr m af' e level ctx)
  | .literal .., _, _ => by simp only [Ana.expr]; exact refl _
  | .id .., _, _ => by simp only [Ana.expr]; exact refl _
  | .conversion k cv e ty, level, ctx => by
    simp only [Ana.expr]
    exact step (expr_within hnm haf e level ctx) fun _ => last (type_within hnm haf ty)
  | .ite k cv l c r, level, ctx => by
    simp only [Ana.expr]
    refine step (expr_within hnm haf c level ctx) fun _ => same fun _ => cond (refl _) ?_
    refine cond (same fun _ => same fun _ => ?_) ?_
    · exact same fun _ => step (expr_within hnm haf l level _) fun _ => last (expr_within hnm haf r level _)
    · exact same fun _ => step (expr_within hnm haf l level _) fun _ => last (expr_within hnm haf r level _)
  | .binary k cv op l r, level, ctx => by
    simp only [Ana.expr]
    refine step (expr_within hnm haf l level ctx) fun _ => same fun _ => same fun c => last (expr_within hnm haf r level c)
  | .prefix k cv op e, level, ctx => by
    simp only [Ana.expr]
    exact last (expr_within hnm haf e level ctx)
  | .call k cv st name ref args, level, ctx => by
    rw [Ana.expr.eq_def, Ana.expr.eq_def]
    cases ref with
    | none => exact refl _
    | some r =>
      cases r with
      | builtin f => exact last (exprs_within hnm haf args level ctx)
      | param p => exact last (exprs_within hnm haf args level ctx)
      | node j => exact step (exprs_within hnm haf args level ctx) fun _ => last (callFunction_within hnm haf)

theorem type_within (hnm : n ≤ m) (haf : ∀ j l, Within (af j l) (af' j l)) : (ty : AType) →
    Within (Ana.type n af ty) (Ana.type m af' ty)
  | .base .. => by simp only [Ana.type]; exact refl _
  | .uint k cv c w => by
    rw [Ana.type.eq_def, Ana.type.eq_def]
    cases cv with
    | some v => exact refl _
    | none => exact last (expr_within hnm haf w _ _)

theorem exprs_within (hnm : n ≤ m) (haf : ∀ j l, Within (af j l) (af' j l)) : (es : List AExpr) → (level : Level) →
    (ctx : ECtx) → Within (Ana.exprs n af es level ctx) (Ana.exprs m af' es level ctx)
  | [], _, _ => by simp only [Ana.exprs]; exact refl _
  | e :: es, level, ctx => by
    simp only [Ana.exprs]
    exact step (expr_within hnm haf e level ctx) fun _ => same fun _ => last (exprs_within hnm haf es level ctx)

end


theorem declaredType_within (hnm : n ≤ m) (haf : ∀ j l, Within (af j l) (af' j l)) (ty : AType) :
    Within (Ana.declaredType n af ty) (Ana.declaredType m af' ty) := last (type_within hnm haf ty)

theorem const_within (hnm : n ≤ m) (haf : ∀ j l, Within (af j l) (af' j l)) (k : Key) (ty : Option AType) (init : AExpr) :
    Within (Ana.const_ n af k ty init) (Ana.const_ m af' k ty init) := by
  cases ty with
  | none => exact last (expr_within hnm haf init _ _)
  | some t => exact step (declaredType_within hnm haf t) fun _ => last (expr_within hnm haf init _ _)

theorem let_within (hnm : n ≤ m) (haf : ∀ j l, Within (af j l) (af' j l)) (k : Key) (ty : Option AType)
    (init : Option AExpr) (level : Level) :
    Within (Ana.let_ n af k ty init level) (Ana.let_ m af' k ty init level) := by
  cases ty with
  | none =>
    cases init with
    | none => exact refl _
    | some e => exact last (expr_within hnm haf e _ _)
  | some t =>
    cases init with
    | none => exact last (declaredType_within hnm haf t)
    | some e => exact step (declaredType_within hnm haf t) fun _ => last (expr_within hnm haf e _ _)

theorem staticAssert_within (hnm : n ≤ m) (haf : ∀ j l, Within (af j l) (af' j l)) (k : Key) (e : AExpr) :
    Within (Ana.staticAssert n af k e) (Ana.staticAssert m af' k e) := last (expr_within hnm haf e _ _)

theorem condition_within (hnm : n ≤ m) (haf : ∀ j l, Within (af j l) (af' j l)) (k : Key) (e : AExpr) (level : Level) :
    Within (Ana.condition n af k e level) (Ana.condition m af' k e level) := last (expr_within hnm haf e _ _)

mutual

theorem stmt_within (hnm : n ≤ m) (haf : ∀ j l, Within (af j l) (af' j l)) {ret : CType} {level : Level} : (t : AStmt) →
    (loop : Bool) → Within (Ana.stmt n af ret level loop t) (Ana.stmt m af' ret level loop t)
  | .const_ k cv name ty init, loop => by
    rw [Ana.stmt.eq_def, Ana.stmt.eq_def]
    cases cv with
    | some v => exact refl _
    | none => exact last (const_within hnm haf k ty init)
  | .let_ k cv name ty init, loop => by
    simp only [Ana.stmt]
    exact last (let_within hnm haf k ty init level)
  | .staticAssert k cv e, loop => by
    rw [Ana.stmt.eq_def, Ana.stmt.eq_def]
    cases cv with
    | some v => exact refl _
    | none => exact last (staticAssert_within hnm haf k e)
  | .ifThen k cv c t, loop => by
    simp only [Ana.stmt]
    exact step (condition_within hnm haf k c level) fun _ => last (stmt_within hnm haf t loop)
  | .ifElse k cv c t e, loop => by
    simp only [Ana.stmt]
    exact step (condition_within hnm haf k c level) fun _ => step (stmt_within hnm haf t loop) fun _ =>
      last (stmt_within hnm haf e loop)
  | .while_ k cv c b, loop => by
    simp only [Ana.stmt]
    exact step (condition_within hnm haf k c level) fun _ => last (stmt_within hnm haf b true)
  | .control k cv c e, loop => by
    rw [Ana.stmt.eq_def, Ana.stmt.eq_def]
    cases c with
    | break_ => exact refl _
    | continue_ => exact refl _
    | return_ =>
      cases e with
      | none => exact refl _
      | some e => exact last (expr_within hnm haf e _ _)
  | .assign k cv name ref e, loop => by
    rw [Ana.stmt.eq_def, Ana.stmt.eq_def]
    cases ref with
    | none => exact refl _
    | some r =>
      cases r with
      | builtin f => exact refl _
      | param p => exact refl _
      | node j =>
        refine same fun s => ?_
        cases s.fns j with
        | some f => exact refl _
        | none =>
          cases s.decl j with
          | none => exact refl _
          | some d =>
            obtain ⟨kd, o⟩ := d
            cases kd with
            | let_ => exact last (expr_within hnm haf e _ _)
            | _ => exact refl _
  | .block k cv ss, loop => by
    simp only [Ana.stmt]
    exact last (stmts_within hnm haf ss loop)
  | .call e, loop => by
    simp only [Ana.stmt]
    exact last (expr_within hnm haf e _ _)

theorem stmts_within (hnm : n ≤ m) (haf : ∀ j l, Within (af j l) (af' j l)) {ret : CType} {level : Level} :
    (ss : List AStmt) → (loop : Bool) → Within (Ana.stmts n af ret level loop ss) (Ana.stmts m af' ret level loop ss)
  | [], loop => by simp only [Ana.stmts]; exact refl _
  | t :: ss, loop => by
    simp only [Ana.stmts]
    exact step (stmt_within hnm haf t loop) fun _ => last (stmts_within hnm haf ss loop)

end

theorem params_within (hnm : n ≤ m) (haf : ∀ j l, Within (af j l) (af' j l)) {k : Key} : (ps before : List AParam) →
    Within (Ana.params n af k before ps) (Ana.params m af' k before ps)
  | [], before => by simp only [Ana.params]; exact refl _
  | p :: ps, before => by
    simp only [Ana.params]
    exact step (type_within hnm haf p.type) fun _ => same fun _ => same fun _ => params_within hnm haf ps _

theorem requires_within (hnm : n ≤ m) (haf : ∀ j l, Within (af j l) (af' j l)) (k : Key) (e : AExpr) :
    Within (Ana.requires_ n af k e) (Ana.requires_ m af' k e) := by
  unfold Ana.requires_
  cases e.cv with
  | some v => exact refl _
  | none => exact last (expr_within hnm haf e _ _)

end


theorem forM_within {α : Type} {x y : α → AM Unit} (h : ∀ a, Within (x a) (y a)) : (l : List α) →
    Within (l.forM x) (l.forM y)
  | [] => refl _
  | a :: l => (h a).step fun _ => forM_within h l

/-- A larger bound makes no difference for what ends. -/
theorem function_within : (n m : Nat) → n ≤ m → ∀ k level, Within (Ana.function n k level) (Ana.function m k level)
  | 0, m, _, k, level => by
    rw [Ana.function]
    exact timeout _
  | n + 1, 0, h, _, _ => absurd h (by omega)
  | n + 1, m + 1, h, k, level => by
    have ih := function_within n m (by omega)
    have hnm : n ≤ m := by omega
    rw [Ana.function, Ana.function]
    refine same fun _ => same fun s => same fun f => cond (refl _) (cond (forM_within (fun i => ih _ _) _) ?_)
    refine same fun _ => step (params_within hnm ih _ _) fun _ => step (type_within hnm ih _) fun ret => same fun _ => same fun _ => ?_
    cases f.requires_ with
    | none =>
      refine same fun _ => cond (same fun t => same fun t => ?_) (refl _)
      exact last (stmts_within hnm ih _ _)
    | some e =>
      refine step (requires_within hnm ih k e) fun _ => same fun _ => cond (same fun t => same fun t => ?_) (refl _)
      exact last (stmts_within hnm ih _ _)

theorem decl_within {n m : Nat} (h : n ≤ m) (d : ADecl) : Within (Ana.decl n d) (Ana.decl m d) := by
  have ih := function_within n m h
  cases d with
  | const_ k cv name ty init =>
    cases cv with
    | some v => exact refl _
    | none => exact last (const_within h ih k ty init)
  | staticAssert k cv e =>
    cases cv with
    | some v => exact refl _
    | none => exact last (staticAssert_within h ih k e)
  | function f => exact ih f.k .full

theorem decls_within {n m : Nat} (h : n ≤ m) : (ds : List ADecl) → Within (Ana.decls n ds) (Ana.decls m ds)
  | [] => refl _
  | d :: ds => (decl_within h d).step fun _ => decls_within h ds

/-- If analysis ends within a bound, it ends in the same way for all larger bounds. -/
theorem program_within {n m : Nat} (h : n ≤ m) {ds : List ADecl} {next : Nat}
    (he : Ana.program n ds next ≠ .timeout) : Ana.program m ds next = Ana.program n ds next := by
  unfold Ana.program at he ⊢
  cases hn : Names.program ds with
  | ok ds' =>
    simp only [hn] at he ⊢
    exact (decls_within h ds' _).resolve_left he
  | _ => rfl

end Bms
