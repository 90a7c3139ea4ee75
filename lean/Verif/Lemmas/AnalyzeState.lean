import Verif.Spec.Analysis
import Verif.Props.Instances
import Verif.Lemmas.VmValues

/-!
# States of analysis: invariant and extension
-/

namespace Bms

open Spec

/-! ## Contexts -/

/-- The second context knows at least as much as the first. -/
structure CtxLe (Γ Δ : Ctx) : Prop where
  consts : ∀ k v, Γ.consts k = some v → Δ.consts k = some v
  vars : ∀ k t, Γ.vars k = some t → Γ.consts k = none → Δ.consts k = none
  vars' : ∀ k t, Γ.vars k = some t → Δ.vars k = some t
  fns : ∀ k x, Γ.fns k = some x → Δ.fns k = some x

theorem CtxLe.refl (Γ : Ctx) : CtxLe Γ Γ :=
  ⟨fun _ _ h => h, fun _ _ _ h => h, fun _ _ h => h, fun _ _ h => h⟩

theorem CtxLe.trans {Γ Δ Θ : Ctx} (h : CtxLe Γ Δ) (h' : CtxLe Δ Θ) : CtxLe Γ Θ :=
  ⟨fun k v hv => h'.consts k v (h.consts k v hv),
    fun k t hv hc => h'.vars k t (h.vars' k t hv) (h.vars k t hv hc),
    fun k t hv => h'.vars' k t (h.vars' k t hv), fun k x hx => h'.fns k x (h.fns k x hx)⟩

theorem Spec.Typed.mono {Γ Δ : Ctx} (hle : CtxLe Γ Δ) {e : Expr} (h : Typed Γ e) : Typed Δ e := by
  induction h with
  | literal h => exact .literal h
  | var hc hv => exact .var (hle.vars _ _ hv hc) (hle.vars' _ _ hv)
  | param hv => exact .param (hle.vars' _ _ hv)
  | const_ h => exact .const_ (hle.consts _ _ h)
  | width h => exact .width h
  | conversion _ hcv ht hc hf ih => exact .conversion ih hcv ht hc hf
  | ite _ _ _ h1 h2 h3 h4 h5 ih1 ih2 ih3 => exact .ite ih1 ih2 ih3 h1 h2 h3 h4 h5
  | binary _ _ h1 h2 h3 h4 ih1 ih2 => exact .binary ih1 ih2 h1 h2 h3 h4
  | pre _ h1 h2 h3 ih => exact .pre ih h1 h2 h3
  | call hk _ ha ih => exact .call (hle.fns _ _ hk) ih ha
  | builtin _ h1 h2 ih => exact .builtin ih h1 h2

mutual

theorem Spec.TypedS.mono {Γ Δ : Ctx} (hle : CtxLe Γ Δ) {ret : CType} :
    {loop : Bool} → {s : Stmt} → TypedS Γ ret loop s → TypedS Δ ret loop s
  | _, _, .const_ h => .const_ (hle.consts _ _ h)
  | _, _, .constUnknown h1 h2 => .constUnknown (hle.vars _ _ h2 h1) (hle.vars' _ _ h2)
  | _, _, .letNone h1 h2 => .letNone (hle.vars _ _ h2 h1) (hle.vars' _ _ h2)
  | _, _, .letInit h1 h2 h3 h4 h5 =>
    .letInit (hle.vars _ _ h2 h1) (hle.vars' _ _ h2) (h3.mono hle) h4 h5
  | _, _, .staticAssert => .staticAssert
  | _, _, .ifThen h1 h2 h3 h4 => .ifThen (h1.mono hle) h2 h3 (h4.mono hle)
  | _, _, .ifElse h1 h2 h3 h4 h5 => .ifElse (h1.mono hle) h2 h3 (h4.mono hle) (h5.mono hle)
  | _, _, .while_ h1 h2 h3 h4 => .while_ (h1.mono hle) h2 h3 (h4.mono hle)
  | _, _, .break_ => .break_
  | _, _, .continue_ => .continue_
  | _, _, .returnVoid h => .returnVoid h
  | _, _, .return_ h1 h2 h3 h4 => .return_ (h1.mono hle) h2 h3 h4
  | _, _, .assign h1 h2 h3 h4 h5 h6 =>
    .assign (hle.vars _ _ h2 h1) (hle.vars' _ _ h2) (h3.mono hle) h4 h5 h6
  | _, _, .block h => .block (h.mono hle)
  | _, _, .call h => .call (h.mono hle)

theorem Spec.TypedSs.mono {Γ Δ : Ctx} (hle : CtxLe Γ Δ) {ret : CType} :
    {loop : Bool} → {ss : List Stmt} → TypedSs Γ ret loop ss → TypedSs Δ ret loop ss
  | _, _, .nil => .nil
  | _, _, .cons h1 h2 => .cons (h1.mono hle) (h2.mono hle)

end

/-! ## Values -/

/-- A value of its type, or unknown. -/
def VOk (v : Value) : Prop := v.type.WF ∧ ∀ x, v.val = some x → WF ⟨v.type, x⟩

theorem VOk.unknownOf {t : CType} (h : t.WF) : VOk (Value.unknownOf t) :=
  ⟨h, fun _ h => by cases h⟩

theorem VOk.known {v : CVal} (h : WF v) : VOk (Value.known v) :=
  ⟨h.1, fun _ hx => by cases hx; exact h⟩

/-- An expression with the given value. -/
def valueExpr (v : Value) : Expr := .id (some v) none

/-- What values are sound for: expressions that stand for them. -/
theorem VOk.sound {v : Value} (h : VOk v) {M : Meaning} {σ : Frame} : Sound M σ (valueExpr v) v := by
  obtain ⟨t, o⟩ := v
  refine ⟨rfl, h.1, fun u hu => ?_, fun x hx => ?_⟩
  · cases o with
    | none => simp [valueExpr, evalE] at hu
    | some x =>
      simp [valueExpr, evalE] at hu
      subst hu
      exact ⟨rfl, h.2 x rfl⟩
  · simp only at hx
    subst hx
    simp [valueExpr, evalE]

theorem Sound.vok {M : Meaning} {σ : Frame} {e : Expr} {w : Value} (h : Sound M σ e w) : VOk w :=
  ⟨h.wf, fun x hx => (h.ok _ (h.known x hx)).2⟩

/-- A meaning in which no call returns. -/
def noMeaning (Γ : Ctx) : Meaning :=
  ⟨Γ.consts, fun k => (Γ.fns k).map Prod.fst, fun _ _ => .timeout⟩

theorem noMeaning_agrees (Γ : Ctx) : Agrees Γ (noMeaning Γ) where
  consts := rfl
  params _ := rfl
  call _ _ _ _ _ _ _ h := by cases h

/-- The frame without variables. -/
def noFrame : Frame := fun _ => none

theorem noFrame_ok (Γ : Ctx) : FrameOk Γ noFrame := fun _ _ h => by cases h

theorem Spec.Typed.vok {Γ : Ctx} (hΓ : Γ.WF) {e : Expr} (h : Typed Γ e) {v : Value}
    (hv : e.cv = some v) : VOk v := by
  obtain ⟨w, hs⟩ := typed_sound hΓ (noMeaning_agrees Γ) (noFrame_ok Γ) h
  have := hs.cv
  rw [hv] at this
  cases this
  exact hs.vok

/-- Some meaning. -/
def anyMeaning : Meaning := ⟨fun _ => none, fun _ => none, fun _ _ => .timeout⟩

theorem VOk.any {v : Value} (h : VOk v) : Sound anyMeaning noFrame (valueExpr v) v := h.sound

theorem VOk.conversion {v w : Value} {t : CType} (h : VOk v) (ht : t.WF)
    (hf : Folds (evalConversionV v t) t w) : VOk w := (h.any.conversion ht hf).vok

theorem VOk.ite {l c r w : Value} {t : CType} (hl : VOk l) (hc : VOk c) (hr : VOk r)
    (hck : checkIf l.type c.type r.type = .ok t) (hf : Folds (evalIfV l c r) t w) : VOk w :=
  (hl.any.ite hc.any hr.any hck hf).vok

theorem VOk.binary {l r w : Value} {op : ExprType} {t : CType} (hl : VOk l) (hr : VOk r)
    (hck : checkBinary l.type op r.type = .ok t) (hf : Folds (evalBinaryV l op r) t w) : VOk w :=
  (hl.any.binary hr.any hck hf).vok

theorem VOk.pre {v w : Value} {op : ExprType} {t : CType} (h : VOk v)
    (hck : checkUnary op v.type = .ok t) (hf : Folds (evalUnaryV op v) t w) : VOk w :=
  (h.any.pre hck hf).vok

theorem VOk.builtin {vs : List Value} {w : Value} {f : Builtin} (h : ∀ v ∈ vs, VOk v)
    (hev : evalBuiltinV f vs = .ok w) : VOk w := by
  refine (Sound.builtin (M := anyMeaning) (σ := noFrame) (args := vs.map valueExpr) (vs := vs)
    (fun a ha => ?_) ?_ hev false).vok
  · obtain ⟨v, hv, rfl⟩ := List.mem_map.1 ha
    exact ⟨v, (h v hv).any⟩
  · simp [valueExpr, Expr.cv, Function.comp_def]

/-! ## Parts of functions -/

/-- Keys of parameters, variables and constants of a function. -/
def owned (f : AFn) : List Key := f.params.map AParam.k ++ (declsSs f.body).map Prod.fst

mutual

/-- All type nodes in the expression have been analyzed. -/
def DoneE : AExpr → Prop
  | .literal .. => True
  | .id .. => True
  | .conversion _ _ e ty => DoneE e ∧ ty.cv.isSome
  | .ite _ _ l c r => DoneE l ∧ DoneE c ∧ DoneE r
  | .binary _ _ _ l r => DoneE l ∧ DoneE r
  | .prefix _ _ _ e => DoneE e
  | .call _ _ _ _ _ args => DoneEs args

/-- The same for several expressions. -/
def DoneEs : List AExpr → Prop
  | [] => True
  | e :: es => DoneE e ∧ DoneEs es

end

mutual

/-- All nodes of the statement have been analyzed, as far as this cannot be seen after `erase`. -/
def DoneS : AStmt → Prop
  | .const_ .. => True
  | .let_ _ cv _ ty init =>
    (match ty, init with
      | none, none => False
      | none, some e => e.cv.map Value.type = cv.map Value.type
      | some ty, _ => ty.cv.isSome ∧ ty.cv.map Value.type = cv.map Value.type) ∧ ∀ e ∈ init, DoneE e
  | .staticAssert .. => True
  | .ifThen _ cv c t => cv = some Value.void ∧ DoneE c ∧ DoneS t
  | .ifElse _ cv c t e => cv = some Value.void ∧ DoneE c ∧ DoneS t ∧ DoneS e
  | .while_ _ cv c b => cv = some Value.void ∧ DoneE c ∧ DoneS b
  | .control _ _ _ e => ∀ x ∈ e, DoneE x
  | .assign _ _ _ _ e => DoneE e
  | .block _ cv ss => cv = some Value.void ∧ DoneSs ss
  | .call e => DoneE e

/-- The same for several statements. -/
def DoneSs : List AStmt → Prop
  | [] => True
  | s :: ss => DoneS s ∧ DoneSs ss

end

/-- The type node has been analyzed and stands for this type. -/
def SigT (ty : AType) (t : CType) : Prop :=
  ty.cv = some (Value.unknownOf t) ∧ ty.eraseType = some t ∧ t.WF

/-- A type node of a parameter or result: not analyzed, or a width parameter of an instance, or
analyzed. -/
inductive PreT : AType → Prop
  | raw {ty} : RawT ty → CallFreeT ty → PreT ty
  | width {k x ki name ref} : PreT (.uint k none (some x)
      (.id ki (some (Value.known (CVal.ofInt (x : Nat)))) name ref true))
  | done {ty t} : SigT ty t → PreT ty

theorem rawT_cv {ty : AType} (h : RawT ty) : ty.cv = none := by
  cases ty <;> simp only [RawT] at h <;> simp only [AType.cv]
  · exact h
  · exact h.1

theorem rawE_cv {e : AExpr} (h : RawE e) : e.cv = none := by
  cases e <;> simp only [RawE] at h <;> simp only [AExpr.cv] <;> first | exact h | exact h.1

/-! ## The invariant -/

/-- The declaration is a parameter. -/
def IsParam (s : ASt) (k : Key) : Prop := ∃ cv, s.decl k = some ⟨.param, cv⟩

/-- The declaration has no value. -/
def Unset (s : ASt) (k : Key) : Prop := ∀ kd v, s.decl k ≠ some ⟨kd, some v⟩

/-- Values of declarations. -/
def DeclOk : Decl → Prop
  | ⟨.let_, some v⟩ | ⟨.param, some v⟩ => v.val = none ∧ v.type.WF
  | ⟨_, some v⟩ => VOk v
  | ⟨_, none⟩ => True

/-- What may become of a function. -/
structure FnLe (f g : AFn) : Prop where
  k : g.k = f.k
  generic : g.generic = f.generic
  owned : owned g = owned f
  level : f.level.rank ≤ g.level.rank
  sig : f.level ≠ .unanalyzed → g.params = f.params ∧ g.ret = f.ret
  body : 2 ≤ f.level.rank → g.body = f.body
  address : f.level = .forConst → g.address = f.address
  params : g.params.length = f.params.length

/-- What is known of functions and declarations only grows, and code is only added. -/
structure Grows (s s' : ASt) : Prop where
  declSome : ∀ k kd v, s.decl k = some ⟨kd, some v⟩ → s'.decl k = some ⟨kd, some v⟩
  fns : ∀ k f, s.fns k = some f → ∃ f', s'.fns k = some f' ∧ FnLe f f'
  code : ∃ c, s'.code = s.code ++ c

theorem FnLe.refl (f : AFn) : FnLe f f :=
  ⟨rfl, rfl, rfl, Nat.le_refl _, fun _ => ⟨rfl, rfl⟩, fun _ => rfl, fun _ => rfl, rfl⟩

theorem Level.rank_eq_zero {l : Level} : l.rank = 0 ↔ l = .unanalyzed := by cases l <;> simp [Level.rank]

theorem Level.ne_unanalyzed {l : Level} : l ≠ .unanalyzed ↔ 1 ≤ l.rank := by
  cases l <;> simp [Level.rank]

theorem Level.eq_forConst {l : Level} : l = .forConst ↔ 3 ≤ l.rank := by cases l <;> simp [Level.rank]

theorem Level.rank_le (l : Level) : l.rank ≤ 3 := by cases l <;> simp [Level.rank]

theorem FnLe.trans {f g h : AFn} (a : FnLe f g) (b : FnLe g h) : FnLe f h where
  k := b.k.trans a.k
  generic := b.generic.trans a.generic
  owned := b.owned.trans a.owned
  level := Nat.le_trans a.level b.level
  sig hf := by
    obtain ⟨h1, h2⟩ := a.sig hf
    have := a.level
    obtain ⟨h3, h4⟩ := b.sig (by rw [Level.ne_unanalyzed] at hf ⊢; omega)
    exact ⟨h3.trans h1, h4.trans h2⟩
  body hf := (b.body (Nat.le_trans hf a.level)).trans (a.body hf)
  address hf := by
    have := a.level
    exact (b.address (by rw [Level.eq_forConst] at hf ⊢; omega)).trans (a.address hf)
  params := b.params.trans a.params

theorem Grows.refl (s : ASt) : Grows s s := ⟨fun _ _ _ h => h, fun _ f h => ⟨f, h, .refl f⟩, [], by simp⟩

theorem Grows.trans {s s' s'' : ASt} (a : Grows s s') (b : Grows s' s'') : Grows s s'' where
  declSome k kd v h := b.declSome k kd v (a.declSome k kd v h)
  fns k f h := by
    obtain ⟨f1, h1, e1⟩ := a.fns k f h
    obtain ⟨f2, h2, e2⟩ := b.fns k f1 h1
    exact ⟨f2, h2, e1.trans e2⟩
  code := by
    obtain ⟨c, hc⟩ := a.code
    obtain ⟨d, hd⟩ := b.code
    exact ⟨c ++ d, by rw [hd, hc, List.append_assoc]⟩

/-- A state that analysis may end in: the functions that can be called in constant expressions meet
what the code generator relies on. -/
structure Final (s : ASt) : Prop where
  typed : (progOf s).Typed
  homogeneous : (progOf s).Homogeneous
  ends : (progOf s).Ends
  fresh : (progOf s).Fresh
  code : s.code.length ≤ 2 ^ 62

/-- What holds in all states that analysis may end in, from the given state on. -/
def Finally (s : ASt) (p : Prog → Prop) : Prop := ∀ F, Final F → Grows s F → p (progOf F)

theorem Finally.grow {s s' : ASt} {p : Prog → Prop} (h : Finally s p) (hg : Grows s s') : Finally s' p :=
  fun F hF hg' => h F hF (hg.trans hg')

/-- What holds of functions that are not generic. `on` : the function is being analyzed. Instances have
keys from `N` on. -/
structure PlainInv (N : Nat) (s : ASt) (on : Prop) (k : Key) (f : AFn) : Prop where
  params : ∀ p ∈ f.params, PreT p.type
  ret : PreT f.ret
  sigParams : f.level ≠ .unanalyzed → ∀ p ∈ f.params, ∃ t, SigT p.type t
  sigRet : f.level ≠ .unanalyzed → ∃ t, SigT f.ret t
  cv : f.level ≠ .unanalyzed → f.cv = f.ret.cv ∨ on ∧ (f.cv = none ∨ f.requires_ ≠ none)
  cvNone : f.level = .unanalyzed → f.cv = none
  reqs : ∀ e ∈ f.requires_, (f.level = .unanalyzed ∧ RawE e) ∨ e.cv.isSome
  raw : f.level.rank < 2 → ¬ on → RawSs f.body ∧ ∀ x ∈ (declsSs f.body).map Prod.fst, Unset s x
  typed : 2 ≤ f.level.rank →
    TypedSs (ctxOf .shallow s) (typeOf f.ret) false (eraseStmts f.body) ∧ DoneSs f.body
  typedConst : f.level = .forConst →
    TypedSs (ctxOf .forConst s) (typeOf f.ret) false (eraseStmts f.body) ∧ f.address.isSome ∧ f.cv.isSome
  noSelf : f.level.rank < 2 → f.requires_ ≠ none → .node k ∉ refsSs f.body
  instRefs : f.level.rank < 2 → N ≤ k → ∀ j, .node j ∈ refsSs f.body →
    j < s.next ∧ ∀ g, s.fns j = some g → j = k
  paramRefs : f.level.rank < 2 → ∀ j, .param j ∈ refsSs f.body → IsParam s j
  valsParams : ∀ p ∈ f.params, p.type.cv.isSome → Finally s fun P => WidthsT P p.type
  valsRet : f.ret.cv.isSome → Finally s fun P => WidthsT P f.ret
  valsReqs : ∀ e ∈ f.requires_, e.cv.isSome → Finally s fun P => WidthsE P e ∧ HasValue P e CVal.tt
  valsBody : 2 ≤ f.level.rank → Finally s fun P => ValuesSs P f.body

/-- What holds of generic functions. -/
structure GenericInv (N : Nat) (s : ASt) (f : AFn) : Prop where
  params : ∀ p ∈ f.params, RawT p.type ∧ CallFreeT p.type
  ret : RawT f.ret ∧ CallFreeT f.ret
  reqs : ∀ e ∈ f.requires_, RawE e
  raw : RawSs f.body
  unset : ∀ x ∈ (declsSs f.body).map Prod.fst, Unset s x
  level : f.level = .unanalyzed
  cv : f.cv = none
  noSelf : f.requires_ ≠ none → .node f.k ∉ refsSs f.body
  keys : (Inst.keys f ++ f.params.map AParam.k).Nodup ∧
    ∀ x ∈ Inst.keys f ++ f.params.map AParam.k, x < s.next ∧ x ≠ sentinelKey
  instances : ∀ i ∈ f.instances, N ≤ i.key ∧
    ∃ g, s.fns i.key = some g ∧ g.generic = false ∧ g.params.length = f.params.length

/-- What holds of all functions. -/
structure FnInv (N : Nat) (s : ASt) (on : Prop) (k : Key) (f : AFn) : Prop where
  key : f.k = k ∧ k < s.next
  ownedLt : ∀ x ∈ owned f, x < s.next
  ownedNodup : (owned f).Nodup
  paramDecl : ∀ p ∈ f.params, s.decl p.k = some ⟨.param, p.type.cv⟩
  bodyDecl : ∀ d ∈ declsSs f.body, ∃ cv, s.decl d.1 = some ⟨d.2, cv⟩
  plain : f.generic = false → PlainInv N s on k f
  gen : f.generic = true → GenericInv N s f

/-- The code is that of the functions that are analyzed for constant expressions, in every program that
contains them. -/
def LoadedInv (s : ASt) : Prop :=
  ∀ P : Prog, (∀ k d, (progOf s).fns k = some d → P.fns k = some d) → Loaded P (addrOf s) s.code

/-- The invariant of analysis. -/
structure Inv (N : Nat) (s : ASt) : Prop where
  next : N ≤ s.next
  declKey : ∀ x d, s.decl x = some d → x < s.next ∧ x ≠ sentinelKey
  declOk : ∀ x d, s.decl x = some d → DeclOk d
  fn : ∀ k f, s.fns k = some f → FnInv N s (k ∈ s.stack) k f
  disjoint : ∀ k j f g, s.fns k = some f → s.fns j = some g → k ≠ j → ∀ x ∈ owned f, x ∉ owned g
  stackFns : ∀ k ∈ s.stack, ∃ f, s.fns k = some f ∧ f.generic = false
  code : OperandsOk s.code
  loaded : LoadedInv s

/-! ## Extension -/

/-- What may become of a state, if a part of the function on top of the stack is analyzed that declares
`D`. -/
structure Ext (D : List Key) (s s' : ASt) : Prop where
  stack : s'.stack = s.stack
  next : s.next ≤ s'.next
  declSome : ∀ k kd v, s.decl k = some ⟨kd, some v⟩ → s'.decl k = some ⟨kd, some v⟩
  declKind : ∀ k d, s.decl k = some d → ∃ d', s'.decl k = some d' ∧ d'.kind = d.kind
  fns : ∀ k f, s.fns k = some f → ∃ f', s'.fns k = some f' ∧ FnLe f f'
  newFns : ∀ k f, s'.fns k = some f → s.fns k = none → s.next ≤ k ∧ ∀ x ∈ owned f, s.next ≤ x
  onStack : ∀ k ∈ s.stack, s'.fns k = s.fns k
  onStackDecl : ∀ k ∈ s.stack, ∀ f, s.fns k = some f → ∀ x ∈ owned f, x ∉ D → s'.decl x = s.decl x
  unowned : ∀ x < s.next, (∀ k f, s.fns k = some f → x ∉ owned f) → s'.decl x = s.decl x
  code : ∃ c, s'.code = s.code ++ c

theorem LoadedInv.same {s s' : ASt} (h : LoadedInv s) (hcode : s'.code = s.code)
    (hp : ∀ k, (progOf s').fns k = (progOf s).fns k) (ha : ∀ k, addrOf s' k = addrOf s k) :
    LoadedInv s' := by
  intro P hP
  rw [hcode, show addrOf s' = addrOf s from funext ha]
  exact h P fun k d hk => hP k d ((hp k).trans hk)

theorem Ext.refl (D : List Key) (s : ASt) : Ext D s s where
  stack := rfl
  next := Nat.le_refl _
  declSome _ _ _ h := h
  declKind _ d h := ⟨d, h, rfl⟩
  fns _ f h := ⟨f, h, .refl f⟩
  newFns _ _ h h' := by rw [h] at h'; cases h'
  onStack _ _ := rfl
  onStackDecl _ _ _ _ _ _ _ := rfl
  unowned _ _ _ := rfl
  code := ⟨[], by simp⟩

theorem Ext.mono {D D' : List Key} {s s' : ASt} (h : Ext D s s') (hD : ∀ x ∈ D, x ∈ D') :
    Ext D' s s' :=
  { h with onStackDecl := fun k hk f hf x hx hn => h.onStackDecl k hk f hf x hx fun h => hn (hD x h) }

theorem Ext.trans {D : List Key} {s s' s'' : ASt} (a : Ext D s s') (b : Ext D s' s'') :
    Ext D s s'' where
  stack := b.stack.trans a.stack
  next := Nat.le_trans a.next b.next
  declSome k kd v h := b.declSome k kd v (a.declSome k kd v h)
  declKind k d h := by
    obtain ⟨d1, h1, e1⟩ := a.declKind k d h
    obtain ⟨d2, h2, e2⟩ := b.declKind k d1 h1
    exact ⟨d2, h2, e2.trans e1⟩
  fns k f h := by
    obtain ⟨f1, h1, e1⟩ := a.fns k f h
    obtain ⟨f2, h2, e2⟩ := b.fns k f1 h1
    exact ⟨f2, h2, e1.trans e2⟩
  newFns k f h h' := by
    cases h1 : s'.fns k with
    | none =>
      obtain ⟨h2, h3⟩ := b.newFns k f h h1
      exact ⟨Nat.le_trans a.next h2, fun x hx => Nat.le_trans a.next (h3 x hx)⟩
    | some f1 =>
      obtain ⟨h2, h3⟩ := a.newFns k f1 h1 h'
      obtain ⟨f2, h4, h5⟩ := b.fns k f1 h1
      rw [h] at h4
      cases h4
      exact ⟨h2, fun x hx => h3 x (h5.owned ▸ hx)⟩
  onStack k hk := (b.onStack k (a.stack ▸ hk)).trans (a.onStack k hk)
  onStackDecl k hk f hf x hx hn := by
    rw [b.onStackDecl k (a.stack ▸ hk) f ((a.onStack k hk).trans hf) x hx hn,
      a.onStackDecl k hk f hf x hx hn]
  unowned x hx hn := by
    rw [b.unowned x (Nat.lt_of_lt_of_le hx a.next), a.unowned x hx hn]
    intro k f hf hx'
    cases h1 : s.fns k with
    | none => exact absurd ((a.newFns k f hf h1).2 x hx') (Nat.not_le.2 hx)
    | some f0 =>
      obtain ⟨f1, h2, h3⟩ := a.fns k f0 h1
      rw [hf] at h2
      cases h2
      exact hn k f0 h1 (h3.owned ▸ hx')
  code := by
    obtain ⟨c, hc⟩ := a.code
    obtain ⟨d, hd⟩ := b.code
    exact ⟨c ++ d, by rw [hd, hc, List.append_assoc]⟩

theorem signature_eq {f g : AFn} (h : FnLe f g) (hl : f.level ≠ .unanalyzed) :
    signature g = signature f := by
  obtain ⟨h1, h2⟩ := h.sig hl
  simp only [signature, h1, h2]

theorem Ext.grows {D : List Key} {s s' : ASt} (h : Ext D s s') : Grows s s' := ⟨h.declSome, h.fns, h.code⟩

theorem Grows.ctx {s s' : ASt} (h : Grows s s') {a b : Level} (ha : a ≠ .unanalyzed)
    (hab : b.rank ≤ a.rank) : CtxLe (ctxOf a s) (ctxOf b s') := by
  have hd : ∀ k t, (ctxOf a s).vars k = some t → s'.decl k = s.decl k := by
    intro k t hv
    simp only [ctxOf] at hv
    cases hk : s.decl k with
    | none => rw [hk] at hv; cases hv
    | some d =>
      obtain ⟨kd, cv⟩ := d
      cases cv with
      | none => rw [hk] at hv; cases kd <;> simp [declVar] at hv
      | some v => exact h.declSome k kd v hk
  refine ⟨fun k v hv => ?_, fun k t hv hc => ?_, fun k t hv => ?_, fun k x hx => ?_⟩
  · simp only [ctxOf] at hv ⊢
    cases hk : s.decl k with
    | none => rw [hk] at hv; cases hv
    | some d =>
      obtain ⟨kd, cv⟩ := d
      cases cv with
      | none => rw [hk] at hv; cases kd <;> simp [declConst] at hv
      | some v => rw [h.declSome k kd v hk, ← hk]; exact hv
  · have := hd k t hv
    simp only [ctxOf, this] at hc ⊢
    exact hc
  · have := hd k t hv
    simp only [ctxOf, this] at hv ⊢
    exact hv
  · simp only [ctxOf] at hx ⊢
    cases hk : s.fns k with
    | none => rw [hk] at hx; cases hx
    | some f =>
      rw [hk] at hx
      obtain ⟨f', hf', hle⟩ := h.fns k f hk
      simp only [Option.bind_some] at hx
      split at hx
      · rename_i hc
        cases hx
        have hl := hle.level
        simp only [hf', Option.bind_some]
        rw [if_pos ⟨hle.generic ▸ hc.1, by omega⟩]
        rw [signature_eq hle]
        rw [Level.ne_unanalyzed] at ha ⊢
        omega
      · cases hx

theorem ctx_min {s : ASt} {a b : Level} (ha : a ≠ .unanalyzed) (hab : b.rank ≤ a.rank) :
    CtxLe (ctxOf a s) (ctxOf b s) := (Ext.refl [] s).grows.ctx ha hab

theorem SigT.typeOf {ty : AType} {t : CType} (h : SigT ty t) : typeOf ty = t := by
  simp [Spec.typeOf, h.1, Value.unknownOf]

/-- The context of a state that meets the invariant is well-formed. -/
theorem Inv.ctx {N : Nat} {s : ASt} (h : Inv N s) {a : Level} (ha : a ≠ .unanalyzed) :
    (ctxOf a s).WF := by
  refine ⟨fun k v hv => ?_, fun k t hv => ?_, fun k ts t hx => ?_⟩
  · simp only [ctxOf] at hv
    cases hk : s.decl k with
    | none => rw [hk] at hv; cases hv
    | some d =>
      rw [hk] at hv
      have := h.declOk k d hk
      obtain ⟨kd, cv⟩ := d
      cases cv with
      | none => cases kd <;> simp [declConst] at hv
      | some w =>
        cases kd <;> simp only [declConst, Option.bind_some, Option.map_eq_some_iff] at hv
        · cases hv
        · obtain ⟨x, hx, rfl⟩ := hv; exact this.2 x hx
        · cases hv
        · obtain ⟨x, hx, rfl⟩ := hv; exact this.2 x hx
  · simp only [ctxOf] at hv
    cases hk : s.decl k with
    | none => rw [hk] at hv; cases hv
    | some d =>
      rw [hk] at hv
      refine ⟨?_, (h.declKey k d hk).2⟩
      have := h.declOk k d hk
      obtain ⟨kd, cv⟩ := d
      cases cv with
      | none => cases kd <;> simp [declVar] at hv
      | some w =>
        cases kd <;> simp only [declVar, Option.bind_some] at hv
        · cases hv; exact this.2
        · split at hv <;> cases hv; exact this.1
        · cases hv; exact this.2
        · split at hv <;> cases hv; exact this.1
  · simp only [ctxOf] at hx
    cases hk : s.fns k with
    | none => rw [hk] at hx; cases hx
    | some f =>
      rw [hk] at hx
      simp only [Option.bind_some] at hx
      split at hx
      · rename_i hc
        have hp := (h.fn k f hk).plain hc.1
        have hl : f.level ≠ .unanalyzed := by
          rw [Level.ne_unanalyzed] at ha ⊢
          have := hc.2
          omega
        simp only [signature, Option.some.injEq, Prod.mk.injEq] at hx
        obtain ⟨rfl, rfl⟩ := hx
        refine ⟨?_, fun u hu => ?_⟩
        · obtain ⟨t, ht⟩ := hp.sigRet hl
          rw [ht.typeOf]; exact ht.2.2
        · obtain ⟨p, hm, rfl⟩ := List.mem_map.1 hu
          obtain ⟨t, ht⟩ := hp.sigParams hl p hm
          rw [ht.typeOf]; exact ht.2.2
      · cases hx

end Bms
