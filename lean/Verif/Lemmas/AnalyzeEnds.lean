import Verif.Spec.Ends
import Verif.Lemmas.AnalyzeNames
import Verif.Lemmas.AnalyzeInst

/-!
# Analysis ends if there are no calls in constant expressions
-/

namespace Bms

open Spec

/-- The analysis ends within the bound, and if it succeeds, then in a state with `P`. -/
def AEnds {α : Type} (P : α → ASt → Prop) (x : AM α) (s : ASt) : Prop :=
  match x s with
  | .ok a s => P a s
  | .timeout => False
  | _ => True

namespace AEnds

variable {α β : Type} {P : α → ASt → Prop} {Q : β → ASt → Prop} {s : ASt}

theorem bind {x : AM α} {f : α → AM β} (hx : AEnds P x s)
    (hf : ∀ a s', x s = .ok a s' → P a s' → AEnds Q (f a) s') : AEnds Q (x >>= f) s := by
  show AEnds Q (AM.bind x f) s
  unfold AEnds at hx ⊢
  unfold AM.bind
  cases hr : x s with
  | ok a s' =>
    simp only [hr] at hx ⊢
    exact hf a s' hr hx
  | timeout => simp [hr] at hx
  | _ => trivial

theorem mono {P' : α → ASt → Prop} {x : AM α} (h : AEnds P x s) (hp : ∀ a s', x s = .ok a s' → P a s' → P' a s') :
    AEnds P' x s := by
  unfold AEnds at h ⊢
  cases hr : x s with
  | ok a s' => simp only [hr] at h ⊢; exact hp a s' hr h
  | timeout => simp [hr] at h
  | _ => trivial

theorem pure {a : α} (h : P a s) : AEnds P (Pure.pure a : AM α) s := h
theorem fail {c : ACode} {k : Key} : AEnds P (AM.fail c k : AM α) s := trivial
theorem throws : AEnds P (AM.throws : AM α) s := trivial
theorem ub : AEnds P (AM.ub : AM α) s := trivial
theorem read {P : ASt → ASt → Prop} (h : P s s) : AEnds P AM.read s := h
theorem modify {P : Unit → ASt → Prop} {f : ASt → ASt} (h : P () (f s)) : AEnds P (AM.modify f) s := h

theorem value {o : Option α} (h : ∀ a, o = some a → P a s) : AEnds P (AM.value o) s := by
  cases o with
  | none => trivial
  | some a => exact h a rfl

theorem deref {o : Option α} (h : ∀ a, o = some a → P a s) : AEnds P (AM.deref o) s := by
  cases o with
  | none => trivial
  | some a => exact h a rfl

theorem lift {ε : Type} {f : ε → AErr} {o : Outcome ε α} (h : ∀ a, o = .ok a → P a s) : AEnds P (AM.lift f o) s := by
  cases o with
  | ok a => exact h a rfl
  | _ => trivial

theorem get {o : Outcome AErr α} (h : ∀ a, o = .ok a → P a s) : AEnds P (AM.get o) s := lift h

theorem checked {o : Outcome CheckErr α} {k : Key} (h : ∀ a, o = .ok a → P a s) : AEnds P (Ana.checked k o) s := lift h

theorem assert {P : Unit → ASt → Prop} {b : Bool} (h : b = true → P () s) : AEnds P (AM.assert b) s := by
  cases b with
  | false => trivial
  | true => exact h rfl

theorem foldResult {P : Value → ASt → Prop} {o : Outcome EvalErr Value} {t : CType} {b : Bool} {k : Key}
    (h : ∀ v, P v s) : AEnds P (Bms.foldResult o t b k) s := by
  cases o with
  | ok a => exact h a
  | err e => cases b with
    | false => exact h _
    | true => trivial
  | _ => trivial

theorem ite {c : Prop} [Decidable c] {x y : AM α} (hx : c → AEnds P x s) (hy : ¬ c → AEnds P y s) :
    AEnds P (if c then x else y) s := by
  split
  · next h => exact hx h
  · next h => exact hy h

end AEnds

/-! ## The state -/

/-- Nothing that is left to be analyzed at the beginning of functions has calls in constant
expressions. -/
structure QuietFn (f : AFn) : Prop where
  params : ∀ p ∈ f.params, p.type.cv = none → CallFreeT p.type
  ret : f.ret.cv = none → CallFreeT f.ret
  reqs : ∀ e ∈ f.requires_, e.cv = none → CallFree e
  body : f.generic = true ∨ f.level.rank < 2 → QuietSs f.body

/-- The same for all functions; instances are not generic, and neither are functions with keys in `G`. -/
structure QuietSt (G : Key → Prop) (s : ASt) : Prop where
  fn : ∀ j f, s.fns j = some f → QuietFn f
  key : ∀ j f, s.fns j = some f → f.k = j
  inst : ∀ j f, s.fns j = some f → f.generic = true → ∀ i ∈ f.instances,
    ∃ g, s.fns i.key = some g ∧ g.generic = false
  plain : ∀ j, G j → ∃ g, s.fns j = some g ∧ g.generic = false
  next : 0 < s.next

theorem Spec.QuietF.fn {f : AFn} (h : QuietF f) : QuietFn f :=
  ⟨fun p hp _ => h.params p hp, fun _ => h.ret, fun e he _ => h.reqs e he, fun _ => h.body⟩

theorem QuietSt.decl {G : Key → Prop} {s : ASt} (h : QuietSt G s) (k : Key) (d : Decl) : QuietSt G (s.setDecl k d) :=
  ⟨h.fn, h.key, h.inst, h.plain, h.next⟩

theorem QuietSt.stack {G : Key → Prop} {s : ASt} (h : QuietSt G s) (l : List Key) : QuietSt G { s with stack := l } :=
  ⟨h.fn, h.key, h.inst, h.plain, h.next⟩

/-- A function that is not generic is written. -/
theorem QuietSt.addFn {G : Key → Prop} {s : ASt} (h : QuietSt G s) {k : Key} {f : AFn} (hf : QuietFn f)
    (hk : f.k = k) (hg : f.generic = false) : QuietSt G (s.setFn k f) := by
  have hp : ∀ j, (∃ g, s.fns j = some g ∧ g.generic = false) → ∃ g, (s.setFn k f).fns j = some g ∧ g.generic = false := by
    rintro j ⟨g, h1, h2⟩
    by_cases hj : j = k
    · exact ⟨f, by simp [ASt.setFn, hj], hg⟩
    · exact ⟨g, by simp [ASt.setFn, hj, h1], h2⟩
  refine ⟨fun j g h1 => ?_, fun j g h1 => ?_, fun j g h1 h2 i hi => ?_, fun j hj => hp j (h.plain j hj), h.next⟩
  all_goals
    simp only [ASt.setFn] at h1
    split at h1
  · cases h1; exact hf
  · exact h.fn j g h1
  · cases h1
    rw [hk]
    exact Eq.symm (by assumption)
  · exact h.key j g h1
  · cases h1
    rw [hg] at h2
    cases h2
  · exact hp _ (h.inst j g h1 h2 i hi)

/-- A generic function is written. -/
theorem QuietSt.addGeneric {G : Key → Prop} {s : ASt} (h : QuietSt G s) {k : Key} {f f0 : AFn} (hf : QuietFn f)
    (h0 : s.fns k = some f0) (hg0 : f0.generic = true) (hk : f.k = k)
    (hi : ∀ i ∈ f.instances, ∃ g, s.fns i.key = some g ∧ g.generic = false) : QuietSt G (s.setFn k f) := by
  have hp : ∀ j, (∃ g, s.fns j = some g ∧ g.generic = false) → ∃ g, (s.setFn k f).fns j = some g ∧ g.generic = false := by
    rintro j ⟨g, h1, h2⟩
    by_cases hj : j = k
    · rw [hj, h0] at h1
      cases h1
      rw [hg0] at h2
      cases h2
    · exact ⟨g, by simp [ASt.setFn, hj, h1], h2⟩
  refine ⟨fun j g h1 => ?_, fun j g h1 => ?_, fun j g h1 h2 i hi' => ?_, fun j hj => hp j (h.plain j hj), h.next⟩
  all_goals
    simp only [ASt.setFn] at h1
    split at h1
  · cases h1; exact hf
  · exact h.fn j g h1
  · cases h1
    rw [hk]
    exact Eq.symm (by assumption)
  · exact h.key j g h1
  · cases h1
    exact hp _ (hi i hi')
  · exact hp _ (h.inst j g h1 h2 i hi')

/-- A function is changed. -/
theorem QuietSt.setFn {G : Key → Prop} {s : ASt} (h : QuietSt G s) {k : Key} {f f0 : AFn} (h0 : s.fns k = some f0)
    (hf : QuietFn f) (hk : f.k = f0.k) (hg : f.generic = f0.generic) (hi : f.instances = f0.instances) :
    QuietSt G (s.setFn k f) := by
  have hk' : f.k = k := by rw [hk, h.key k f0 h0]
  cases hg0 : f0.generic with
  | false => exact h.addFn hf hk' (by rw [hg, hg0])
  | true => exact h.addGeneric hf h0 hg0 hk' (by rw [hi]; exact h.inst k f0 h0 hg0)

/-! ## Copies -/

section

variable {m : Inst.Remap}

mutual

theorem copy_quietE : (e e' : AExpr) → Inst.expr m e = .ok e' → QuietE e → QuietE e'
  | .literal k cv lit, e', h => by
    simp only [Inst.expr, Outcome.ok.injEq] at h
    subst h
    exact id
  | .id k cv name ref g, e', h => by
    simp only [Inst.expr, Outcome.bind_eq_ok] at h
    obtain ⟨r, _, h⟩ := h
    cases h
    exact id
  | .conversion k cv e ty, e', h => by
    simp only [Inst.expr, Outcome.bind_eq_ok] at h
    obtain ⟨a, ha, b, hb, h⟩ := h
    cases h
    exact fun hq => ⟨copy_quietE e a ha hq.1, (Inst.type_raw ty b hb).2 hq.2⟩
  | .ite k cv l c r, e', h => by
    simp only [Inst.expr, Outcome.bind_eq_ok] at h
    obtain ⟨a, ha, b, hb, d, hd, h⟩ := h
    cases h
    exact fun hq => ⟨copy_quietE l a ha hq.1, copy_quietE c b hb hq.2.1, copy_quietE r d hd hq.2.2⟩
  | .binary k cv op l r, e', h => by
    simp only [Inst.expr, Outcome.bind_eq_ok] at h
    obtain ⟨a, ha, b, hb, h⟩ := h
    cases h
    exact fun hq => ⟨copy_quietE l a ha hq.1, copy_quietE r b hb hq.2⟩
  | .prefix k cv op e, e', h => by
    simp only [Inst.expr, Outcome.bind_eq_ok] at h
    obtain ⟨a, ha, h⟩ := h
    cases h
    exact fun hq => copy_quietE e a ha hq
  | .call k cv st name ref args, e', h => by
    simp only [Inst.expr, Outcome.bind_eq_ok] at h
    obtain ⟨r, _, a, ha, h⟩ := h
    cases h
    exact fun hq => copy_quietEs args a ha hq

theorem copy_quietEs : (es es' : List AExpr) → Inst.exprs m es = .ok es' → QuietEs es → QuietEs es'
  | [], es', h => by
    simp only [Inst.exprs, Outcome.ok.injEq] at h
    subst h
    exact id
  | e :: es, es', h => by
    simp only [Inst.exprs, Outcome.bind_eq_ok] at h
    obtain ⟨a, ha, b, hb, h⟩ := h
    cases h
    exact fun hq => ⟨copy_quietE e a ha hq.1, copy_quietEs es b hb hq.2⟩

end

mutual

theorem copy_quietS : (t t' : AStmt) → Inst.stmt m t = .ok t' → QuietS t → QuietS t'
  | .const_ k cv name ty init, t', h => by
    simp only [Inst.stmt, Outcome.bind_eq_ok] at h
    obtain ⟨a, ha, b, hb, h⟩ := h
    cases h
    exact fun hq => ⟨Inst.optional_all (fun x x' hx => (Inst.type_raw x x' hx).2) ha hq.1,
      (Inst.expr_raw init b hb).2 hq.2⟩
  | .let_ k cv name ty init, t', h => by
    simp only [Inst.stmt, Outcome.bind_eq_ok] at h
    obtain ⟨a, ha, b, hb, h⟩ := h
    cases h
    exact fun hq => ⟨Inst.optional_all (fun x x' hx => (Inst.type_raw x x' hx).2) ha hq.1,
      Inst.optional_all copy_quietE hb hq.2⟩
  | .staticAssert k cv e, t', h => by
    simp only [Inst.stmt, Outcome.bind_eq_ok] at h
    obtain ⟨a, ha, h⟩ := h
    cases h
    exact fun hq => (Inst.expr_raw e a ha).2 hq
  | .ifThen k cv c t, t', h => by
    simp only [Inst.stmt, Outcome.bind_eq_ok] at h
    obtain ⟨a, ha, b, hb, h⟩ := h
    cases h
    exact fun hq => ⟨copy_quietE c a ha hq.1, copy_quietS t b hb hq.2⟩
  | .ifElse k cv c t e, t', h => by
    simp only [Inst.stmt, Outcome.bind_eq_ok] at h
    obtain ⟨a, ha, b, hb, d, hd, h⟩ := h
    cases h
    exact fun hq => ⟨copy_quietE c a ha hq.1, copy_quietS t b hb hq.2.1, copy_quietS e d hd hq.2.2⟩
  | .while_ k cv c t, t', h => by
    simp only [Inst.stmt, Outcome.bind_eq_ok] at h
    obtain ⟨a, ha, b, hb, h⟩ := h
    cases h
    exact fun hq => ⟨copy_quietE c a ha hq.1, copy_quietS t b hb hq.2⟩
  | .control k cv c e, t', h => by
    simp only [Inst.stmt, Outcome.bind_eq_ok] at h
    obtain ⟨a, ha, h⟩ := h
    cases h
    exact fun hq => Inst.optional_all copy_quietE ha hq
  | .assign k cv name ref e, t', h => by
    simp only [Inst.stmt, Outcome.bind_eq_ok] at h
    obtain ⟨r, _, a, ha, h⟩ := h
    cases h
    exact fun hq => copy_quietE e a ha hq
  | .block k cv ss, t', h => by
    simp only [Inst.stmt, Outcome.bind_eq_ok] at h
    obtain ⟨a, ha, h⟩ := h
    cases h
    exact fun hq => copy_quietSs ss a ha hq
  | .call e, t', h => by
    simp only [Inst.stmt, Outcome.bind_eq_ok] at h
    obtain ⟨a, ha, h⟩ := h
    cases h
    exact fun hq => copy_quietE e a ha hq

theorem copy_quietSs : (ss ss' : List AStmt) → Inst.stmts m ss = .ok ss' → QuietSs ss → QuietSs ss'
  | [], ss', h => by
    simp only [Inst.stmts, Outcome.ok.injEq] at h
    subst h
    exact id
  | t :: ss, ss', h => by
    simp only [Inst.stmts, Outcome.bind_eq_ok] at h
    obtain ⟨a, ha, b, hb, h⟩ := h
    cases h
    exact fun hq => ⟨copy_quietS t a ha hq.1, copy_quietSs ss b hb hq.2⟩

end

theorem copy_cvT {ty ty' : AType} (h : Inst.type m ty = .ok ty') : ty'.cv = ty.cv := by
  cases ty with
  | base k cv b =>
    simp only [Inst.type, Outcome.ok.injEq] at h
    subst h
    rfl
  | uint k cv c w =>
    simp only [Inst.type, Outcome.bind_eq_ok] at h
    obtain ⟨a, ha, h⟩ := h
    cases h
    rfl

theorem copy_cvE {e e' : AExpr} (h : Inst.expr m e = .ok e') : e'.cv = e.cv := by
  cases e <;> simp only [Inst.expr, Outcome.bind_eq_ok, Outcome.ok.injEq] at h
  · subst h; rfl
  · obtain ⟨_, _, rfl⟩ := h; rfl
  · obtain ⟨_, _, _, _, rfl⟩ := h; rfl
  · obtain ⟨_, _, _, _, _, _, rfl⟩ := h; rfl
  · obtain ⟨_, _, _, _, rfl⟩ := h; rfl
  · obtain ⟨_, _, rfl⟩ := h; rfl
  · obtain ⟨_, _, _, _, rfl⟩ := h; rfl

theorem copy_quietPs : (ps ps' : List AParam) → Inst.params m ps = .ok ps' →
    (∀ p ∈ ps, p.type.cv = none → CallFreeT p.type) → ∀ p ∈ ps', p.type.cv = none → CallFreeT p.type
  | [], ps', h, _ => by
    simp only [Inst.params, Outcome.ok.injEq] at h
    subst h
    simp
  | p :: ps, ps', h, hq => by
    simp only [Inst.params, Outcome.bind_eq_ok] at h
    obtain ⟨a, ha, b, hb, h⟩ := h
    cases h
    intro q hm
    rcases List.mem_cons.1 hm with rfl | hm
    · exact fun hc => (Inst.type_raw p.type a ha).2 (hq p (by simp) (by rw [← copy_cvT ha]; exact hc))
    · exact copy_quietPs ps b hb (fun q hq' => hq q (by simp [hq'])) q hm

theorem substitute_quiet {w : List Nat} : (ps : List AParam) → {ws ws' : List Nat} → {ps' : List AParam} →
    Inst.substitute w ws ps = .ok (ws', ps') →
    (∀ p ∈ ps, p.type.cv = none → CallFreeT p.type) → ∀ p ∈ ps', p.type.cv = none → CallFreeT p.type
  | [], ws, ws', ps', h, _ => by
    simp only [Inst.substitute, Outcome.ok.injEq, Prod.mk.injEq] at h
    obtain ⟨_, rfl⟩ := h
    simp
  | p :: ps, ws, ws', ps', h, hq => by
    unfold Inst.substitute at h
    split at h
    · simp only [Outcome.bind_eq_ok] at h
      obtain ⟨x, _, ⟨a, b⟩, hb, h⟩ := h
      cases h
      intro q hm
      rcases List.mem_cons.1 hm with rfl | hm
      · intro _
        simp [CallFreeT, CallFree]
      · exact substitute_quiet ps hb (fun q hq' => hq q (by simp [hq'])) q hm
    · simp only [Outcome.bind_eq_ok] at h
      obtain ⟨⟨a, b⟩, hb, h⟩ := h
      cases h
      intro q hm
      rcases List.mem_cons.1 hm with rfl | hm
      · exact hq q (by simp)
      · exact substitute_quiet ps hb (fun q hq' => hq q (by simp [hq'])) q hm

end

theorem instance_quiet {base : Nat} {f g : AFn} {w : List Nat} {i : AInstance} (hf : QuietFn f)
    (h : Inst.function base f w = .ok (i, some g)) :
    QuietFn g ∧ g.generic = false ∧ g.k = f.k + base ∧ i.key = g.k := by
  simp only [Inst.function, Outcome.bind_eq_ok] at h
  obtain ⟨_, hg, o, ho, h⟩ := h
  cases o with
  | some j => cases h
  | none =>
    simp only [Outcome.bind_eq_ok] at h
    obtain ⟨c, hc, ⟨ws, ps⟩, hs, h⟩ := h
    cases h
    unfold Inst.copy at hc
    split at hc
    · cases hc
    · simp only [Outcome.bind_eq_ok] at hc
      obtain ⟨qs, hqs, ret, hret, req, hreq, body, hbody, hc⟩ := hc
      cases hc
      have hgen : f.generic = true := by
        unfold Outcome.assert at hg
        split at hg
        · assumption
        · cases hg
      refine ⟨⟨substitute_quiet qs hs (copy_quietPs _ _ hqs hf.params), ?_, ?_,
        fun _ => copy_quietSs _ _ hbody (hf.body (.inl hgen))⟩, rfl, rfl, rfl⟩
      · exact fun hc => (Inst.type_raw _ _ hret).2 (hf.ret (by rw [← copy_cvT hret]; exact hc))
      · exact Inst.optional_all (P := fun e => e.cv = none → CallFree e)
          (fun x x' hx hp hc => (Inst.expr_raw x x' hx).2 (hp (by rw [← copy_cvE hx]; exact hc))) hreq hf.reqs

/-! ## Expressions -/

section

variable {n : Nat} {af : Key → Level → AM Unit} {G : Key → Prop}

/-- Calls of functions end. -/
def AfEnds (af : Key → Level → AM Unit) : Prop :=
  ∀ (G : Key → Prop) j s f, QuietSt G s → s.fns j = some f → f.generic = false →
    AEnds (fun _ => QuietSt G) (af j .shallow) s

theorem literal_ends {k : Key} {cv : Option Value} {lit : Option Lit} {s : ASt} (hs : QuietSt G s) :
    AEnds (fun _ => QuietSt G) (Ana.literal k cv lit) s := by
  cases cv with
  | some v => exact AEnds.bind (.assert fun _ => hs) fun _ _ _ hs => .pure hs
  | none =>
    cases lit with
    | none => exact .throws
    | some l =>
      cases l with
      | true_ => exact .pure hs
      | false_ => exact .pure hs
      | integer text =>
        simp only [Ana.literal]
        cases parseIntegerLiteral text with
        | none => exact .fail
        | some x => exact .pure hs

theorem idValue_ends {k : Key} {ref : Option Lookup} {ctx : ECtx} {s : ASt} (hs : QuietSt G s) :
    AEnds (fun _ => QuietSt G) (Ana.idValue k ref ctx) s := by
  cases ref with
  | none => exact .throws
  | some r =>
    cases r with
    | builtin f => exact .throws
    | param p =>
      refine .ite (fun _ => .fail) fun _ => AEnds.bind (P := fun _ => QuietSt G) (.read hs) fun t s' _ hs => ?_
      cases t.decl p with
      | none => exact .throws
      | some d => exact .pure hs
    | node j =>
      refine AEnds.bind (P := fun _ => QuietSt G) (.read hs) fun t s' _ hs => ?_
      cases t.fns j with
      | some f => exact .fail
      | none =>
        cases t.decl j with
        | none => exact .throws
        | some d =>
          obtain ⟨kd, o⟩ := d
          cases kd <;> cases o
          · exact .ite (fun _ => .fail) fun _ => .fail
          · exact .ite (fun _ => .fail) fun _ => .pure hs
          · exact .fail
          · exact .pure hs
          · exact .throws
          · exact .throws
          · exact .throws
          · exact .ite (fun _ => .fail) fun _ => .pure hs

theorem rightContext_ends {k : Key} {op : ExprType} {left : Option Value} {ctx : ECtx} {s : ASt} (hs : QuietSt G s) :
    AEnds (fun c s => QuietSt G s ∧ (ctx = .normal → c = .normal)) (Ana.rightContext k op left ctx) s := by
  refine .ite (fun hc => ?_) fun _ => .pure ⟨hs, id⟩
  refine AEnds.bind (P := fun _ => QuietSt G) (.deref fun _ _ => hs) fun _ _ _ hs => .ite (fun _ => .fail) fun _ =>
    AEnds.bind (P := fun _ => QuietSt G) (.get fun _ _ => hs) fun _ _ _ hs => .pure ⟨hs, ?_⟩
  rw [hc.1]
  intro h
  cases h

theorem deduce_ends {s : ASt} : (as : List AExpr) → (ps : List AParam) →
    AEnds (fun _ s' => s' = s) (Ana.deduce as ps) s
  | [], _ => by unfold Ana.deduce; exact .pure rfl
  | _ :: _, [] => by unfold Ana.deduce; exact .pure rfl
  | a :: as, p :: ps => by
    unfold Ana.deduce
    refine AEnds.bind (P := fun _ s' => s' = s) (.assert fun _ => rfl) fun _ _ _ hs => ?_
    subst hs
    split
    · exact .throws
    · exact deduce_ends as ps
    · refine AEnds.bind (P := fun _ t => t = _) (.value fun _ _ => rfl) fun _ _ _ hs => ?_
      subst hs
      refine .ite (fun _ => .fail) fun _ => AEnds.bind (deduce_ends as ps) fun _ _ _ hs => .pure hs
    · exact deduce_ends as ps

theorem callee_ends {f : AFn} {args : List AExpr} {s : ASt} {k : Key} (hs : QuietSt G s) (hf' : s.fns k = some f) :
    AEnds (fun _ => QuietSt G) (Ana.callee f args) s := by
  have hf := hs.fn k f hf'
  refine .ite (fun hgen => ?_) fun _ => .pure hs
  refine AEnds.bind (P := fun _ s' => s' = s) (.assert fun _ => rfl) fun _ _ _ h => ?_
  subst h
  refine AEnds.bind (deduce_ends _ _) fun ws _ _ h => ?_
  subst h
  refine AEnds.bind (P := fun t s' => t = s' ∧ QuietSt G s' ∧ s'.fns k = some f) (.read ⟨rfl, hs, hf'⟩) fun t _ _ h => ?_
  obtain ⟨rfl, hs, hf'⟩ := h
  refine AEnds.bind (P := fun r s' => t = s' ∧ Inst.function t.next f ws = .ok r) (.get fun a ha => ⟨rfl, ha⟩)
    fun r _ _ h => ?_
  obtain ⟨h, hr⟩ := h
  subst h
  obtain ⟨i, o⟩ := r
  cases o with
  | none => exact .pure hs
  | some g =>
    obtain ⟨hg, hgg, hgk, hik⟩ := instance_quiet hf hr
    have hk := hs.key k f hf'
    have h1 : QuietSt G { Ana.addFunction g t with next := t.next + t.next } := by
      have := hs.addFn hg rfl hgg
      exact ⟨this.fn, this.key, this.inst, this.plain, Nat.add_pos_left hs.next _⟩
    have hne : k ≠ g.k := by
      rw [hgk, hk]
      have := hs.next
      intro h
      exact absurd (Nat.add_left_cancel (n := k) (m := 0) (k := t.next) (by rw [Nat.add_zero]; exact h)) (Nat.ne_of_lt this)
    have h2 : ({ Ana.addFunction g t with next := t.next + t.next } : ASt).fns k = some f := by
      simp [Ana.addFunction, hne, hf']
    refine AEnds.bind (P := fun _ s' => s' = _) (.modify rfl) fun _ _ _ h => ?_
    subst h
    refine AEnds.bind (P := fun _ => QuietSt G) (.modify ?_) fun _ _ _ hs => .pure hs
    rw [hk]
    refine h1.addGeneric ⟨hf.params, hf.ret, hf.reqs, hf.body⟩ h2 hgen rfl fun j hj => ?_
    rcases List.mem_append.1 hj with hj | hj
    · exact h1.inst k f h2 hgen j hj
    · simp only [List.mem_singleton] at hj
      subst hj
      exact ⟨g, by simp [Ana.addFunction, hik], hgg⟩

theorem passArgs_ends {k : Key} {ctx : ECtx} {s : ASt} : (as : List AExpr) → (ps : List AParam) →
    AEnds (fun _ s' => s' = s) (Ana.passArgs k ctx as ps) s
  | [], _ => by unfold Ana.passArgs; exact .pure rfl
  | _ :: _, [] => by unfold Ana.passArgs; exact .pure rfl
  | a :: as, p :: ps => by
    unfold Ana.passArgs
    refine AEnds.bind (P := fun _ t => t = s) (.get fun _ _ => rfl) fun _ _ _ hs => ?_
    subst hs
    refine AEnds.bind (P := fun _ t => t = _) (.value fun _ _ => rfl) fun _ _ _ hs => ?_
    subst hs
    refine AEnds.bind (P := fun _ t => t = _) (.value fun _ _ => rfl) fun _ _ _ hs => ?_
    subst hs
    refine .ite (fun _ => .fail) fun _ => ?_
    split
    · refine .ite (fun _ => ?_) fun _ => passArgs_ends as ps
      refine AEnds.bind (P := fun _ t => t = _) (.get fun _ _ => rfl) fun _ _ _ hs => ?_
      subst hs
      exact AEnds.bind (passArgs_ends as ps) fun _ _ _ hs => .pure hs
    · exact .ite (fun _ => .fail) fun _ => passArgs_ends as ps
    · exact .throws
    · exact .ub

theorem callFunction_ends {k j : Key} {args : List AExpr} {level : Level} {s : ASt} (haf : AfEnds af)
    (hl : level ≠ .forConst) (hs : QuietSt G s) :
    AEnds (fun _ => QuietSt G) (Ana.callFunction n af k j args level .normal) s := by
  unfold Ana.callFunction
  refine AEnds.bind (P := fun t s => t = s ∧ QuietSt G s) (.read ⟨rfl, hs⟩) fun t s' _ hs => ?_
  obtain ⟨rfl, hs⟩ := hs
  cases hf : t.fns j with
  | none => simp only [hf]; exact .fail
  | some f =>
    simp only [hf]
    refine .ite (fun _ => .fail) fun _ => ?_
    refine AEnds.bind (callee_ends hs hf) fun j' _ _ hs => ?_
    refine AEnds.bind (P := fun t s' => t = s' ∧ QuietSt G s') (.read ⟨rfl, hs⟩) fun t' _ _ h => ?_
    obtain ⟨rfl, hs⟩ := h
    refine AEnds.bind (P := fun f s' => t' = s' ∧ t'.fns j' = some f) (.value fun f hf => ⟨rfl, hf⟩) fun f' _ _ h => ?_
    obtain ⟨rfl, hf'⟩ := h
    refine AEnds.bind (P := fun _ s' => t' = s' ∧ f'.generic = false) (.assert fun h => ⟨rfl, by simpa using h⟩)
      fun _ _ _ h => ?_
    obtain ⟨rfl, hg'⟩ := h
    simp only [hl, or_false, reduceCtorEq, if_false, false_and]
    refine AEnds.bind (haf G j' t' f' hs hf' hg') fun _ _ _ hs => ?_
    refine AEnds.bind (P := fun _ => QuietSt G) (.read hs) fun t' _ _ hs => ?_
    refine AEnds.bind (P := fun _ => QuietSt G) (.value fun _ _ => hs) fun _ _ _ hs => ?_
    refine AEnds.bind (P := fun _ => QuietSt G) (.assert fun _ => hs) fun _ _ _ hs => ?_
    refine AEnds.bind (P := fun _ => QuietSt G) (.deref fun _ _ => hs) fun _ _ _ hs => ?_
    refine AEnds.bind (passArgs_ends _ _) fun _ _ _ h => ?_
    subst h
    exact .pure hs

/-- Expressions that can be analyzed in bounded depth: there are no calls in them, or they are outside of
constant expressions. -/
def Fine (af : Key → Level → AM Unit) (level : Level) (ctx : ECtx) (free quiet : Prop) : Prop :=
  free ∨ (ctx = .normal ∧ (level ≠ .forConst ∧ AfEnds af) ∧ quiet)

theorem mapM_value_ends {s : ASt} (hs : QuietSt G s) : (es : List AExpr) →
    AEnds (fun _ => QuietSt G) (es.mapM fun (a : AExpr) => AM.value a.cv) s
  | [] => by simpa using AEnds.pure (P := fun _ => QuietSt G) (a := ([] : List Value)) hs
  | e :: es => by
    rw [List.mapM_cons]
    refine AEnds.bind (P := fun _ s' => s' = s) (.value fun _ _ => rfl) fun _ _ _ h => ?_
    subst h
    exact AEnds.bind (mapM_value_ends hs es) fun _ _ _ hs => .pure hs

mutual

theorem expr_ends : (e : AExpr) → {level : Level} → {ctx : ECtx} → {s : ASt} →
    QuietSt G s → Fine af level ctx (CallFree e) (QuietE e) → AEnds (fun _ => QuietSt G) (Ana.expr n af e level ctx) s
  | .literal k cv lit, level, ctx, s, hs, _ => by
    rw [Ana.expr]
    exact literal_ends hs
  | .id k cv name ref g, level, ctx, s, hs, _ => by
    rw [Ana.expr.eq_def]
    cases cv with
    | some v => exact .pure hs
    | none => exact AEnds.bind (idValue_ends hs) fun _ _ _ hs => .pure hs
  | .conversion k cv e ty, level, ctx, s, hs, hf => by
    rw [Ana.expr]
    have h1 : Fine af level ctx (CallFree e) (QuietE e) := hf.imp (fun h => h.1) fun h => ⟨h.1, h.2.1, h.2.2.1⟩
    have h2 : CallFreeT ty := hf.elim (fun h => h.2) fun h => h.2.2.2
    refine AEnds.bind (expr_ends e hs h1) fun _ _ _ hs => ?_
    refine AEnds.bind (type_ends ty hs h2) fun _ _ _ hs => ?_
    refine AEnds.bind (P := fun _ => QuietSt G) (.value fun _ _ => hs) fun _ _ _ hs => ?_
    refine AEnds.bind (P := fun _ => QuietSt G) (.get fun _ _ => hs) fun _ _ _ hs => ?_
    refine AEnds.bind (P := fun _ => QuietSt G) (.value fun _ _ => hs) fun _ _ _ hs => ?_
    refine .ite (fun _ => .fail) fun _ => ?_
    exact AEnds.bind (P := fun _ => QuietSt G) (.foldResult fun _ => hs) fun _ _ _ hs => .pure hs
  | .ite k cv l c r, level, ctx, s, hs, hf => by
    rw [Ana.expr]
    have h1 : Fine af level ctx (CallFree l) (QuietE l) := hf.imp (fun h => h.1) fun h => ⟨h.1, h.2.1, h.2.2.1⟩
    have h2 : Fine af level ctx (CallFree c) (QuietE c) := hf.imp (fun h => h.2.1) fun h => ⟨h.1, h.2.1, h.2.2.2.1⟩
    have h3 : Fine af level ctx (CallFree r) (QuietE r) := hf.imp (fun h => h.2.2) fun h => ⟨h.1, h.2.1, h.2.2.2.2⟩
    have hw : ∀ {p : Prop} [Decidable p] {a b : Prop}, Fine af level ctx a b → Fine af level (if p then .normal else ctx) a b := by
      intro p _ a b h
      refine h.imp id fun h => ⟨?_, h.2⟩
      split
      · rfl
      · exact h.1
    refine AEnds.bind (expr_ends c hs h2) fun c1 _ _ hs => ?_
    refine AEnds.bind (P := fun _ => QuietSt G) (.deref fun _ _ => hs) fun vc _ _ hs => ?_
    refine .ite (fun _ => .fail) fun _ => ?_
    have key : ∀ (chosen : Option Bool) (s : ASt), QuietSt G s → AEnds (fun _ => QuietSt G) (do
        let left ← Ana.expr n af l level (if chosen = some false then .normal else ctx)
        let right ← Ana.expr n af r level (if chosen = some true then .normal else ctx)
        let l ← AM.deref left.cv
        let r ← AM.deref right.cv
        let t ← Ana.checked k (checkIf l.type vc.type r.type)
        match evalIfV l vc r with
        | .ok w => pure (.ite k (some w) left c1 right)
        | .err _ =>
          if ctx = .constant then AM.throws
          else pure (.ite k (some (Value.unknownOf t)) left c1 right)
        | .throws => AM.throws
        | .ub => AM.ub : AM AExpr) s := by
      intro chosen s hs
      refine AEnds.bind (expr_ends l hs (hw h1)) fun _ _ _ hs => ?_
      refine AEnds.bind (expr_ends r hs (hw h3)) fun _ _ _ hs => ?_
      refine AEnds.bind (P := fun _ => QuietSt G) (.deref fun _ _ => hs) fun _ _ _ hs => ?_
      refine AEnds.bind (P := fun _ => QuietSt G) (.deref fun _ _ => hs) fun _ _ _ hs => ?_
      refine AEnds.bind (P := fun _ => QuietSt G) (.checked fun _ _ => hs) fun _ _ _ hs => ?_
      split
      · exact .pure hs
      · exact .ite (fun _ => .throws) fun _ => .pure hs
      · exact .throws
      · exact .ub
    refine .ite (fun _ => ?_) fun _ => key none _ hs
    refine AEnds.bind (P := fun _ => QuietSt G) (.assert fun _ => hs) fun _ _ _ hs => ?_
    exact AEnds.bind (P := fun _ => QuietSt G) (.get fun _ _ => hs) fun b _ _ hs => key (some b) _ hs
  | .binary k cv op l r, level, ctx, s, hs, hf => by
    rw [Ana.expr]
    have h1 : Fine af level ctx (CallFree l) (QuietE l) := hf.imp (fun h => h.1) fun h => ⟨h.1, h.2.1, h.2.2.1⟩
    have h2 : Fine af level ctx (CallFree r) (QuietE r) := hf.imp (fun h => h.2) fun h => ⟨h.1, h.2.1, h.2.2.2⟩
    refine AEnds.bind (expr_ends l hs h1) fun _ _ _ hs => ?_
    refine AEnds.bind (P := fun _ => QuietSt G) (.assert fun _ => hs) fun _ _ _ hs => ?_
    refine AEnds.bind (rightContext_ends hs) fun c _ _ hs => ?_
    obtain ⟨hs, hc⟩ := hs
    have h3 : Fine af level c (CallFree r) (QuietE r) := h2.imp id fun h => ⟨hc h.1, h.2⟩
    refine AEnds.bind (expr_ends r hs h3) fun _ _ _ hs => ?_
    refine AEnds.bind (P := fun _ => QuietSt G) (.assert fun _ => hs) fun _ _ _ hs => ?_
    refine AEnds.bind (P := fun _ => QuietSt G) (.deref fun _ _ => hs) fun _ _ _ hs => ?_
    refine AEnds.bind (P := fun _ => QuietSt G) (.deref fun _ _ => hs) fun _ _ _ hs => ?_
    refine AEnds.bind (P := fun _ => QuietSt G) (.checked fun _ _ => hs) fun _ _ _ hs => ?_
    exact AEnds.bind (P := fun _ => QuietSt G) (.foldResult fun _ => hs) fun _ _ _ hs => .pure hs
  | .prefix k cv op e, level, ctx, s, hs, hf => by
    rw [Ana.expr]
    refine AEnds.bind (expr_ends e hs hf) fun _ _ _ hs => ?_
    refine AEnds.bind (P := fun _ => QuietSt G) (.value fun _ _ => hs) fun _ _ _ hs => ?_
    refine AEnds.bind (P := fun _ => QuietSt G) (.checked fun _ _ => hs) fun _ _ _ hs => ?_
    exact AEnds.bind (P := fun _ => QuietSt G) (.foldResult fun _ => hs) fun _ _ _ hs => .pure hs
  | .call k cv st name ref args, level, ctx, s, hs, hf => by
    rw [Ana.expr.eq_def]
    obtain ⟨hc, ⟨hl, haf⟩, hq⟩ : ctx = .normal ∧ (level ≠ .forConst ∧ AfEnds af) ∧ QuietEs args := hf.elim False.elim id
    subst hc
    cases ref with
    | none => exact .throws
    | some r =>
      cases r with
      | builtin f =>
        refine AEnds.bind (exprs_ends haf args hs hl hq) fun _ _ _ hs => ?_
        refine AEnds.bind (mapM_value_ends hs _) fun _ _ _ hs => ?_
        refine AEnds.bind (P := fun _ => QuietSt G) (.checked fun _ _ => hs) fun _ _ _ hs => ?_
        exact AEnds.bind (P := fun _ => QuietSt G) (.lift fun _ _ => hs) fun _ _ _ hs => .pure hs
      | param p => exact AEnds.bind (exprs_ends haf args hs hl hq) fun _ _ _ hs => .ub
      | node j =>
        refine AEnds.bind (exprs_ends haf args hs hl hq) fun _ _ _ hs => ?_
        exact AEnds.bind (callFunction_ends haf hl hs) fun _ _ _ hs => .pure hs

theorem type_ends : (ty : AType) → {s : ASt} → QuietSt G s → CallFreeT ty →
    AEnds (fun _ => QuietSt G) (Ana.type n af ty) s
  | .base k cv b, s, hs, _ => by
    rw [Ana.type.eq_def]
    cases cv <;> exact .pure hs
  | .uint k cv c w, s, hs, hf => by
    rw [Ana.type.eq_def]
    cases cv with
    | some v => exact .pure hs
    | none =>
      refine AEnds.bind (expr_ends w hs (.inl hf)) fun _ _ _ hs => ?_
      refine AEnds.bind (P := fun _ => QuietSt G) (.value fun _ _ => hs) fun _ _ _ hs => ?_
      refine .ite (fun _ => .fail) fun _ => ?_
      refine AEnds.bind (P := fun _ => QuietSt G) (.get fun _ _ => hs) fun _ _ _ hs => ?_
      refine .ite (fun _ => .fail) fun _ => ?_
      exact AEnds.bind (P := fun _ => QuietSt G) (.get fun _ _ => hs) fun _ _ _ hs => .pure hs

theorem exprs_ends (haf : AfEnds af) : (es : List AExpr) → {level : Level} → {s : ASt} →
    QuietSt G s → level ≠ .forConst → QuietEs es → AEnds (fun _ => QuietSt G) (Ana.exprs n af es level .normal) s
  | [], level, s, hs, _, _ => by
    rw [Ana.exprs]
    exact .pure hs
  | e :: es, level, s, hs, hl, hq => by
    rw [Ana.exprs]
    refine AEnds.bind (expr_ends e hs (.inr ⟨rfl, ⟨hl, haf⟩, hq.1⟩)) fun _ _ _ hs => ?_
    refine AEnds.bind (P := fun _ => QuietSt G) (.value fun _ _ => hs) fun _ _ _ hs => ?_
    exact AEnds.bind (exprs_ends haf es hs hl hq.2) fun _ _ _ hs => .pure hs

end

/-- Types that cannot be analyzed any further, or without calls. -/
theorem type_ends' {ty : AType} {s : ASt} (hs : QuietSt G s) (h : ty.cv = none → CallFreeT ty) :
    AEnds (fun t s => QuietSt G s ∧ t.cv.isSome) (Ana.type n af ty) s := by
  have hsome : ∀ t s', Ana.type n af ty s = .ok t s' → t.cv.isSome := by
    intro t s' hx
    cases hc : ty.cv with
    | none =>
      obtain ⟨u, hu⟩ := type_sig hc hx
      exact hu.1 ▸ rfl
    | some v =>
      cases ty <;> simp only [AType.cv] at hc <;> subst hc <;> simp only [Ana.type, AM.pure_ok] at hx <;>
        rw [← hx.1] <;> rfl
  cases hc : ty.cv with
  | none => exact (type_ends ty hs (h hc)).mono fun t s' hx hs => ⟨hs, hsome t s' hx⟩
  | some v =>
    refine AEnds.mono (P := fun _ => QuietSt G) ?_ fun t s' hx hs => ⟨hs, hsome t s' hx⟩
    cases ty <;> simp only [AType.cv] at hc <;> subst hc <;> rw [Ana.type.eq_def] <;> exact .pure hs

theorem declaredType_ends {ty : AType} {s : ASt} (hs : QuietSt G s) (h : CallFreeT ty) :
    AEnds (fun _ => QuietSt G) (Ana.declaredType n af ty) s := by
  unfold Ana.declaredType
  refine AEnds.bind (type_ends ty hs h) fun _ _ _ hs => ?_
  exact AEnds.bind (P := fun _ => QuietSt G) (.value fun _ _ => hs) fun _ _ _ hs => .pure hs

theorem const_ends {k : Key} {ty : Option AType} {init : AExpr} {s : ASt} (hs : QuietSt G s)
    (ht : ∀ t ∈ ty, CallFreeT t) (hi : CallFree init) :
    AEnds (fun _ => QuietSt G) (Ana.const_ n af k ty init) s := by
  cases ty with
  | none =>
    refine AEnds.bind (expr_ends init hs (.inl hi)) fun _ _ _ hs => ?_
    refine AEnds.bind (P := fun _ => QuietSt G) (.deref fun _ _ => hs) fun _ _ _ hs => ?_
    exact AEnds.bind (P := fun _ => QuietSt G) (.assert fun _ => hs) fun _ _ _ hs => .pure hs
  | some t =>
    refine AEnds.bind (declaredType_ends hs (ht t rfl)) fun _ _ _ hs => ?_
    refine AEnds.bind (expr_ends init hs (.inl hi)) fun _ _ _ hs => ?_
    refine AEnds.bind (P := fun _ => QuietSt G) (.deref fun _ _ => hs) fun _ _ _ hs => ?_
    refine .ite (fun _ => .fail) fun _ => ?_
    exact AEnds.bind (P := fun _ => QuietSt G) (.lift fun _ _ => hs) fun _ _ _ hs => .pure hs

theorem let_ends (haf : AfEnds af) {k : Key} {ty : Option AType} {init : Option AExpr} {level : Level} {s : ASt}
    (hs : QuietSt G s) (hl : level ≠ .forConst) (ht : ∀ t ∈ ty, CallFreeT t) (hi : ∀ e ∈ init, QuietE e) :
    AEnds (fun _ => QuietSt G) (Ana.let_ n af k ty init level) s := by
  cases ty with
  | none =>
    cases init with
    | none => exact .throws
    | some e =>
      refine AEnds.bind (expr_ends e hs (.inr ⟨rfl, ⟨hl, haf⟩, hi e rfl⟩)) fun _ _ _ hs => ?_
      exact AEnds.bind (P := fun _ => QuietSt G) (.value fun _ _ => hs) fun _ _ _ hs => .pure hs
  | some t =>
    cases init with
    | none => exact AEnds.bind (declaredType_ends hs (ht t rfl)) fun _ _ _ hs => .pure hs
    | some e =>
      refine AEnds.bind (declaredType_ends hs (ht t rfl)) fun _ _ _ hs => ?_
      refine AEnds.bind (expr_ends e hs (.inr ⟨rfl, ⟨hl, haf⟩, hi e rfl⟩)) fun _ _ _ hs => ?_
      refine AEnds.bind (P := fun _ => QuietSt G) (.deref fun _ _ => hs) fun _ _ _ hs => ?_
      exact .ite (fun _ => .fail) fun _ => .pure hs

theorem staticAssert_ends {k : Key} {e : AExpr} {s : ASt} (hs : QuietSt G s) (hi : CallFree e) :
    AEnds (fun _ => QuietSt G) (Ana.staticAssert n af k e) s := by
  refine AEnds.bind (expr_ends e hs (.inl hi)) fun _ _ _ hs => ?_
  refine AEnds.bind (P := fun _ => QuietSt G) (.assert fun _ => hs) fun _ _ _ hs => ?_
  refine AEnds.bind (P := fun _ => QuietSt G) (.deref fun _ _ => hs) fun _ _ _ hs => ?_
  refine .ite (fun _ => .fail) fun _ => ?_
  exact AEnds.bind (P := fun _ => QuietSt G) (.get fun _ _ => hs) fun _ _ _ hs => .ite (fun _ => .fail) fun _ => .pure hs

theorem condition_ends (haf : AfEnds af) {k : Key} {c : AExpr} {level : Level} {s : ASt} (hs : QuietSt G s)
    (hl : level ≠ .forConst) (hi : QuietE c) : AEnds (fun _ => QuietSt G) (Ana.condition n af k c level) s := by
  refine AEnds.bind (expr_ends c hs (.inr ⟨rfl, ⟨hl, haf⟩, hi⟩)) fun _ _ _ hs => ?_
  refine AEnds.bind (P := fun _ => QuietSt G) (.value fun _ _ => hs) fun _ _ _ hs => ?_
  exact .ite (fun _ => .fail) fun _ => .pure hs

/-! ## Statements -/

mutual

theorem stmt_ends (haf : AfEnds af) {ret : CType} {level : Level} (hl : level ≠ .forConst) : (t : AStmt) →
    {loop : Bool} → {s : ASt} → QuietSt G s → QuietS t → AEnds (fun _ => QuietSt G) (Ana.stmt n af ret level loop t) s
  | .const_ k cv name ty init, loop, s, hs, hq => by
    rw [Ana.stmt.eq_def]
    cases cv with
    | some v => exact .pure hs
    | none =>
      refine AEnds.bind (const_ends hs hq.1 hq.2) fun _ _ _ hs => ?_
      exact AEnds.bind (P := fun _ => QuietSt G) (.modify (hs.decl _ _)) fun _ _ _ hs => .pure hs
  | .let_ k cv name ty init, loop, s, hs, hq => by
    rw [Ana.stmt.eq_def]
    refine AEnds.bind (let_ends haf hs hl hq.1 hq.2) fun _ _ _ hs => ?_
    exact AEnds.bind (P := fun _ => QuietSt G) (.modify (hs.decl _ _)) fun _ _ _ hs => .pure hs
  | .staticAssert k cv e, loop, s, hs, hq => by
    rw [Ana.stmt.eq_def]
    cases cv with
    | some v => exact AEnds.bind (P := fun _ => QuietSt G) (.assert fun _ => hs) fun _ _ _ hs => .pure hs
    | none => exact AEnds.bind (staticAssert_ends hs hq) fun _ _ _ hs => .pure hs
  | .ifThen k cv c t, loop, s, hs, hq => by
    rw [Ana.stmt.eq_def]
    refine AEnds.bind (condition_ends haf hs hl hq.1) fun _ _ _ hs => ?_
    exact AEnds.bind (stmt_ends haf hl t hs hq.2) fun _ _ _ hs => .pure hs
  | .ifElse k cv c t e, loop, s, hs, hq => by
    rw [Ana.stmt.eq_def]
    refine AEnds.bind (condition_ends haf hs hl hq.1) fun _ _ _ hs => ?_
    refine AEnds.bind (stmt_ends haf hl t hs hq.2.1) fun _ _ _ hs => ?_
    exact AEnds.bind (stmt_ends haf hl e hs hq.2.2) fun _ _ _ hs => .pure hs
  | .while_ k cv c b, loop, s, hs, hq => by
    rw [Ana.stmt.eq_def]
    refine AEnds.bind (condition_ends haf hs hl hq.1) fun _ _ _ hs => ?_
    exact AEnds.bind (stmt_ends haf hl b hs hq.2) fun _ _ _ hs => .pure hs
  | .control k cv c e, loop, s, hs, hq => by
    rw [Ana.stmt.eq_def]
    cases c with
    | break_ => exact .ite (fun _ => .pure hs) fun _ => .fail
    | continue_ => exact .ite (fun _ => .pure hs) fun _ => .fail
    | return_ =>
      cases e with
      | none => exact .ite (fun _ => .fail) fun _ => .pure hs
      | some e =>
        refine AEnds.bind (expr_ends e hs (.inr ⟨rfl, ⟨hl, haf⟩, hq e rfl⟩)) fun _ _ _ hs => ?_
        refine AEnds.bind (P := fun _ => QuietSt G) (.value fun _ _ => hs) fun _ _ _ hs => ?_
        refine .ite (fun _ => .fail) fun _ => ?_
        exact AEnds.bind (P := fun _ => QuietSt G) (.foldResult fun _ => hs) fun _ _ _ hs => .pure hs
  | .assign k cv name ref e, loop, s, hs, hq => by
    rw [Ana.stmt.eq_def]
    cases ref with
    | none => exact .throws
    | some r =>
      cases r with
      | builtin f => exact .throws
      | param p => exact .fail
      | node j =>
        refine AEnds.bind (P := fun _ => QuietSt G) (.read hs) fun t _ _ hs => ?_
        cases t.fns j with
        | some f => exact .fail
        | none =>
          cases t.decl j with
          | none => exact .throws
          | some d =>
            obtain ⟨kd, o⟩ := d
            cases kd with
            | const_ => exact .fail
            | param => exact .throws
            | width => exact .throws
            | let_ =>
              refine AEnds.bind (expr_ends e hs (.inr ⟨rfl, ⟨hl, haf⟩, hq⟩)) fun _ _ _ hs => ?_
              refine AEnds.bind (P := fun _ => QuietSt G) (.value fun _ _ => hs) fun _ _ _ hs => ?_
              refine AEnds.bind (P := fun _ => QuietSt G) (.read hs) fun _ _ _ hs => ?_
              refine AEnds.bind (P := fun _ => QuietSt G) (.value fun _ _ => hs) fun _ _ _ hs => ?_
              refine AEnds.bind (P := fun _ => QuietSt G) (.value fun _ _ => hs) fun _ _ _ hs => ?_
              refine .ite (fun _ => .fail) fun _ => ?_
              exact AEnds.bind (P := fun _ => QuietSt G) (.foldResult fun _ => hs) fun _ _ _ hs => .pure hs
  | .block k cv ss, loop, s, hs, hq => by
    rw [Ana.stmt.eq_def]
    exact AEnds.bind (stmts_ends haf hl ss hs hq) fun _ _ _ hs => .pure hs
  | .call e, loop, s, hs, hq => by
    rw [Ana.stmt.eq_def]
    exact AEnds.bind (expr_ends e hs (.inr ⟨rfl, ⟨hl, haf⟩, hq⟩)) fun _ _ _ hs => .pure hs

theorem stmts_ends (haf : AfEnds af) {ret : CType} {level : Level} (hl : level ≠ .forConst) : (ss : List AStmt) →
    {loop : Bool} → {s : ASt} → QuietSt G s → QuietSs ss → AEnds (fun _ => QuietSt G) (Ana.stmts n af ret level loop ss) s
  | [], loop, s, hs, _ => by
    rw [Ana.stmts.eq_def]
    exact .pure hs
  | t :: ss, loop, s, hs, hq => by
    rw [Ana.stmts.eq_def]
    refine AEnds.bind (stmt_ends haf hl t hs hq.1) fun _ _ _ hs => ?_
    exact AEnds.bind (stmts_ends haf hl ss hs hq.2) fun _ _ _ hs => .pure hs

end

/-! ## Functions -/

theorem updateFn_ends {k : Key} {g : AFn → AFn} {s : ASt} {P : Unit → ASt → Prop}
    (h : ∀ f, s.fns k = some f → P () (s.setFn k (g f))) : AEnds P (Ana.updateFn k g) s := by
  unfold Ana.updateFn
  refine AEnds.bind (P := fun t s' => t = s' ∧ s' = s) (.read ⟨rfl, rfl⟩) fun t _ _ hs => ?_
  obtain ⟨rfl, rfl⟩ := hs
  refine AEnds.bind (P := fun f s' => s' = t ∧ t.fns k = some f) (.value fun f hf => ⟨rfl, hf⟩) fun f _ _ hs => ?_
  obtain ⟨rfl, hf⟩ := hs
  exact .modify (h f hf)

theorem params_ends {k : Key} : (ps : List AParam) → {before : List AParam} → {s : ASt} → QuietSt G s →
    (∀ p ∈ before, p.type.cv.isSome) → (∀ p ∈ ps, p.type.cv = none → CallFreeT p.type) →
    AEnds (fun _ => QuietSt G) (Ana.params n af k before ps) s
  | [], before, s, hs, _, _ => by
    rw [Ana.params]
    exact .pure hs
  | p :: ps, before, s, hs, hb, hp => by
    rw [Ana.params]
    refine AEnds.bind (type_ends' hs (hp p (by simp))) fun ty _ _ h => ?_
    obtain ⟨hs, hty⟩ := h
    refine AEnds.bind (P := fun _ => QuietSt G) (updateFn_ends fun f hf => hs.setFn hf ?_ rfl rfl rfl) fun _ _ _ hs => ?_
    · refine ⟨fun q hq hn => ?_, (hs.fn k f hf).ret, (hs.fn k f hf).reqs, (hs.fn k f hf).body⟩
      rcases List.mem_append.1 hq with hq | hq
      · have := hb q hq
        rw [hn] at this
        cases this
      · rcases List.mem_cons.1 hq with rfl | hq
        · rw [hn] at hty
          cases hty
        · exact hp q (by simp [hq]) hn
    refine AEnds.bind (P := fun _ => QuietSt G) (.modify (hs.decl _ _)) fun _ _ _ hs => ?_
    refine params_ends ps hs (fun q hq => ?_) fun q hq => hp q (by simp [hq])
    rcases List.mem_append.1 hq with hq | hq
    · exact hb q hq
    · simp only [List.mem_singleton] at hq
      subst hq
      exact hty

theorem requires_ends {k : Key} {e : AExpr} {s : ASt} (hs : QuietSt G s)
    (he : e.cv = none → CallFree e) : AEnds (fun _ => QuietSt G) (Ana.requires_ n af k e) s := by
  unfold Ana.requires_
  cases hc : e.cv with
  | some v => exact .pure hs
  | none =>
    refine AEnds.bind (expr_ends e hs (.inl (he hc))) fun e1 s1 _ hs => ?_
    show AEnds _ (AM.bind _ _) _
    by_cases hk : e1.cv.any Value.isKnown = true
    · refine AEnds.bind (P := fun _ => QuietSt G) (updateFn_ends fun f hf => hs.setFn hf ?_ rfl rfl rfl) fun _ _ _ hs => ?_
      · refine ⟨(hs.fn k f hf).params, (hs.fn k f hf).ret, fun x hx hn => ?_, (hs.fn k f hf).body⟩
        simp only [Option.mem_some_iff] at hx
        subst hx
        rw [hn] at hk
        cases hk
      refine AEnds.bind (P := fun _ => QuietSt G) (.assert fun _ => hs) fun _ _ _ hs => ?_
      refine AEnds.bind (P := fun _ => QuietSt G) (.deref fun _ _ => hs) fun _ _ _ hs => ?_
      refine .ite (fun _ => .fail) fun _ => ?_
      exact AEnds.bind (P := fun _ => QuietSt G) (.get fun _ _ => hs) fun _ _ _ hs =>
        .ite (fun _ => .fail) fun _ => .pure hs
    · refine AEnds.bind (P := fun _ _ => True) (updateFn_ends fun _ _ => trivial) fun _ _ _ _ => ?_
      refine AEnds.bind (P := fun _ _ => False) (.assert fun h => hk h) fun _ _ _ h => h.elim

end


section

variable {G : Key → Prop}

theorem forM_ends {α : Type} {x : α → AM Unit} : (l : List α) → {s : ASt} → QuietSt G s →
    (∀ a ∈ l, ∀ s, QuietSt G s → AEnds (fun _ => QuietSt G) (x a) s) → AEnds (fun _ => QuietSt G) (l.forM x) s
  | [], s, hs, _ => AEnds.pure (P := fun _ => QuietSt G) hs
  | a :: l, s, hs, h => by
    show AEnds _ (x a >>= fun _ => l.forM x) s
    exact AEnds.bind (h a (by simp) s hs) fun _ _ _ hs => forM_ends l hs fun b hb => h b (by simp [hb])

/-- What comes after the signature of a function. -/
def afterSignature (n : Nat) (k : Key) (level : Level) (f : AFn) (ret : AType) : AM Unit := do
  Ana.updateFn k fun f => { f with level := if f.level = .unanalyzed then .shallow else f.level }
  if Level.full.rank ≤ level.rank then do
    let t ← AM.get ret.concreteType
    let t ← AM.value t
    let body ← Ana.stmts n (Ana.function n) t level false f.body
    Ana.updateFn k fun f => { f with body := body }
  if level = .forConst then Ana.compile k
  Ana.updateFn k fun f => { f with cv := ret.cv, level := level }
  AM.modify fun s => { s with stack := s.stack.tail }

theorem setFn_setFn (s : ASt) (k : Key) (f g : AFn) : (s.setFn k f).setFn k g = s.setFn k g := by
  unfold ASt.setFn
  congr 1
  funext j
  by_cases h : j = k <;> simp [h]

theorem setFn_same (s : ASt) (k : Key) (f : AFn) : (s.setFn k f).fns k = some f := by simp [ASt.setFn]

theorem afterSignature_ends {n : Nat} {k : Key} {level : Level} (hl : level ≠ .forConst)
    {f : AFn} {ret : AType} {s : ASt} (hs : QuietSt G s) (hb : QuietSs f.body) (hk : G k)
    (hlev : ∀ g, s.fns k = some g → g.level.rank < 2)
    (haf : Level.full.rank ≤ level.rank → AfEnds (Ana.function n)) :
    AEnds (fun _ => QuietSt G) (afterSignature n k level f ret) s := by
  unfold afterSignature
  refine AEnds.bind (P := fun _ s => QuietSt G s ∧ ∀ g, s.fns k = some g → g.level.rank < 2)
    (updateFn_ends fun g hg => ⟨hs.setFn hg ?_ rfl rfl rfl, fun g' hg' => ?_⟩) fun _ _ _ h => ?_
  · have hq := hs.fn k g hg
    refine ⟨hq.params, hq.ret, hq.reqs, fun h => hq.body (h.imp id fun h => ?_)⟩
    revert h
    cases g.level <;> simp [Level.rank]
  · rw [setFn_same] at hg'
    cases hg'
    have := hlev g hg
    revert this
    cases g.level <;> simp [Level.rank]
  obtain ⟨hs, hlev⟩ := h
  have hstack : ∀ s, QuietSt G s → AEnds (fun _ => QuietSt G) (AM.modify fun s => { s with stack := s.stack.tail }) s :=
    fun s hs => .modify (hs.stack _)
  simp only [hl, if_false]
  by_cases hfull : Level.full.rank ≤ level.rank
  · rw [if_pos hfull]
    refine AEnds.bind (P := fun _ => QuietSt G) (.get fun _ _ => hs) fun _ _ _ hs => ?_
    refine AEnds.bind (P := fun _ => QuietSt G) (.value fun _ _ => hs) fun _ _ _ hs => ?_
    refine AEnds.bind (stmts_ends (haf hfull) hl f.body hs hb) fun body s1 _ hs => ?_
    refine AEnds.bind (P := fun _ s' => ∃ g, s1.fns k = some g ∧ s' = s1.setFn k { g with body := body })
      (updateFn_ends fun g hg => ⟨g, hg, rfl⟩) fun _ _ _ h => ?_
    obtain ⟨g, hg, rfl⟩ := h
    refine AEnds.bind (P := fun _ => QuietSt G) (updateFn_ends fun g' hg' => ?_) fun _ s _ hs => hstack s hs
    rw [setFn_same] at hg'
    cases hg'
    rw [setFn_setFn]
    have hq := hs.fn k g hg
    refine hs.setFn hg ⟨hq.params, hq.ret, hq.reqs, fun h => ?_⟩ rfl rfl rfl
    obtain ⟨g', hg', hgen⟩ := hs.plain k hk
    rw [hg] at hg'
    cases hg'
    rcases h with h | h
    · rw [show g.generic = true from h] at hgen
      cases hgen
    · exact absurd hfull (Nat.not_le.2 h)
  · rw [if_neg hfull]
    refine AEnds.bind (P := fun _ => QuietSt G) (updateFn_ends fun g hg => hs.setFn hg ?_ rfl rfl rfl)
      fun _ s _ hs => hstack s hs
    have hq := hs.fn k g hg
    refine ⟨hq.params, hq.ret, hq.reqs, fun _ => hq.body (.inr (hlev g hg))⟩

theorem updateFn_level {k : Key} {g : AFn → AFn} (hg : ∀ f, (g f).level = f.level) {s s' : ASt}
    (h : Ana.updateFn k g s = .ok () s') : (s'.fns k).map AFn.level = (s.fns k).map AFn.level := by
  obtain ⟨f, hf, rfl⟩ := updateFn_ok.1 h
  rw [setFn_same, hf]
  simp [hg]

theorem type_state' {n : Nat} {af : Key → Level → AM Unit} {ty ty' : AType} {s s' : ASt}
    (hc : ty.cv = none → CallFreeT ty) (h : Ana.type n af ty s = .ok ty' s') : s' = s := by
  cases hv : ty.cv with
  | none => exact type_state ty (hc hv) h
  | some v =>
    cases ty <;> simp only [AType.cv] at hv <;> subst hv <;> simp only [Ana.type, AM.pure_ok] at h <;> exact h.2.symm

theorem params_level {n : Nat} {af : Key → Level → AM Unit} {k : Key} : (ps : List AParam) → {before : List AParam} →
    {s s' : ASt} → (∀ p ∈ ps, p.type.cv = none → CallFreeT p.type) → Ana.params n af k before ps s = .ok () s' →
    (s'.fns k).map AFn.level = (s.fns k).map AFn.level
  | [], before, s, s', _, h => by
    simp only [Ana.params, AM.pure_ok] at h
    rw [h.2]
  | p :: ps, before, s, s', hp, h => by
    simp only [Ana.params, AM.bind_ok, AM.modify_ok] at h
    obtain ⟨ty, s1, h1, _, s2, h2, _, s3, rfl, h3⟩ := h
    have a := type_state' (hp p (by simp)) h1
    subst a
    have b := updateFn_level (by simp) h2
    have c := params_level ps (fun q hq => hp q (by simp [hq])) h3
    exact c.trans b

theorem requires_level {n : Nat} {af : Key → Level → AM Unit} {k : Key} {e : AExpr} {s s' : ASt}
    (he : e.cv = none → CallFree e) (h : Ana.requires_ n af k e s = .ok () s') :
    (s'.fns k).map AFn.level = (s.fns k).map AFn.level := by
  unfold Ana.requires_ at h
  cases hc : e.cv with
  | some v =>
    simp only [hc, AM.pure_ok] at h
    rw [h.2]
  | none =>
    simp only [hc, AM.bind_ok, AM.assert_ok, AM.deref_ok, AM.ite_fail_ok, AM.get_ok, AM.pure_ok] at h
    obtain ⟨e1, s1, h1, _, s2, h2, _, _, ⟨_, rfl⟩, _, _, ⟨_, rfl⟩, _, _, _, ⟨_, rfl⟩, _, _, rfl⟩ := h
    have a := expr_state e (he hc) h1
    subst a
    exact updateFn_level (by simp) h2

/-- One level of the analysis of functions that are not generic ends if calls do. -/
theorem plain_step {n : Nat} {level : Level} (haf : Level.full.rank ≤ level.rank → AfEnds (Ana.function n)) {k : Key} (hl : level ≠ .forConst)
    {s : ASt} (hs : QuietSt G s) (hk : G k) :
    AEnds (fun _ => QuietSt G) (Ana.function (n + 1) k level) s := by
  rw [Ana.function]
  refine AEnds.bind (P := fun _ => QuietSt G) (.assert fun _ => hs) fun _ _ _ hs => ?_
  refine AEnds.bind (P := fun t s' => t = s' ∧ QuietSt G s') (.read ⟨rfl, hs⟩) fun t _ _ h => ?_
  obtain ⟨rfl, hs⟩ := h
  refine AEnds.bind (P := fun f s' => t = s' ∧ t.fns k = some f) (.value fun f hf => ⟨rfl, hf⟩) fun f _ _ h => ?_
  obtain ⟨rfl, hf⟩ := h
  refine .ite (fun _ => .pure hs) fun hlev => ?_
  have hgen : f.generic = false := by
    obtain ⟨g, hg, h⟩ := hs.plain k hk
    rw [hf] at hg
    cases hg
    exact h
  rw [if_neg (by simp [hgen])]
  have hq := hs.fn k f hf
  have hlv : f.level.rank < 2 := by
    have h1 : f.level.rank < level.rank := Nat.lt_of_not_le hlev
    have h2 : level.rank ≤ 2 := by cases level <;> simp [Level.rank] at hl ⊢
    exact Nat.lt_of_lt_of_le h1 h2
  have hl0 : (t.fns k).map AFn.level = some f.level := by rw [hf]; rfl
  refine AEnds.bind (P := fun _ s' => t = s') (.assert fun _ => rfl) fun _ _ _ h => ?_
  subst h
  refine AEnds.bind (params_ends f.params hs (by simp) hq.params) fun _ s1 hx hs => ?_
  have hl1 := (params_level f.params hq.params hx).trans hl0
  refine AEnds.bind (type_ends' hs hq.ret) fun ret s2 hx h => ?_
  obtain ⟨hs, hr⟩ := h
  have := type_state' hq.ret hx
  subst this
  refine AEnds.bind (P := fun _ => QuietSt G) (updateFn_ends fun g hg => hs.setFn hg ?_ rfl rfl rfl) fun _ s3 hx hs => ?_
  · refine ⟨(hs.fn k g hg).params, fun h => ?_, (hs.fn k g hg).reqs, (hs.fn k g hg).body⟩
    rw [show ret.cv = none from h] at hr
    cases hr
  have hl3 := (updateFn_level (by simp) hx).trans hl1
  refine AEnds.bind (P := fun _ s => QuietSt G s ∧ (s.fns k).map AFn.level = some f.level)
    (.modify ⟨hs.stack _, hl3⟩) fun _ s4 _ h => ?_
  obtain ⟨hs, hl4⟩ := h
  have key : ∀ s, QuietSt G s → (s.fns k).map AFn.level = some f.level →
      AEnds (fun _ => QuietSt G) (afterSignature n k level f ret) s := by
    intro s hs hl5
    refine afterSignature_ends hl hs (hq.body (.inr hlv)) hk (fun g hg => ?_) haf
    rw [hg] at hl5
    simp only [Option.map_some, Option.some.injEq] at hl5
    rw [hl5]
    exact hlv
  cases hreq : f.requires_ with
  | none => exact key _ hs hl4
  | some e =>
    exact AEnds.bind (requires_ends hs (hq.reqs e hreq)) fun _ s' hx hs =>
      key s' hs ((requires_level (hq.reqs e hreq) hx).trans hl4)

/-- Analysis of functions that are not generic ends if calls do. -/
theorem plain_ends {n : Nat} {level : Level} (haf : Level.full.rank ≤ level.rank → AfEnds (Ana.function n)) {k : Key} (hl : level ≠ .forConst)
    {s : ASt} (hs : QuietSt G s) {f : AFn} (hf : s.fns k = some f) (hg : f.generic = false) :
    AEnds (fun _ => QuietSt G) (Ana.function (n + 1) k level) s := by
  have hs' : QuietSt (fun j => G j ∨ j = k) s :=
    ⟨hs.fn, hs.key, hs.inst, fun j hj => hj.elim (hs.plain j) fun h => ⟨f, h ▸ hf, hg⟩, hs.next⟩
  exact (plain_step haf hl hs' (.inr rfl)).mono fun _ s' _ h =>
    ⟨h.fn, h.key, h.inst, fun j hj => h.plain j (.inl hj), h.next⟩

/-- Calls end: they only analyze signatures and requires-clauses. -/
theorem afEnds (n : Nat) : AfEnds (Ana.function (n + 1)) := fun _ _ _ _ hs hf hg =>
  plain_ends (fun h => absurd h (by decide)) (by decide) hs hf hg

/-- Analysis of functions ends. -/
theorem function_ends (n : Nat) {k : Key} {s : ASt} (hs : QuietSt G s) :
    AEnds (fun _ => QuietSt G) (Ana.function (n + 3) k .full) s := by
  cases hf : s.fns k with
  | none =>
    rw [Ana.function]
    refine AEnds.bind (P := fun _ s' => s = s') (.assert fun _ => rfl) fun _ _ _ h => ?_
    subst h
    refine AEnds.bind (P := fun t s' => t = s ∧ s = s') (.read ⟨rfl, rfl⟩) fun t _ _ h => ?_
    obtain ⟨rfl, rfl⟩ := h
    rw [hf]
    exact AEnds.bind (P := fun _ _ => False) (.value fun _ h => by cases h) fun _ _ _ h => h.elim
  | some f =>
    cases hg : f.generic with
    | false => exact plain_ends (fun _ => afEnds (n + 1)) (by decide) hs hf hg
    | true =>
      rw [Ana.function]
      refine AEnds.bind (P := fun _ s' => s = s') (.assert fun _ => rfl) fun _ _ _ h => ?_
      subst h
      refine AEnds.bind (P := fun t s' => t = s ∧ s = s') (.read ⟨rfl, rfl⟩) fun t _ _ h => ?_
      obtain ⟨rfl, rfl⟩ := h
      rw [hf]
      refine AEnds.bind (P := fun g s' => g = f ∧ t = s') (.value fun _ h => ⟨(Option.some.inj h).symm, rfl⟩) fun g _ _ h => ?_
      obtain ⟨rfl, rfl⟩ := h
      refine .ite (fun _ => .pure hs) fun _ => .ite (fun _ => ?_) fun h => absurd hg h
      have hs' : QuietSt (fun j => G j ∨ ∃ i ∈ g.instances, i.key = j) t :=
        ⟨hs.fn, hs.key, hs.inst, fun j hj => hj.elim (hs.plain j) fun ⟨i, hi, h⟩ => h ▸ hs.inst k g hf hg i hi, hs.next⟩
      refine (forM_ends g.instances hs' fun i hi s hs => ?_).mono fun _ s' _ h =>
        ⟨h.fn, h.key, h.inst, fun j hj => h.plain j (.inl hj), h.next⟩
      obtain ⟨f', hf', hg'⟩ := hs.plain i.key (.inr ⟨i, hi, rfl⟩)
      exact plain_ends (fun _ => afEnds n) (by decide) hs hf' hg'

/-! ## Programs -/

theorem decls_ends (n : Nat) : (ds : List ADecl) → {s : ASt} → QuietSt G s → (∀ d ∈ ds, QuietD d) →
    AEnds (fun _ => QuietSt G) (Ana.decls (n + 3) ds) s
  | [], s, hs, _ => by
    rw [Ana.decls]
    exact .pure hs
  | d :: ds, s, hs, hq => by
    rw [Ana.decls]
    refine AEnds.bind (P := fun _ => QuietSt G) ?_ fun _ s' _ hs => decls_ends n ds hs fun d hd => hq d (by simp [hd])
    have hd := hq d (by simp)
    cases d with
    | const_ k cv name ty init =>
      cases cv with
      | some v => exact .pure hs
      | none =>
        refine AEnds.bind (const_ends hs hd.1 hd.2) fun _ _ _ hs => ?_
        exact .modify (hs.decl _ _)
    | staticAssert k cv e =>
      cases cv with
      | some v => exact .assert fun _ => hs
      | none => exact AEnds.bind (staticAssert_ends hs hd) fun _ _ _ hs => .pure hs
    | function f => exact function_ends n hs

end

end Bms
