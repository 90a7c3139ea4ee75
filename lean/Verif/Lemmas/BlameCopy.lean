import Verif.Lemmas.BlameState

/-!
# Nodes before analysis, and their copies in instances
-/

namespace Bms

open Spec

section

variable {ds : List ADecl} {N : Nat} {L : Key → Prop}

theorem low_self {k : Key} (h : k < N) : k % N = k := Nat.mod_eq_of_lt h

theorem simR_self (hL : ∀ j, IsFn ds j → L j) {r : Option Lookup} (h : ∀ x ∈ r.toList, LowR N x) : SimR ds N L r r := by
  cases r with
  | none => exact .none
  | some r =>
    have hr := h r (by simp)
    cases r with
    | builtin b => exact .builtin
    | node j => exact .node (low_self hr) (hL j)
    | param j => exact .param (low_self hr)

mutual

theorem simE_self (hL : ∀ j, IsFn ds j → L j) (c : Bool) : (e : AExpr) → RawE e → (∀ k ∈ Inst.keysE e, k < N) →
    (∀ r ∈ refsE e, LowR N r) → SimE ds N L c e e
  | .literal k cv l, h, hk, _ => by
    simp only [RawE] at h
    subst h
    exact .literal (low_self (hk k (by simp [Inst.keysE]))) (fun v hv => by cases hv)
  | .id k cv name ref g, h, hk, hr => by
    simp only [RawE] at h
    subst h
    exact .id (low_self (hk k (by simp [Inst.keysE]))) (simR_self hL hr) (fun v hv => by cases hv)
  | .conversion k cv e ty, h, hk, hr => by
    simp only [RawE, Inst.keysE, refsE, List.mem_cons, List.mem_append] at h hk hr
    obtain ⟨rfl, h1, h2⟩ := h
    exact .conversion (low_self (hk k (.inl rfl)))
      (simE_self hL c e h1 (fun k h => hk k (.inr (.inl h))) (fun r h => hr r (.inl h)))
      (simT_self hL ty h2 (fun k h => hk k (.inr (.inr h))) (fun r h => hr r (.inr h))) (fun v hv => by cases hv)
  | .ite k cv l b r, h, hk, hr => by
    simp only [RawE, Inst.keysE, refsE, List.mem_cons, List.mem_append] at h hk hr
    obtain ⟨rfl, h1, h2, h3⟩ := h
    exact .ite (low_self (hk k (.inl rfl)))
      (simE_self hL c l h1 (fun k h => hk k (.inr (.inl (.inl h)))) (fun r h => hr r (.inl h)))
      (simE_self hL c b h2 (fun k h => hk k (.inr (.inl (.inr h)))) (fun r h => hr r (.inr (.inl h))))
      (simE_self hL c r h3 (fun k h => hk k (.inr (.inr h))) (fun r h => hr r (.inr (.inr h)))) (fun v hv => by cases hv)
  | .binary k cv op l r, h, hk, hr => by
    simp only [RawE, Inst.keysE, refsE, List.mem_cons, List.mem_append] at h hk hr
    obtain ⟨rfl, h1, h2⟩ := h
    exact .binary (low_self (hk k (.inl rfl)))
      (simE_self hL c l h1 (fun k h => hk k (.inr (.inl h))) (fun r h => hr r (.inl h)))
      (simE_self hL c r h2 (fun k h => hk k (.inr (.inr h))) (fun r h => hr r (.inr h))) (fun v hv => by cases hv)
  | .prefix k cv op e, h, hk, hr => by
    simp only [RawE, Inst.keysE, refsE, List.mem_cons] at h hk hr
    obtain ⟨rfl, h1⟩ := h
    exact .pre (low_self (hk k (.inl rfl))) (simE_self hL c e h1 (fun k h => hk k (.inr h)) hr) (fun v hv => by cases hv)
  | .call k cv st name ref args, h, hk, hr => by
    simp only [RawE, Inst.keysE, refsE, List.mem_cons, List.mem_append] at h hk hr
    obtain ⟨rfl, -, h1⟩ := h
    exact .call (low_self (hk k (.inl rfl))) (simR_self hL (fun r h => hr r (.inl h)))
      (simEs_self hL c args h1 (fun k h => hk k (.inr h)) (fun r h => hr r (.inr h))) (fun v hv => by cases hv)

theorem simT_self (hL : ∀ j, IsFn ds j → L j) : (t : AType) → RawT t → (∀ k ∈ Inst.keysT t, k < N) →
    (∀ r ∈ refsT t, LowR N r) → SimT ds N L t t
  | .base k cv b, h, _, _ => by
    simp only [RawT] at h
    subst h
    exact .base (fun v hv => by cases hv)
  | .uint k cv n w, h, hk, hr => by
    simp only [RawT, Inst.keysT, refsT, List.mem_cons] at h hk hr
    obtain ⟨rfl, rfl, h1⟩ := h
    exact .uint (simE_self hL true w h1 (fun k h => hk k (.inr h)) hr) (fun v hv => by cases hv) (fun _ _ hv => by cases hv)

theorem simEs_self (hL : ∀ j, IsFn ds j → L j) (c : Bool) : (es : List AExpr) → RawEs es → (∀ k ∈ Inst.keysEs es, k < N) →
    (∀ r ∈ refsEs es, LowR N r) → SimEs ds N L c es es
  | [], _, _, _ => .nil
  | e :: es, h, hk, hr => by
    simp only [RawEs, Inst.keysEs, refsEs, List.mem_append] at h hk hr
    exact .cons (simE_self hL c e h.1 (fun k h => hk k (.inl h)) (fun r h => hr r (.inl h)))
      (simEs_self hL c es h.2 (fun k h => hk k (.inr h)) (fun r h => hr r (.inr h)))

end

theorem simCall_self (hL : ∀ j, IsFn ds j → L j) (c : Bool) {e : AExpr} (h : RawCall e) (hk : ∀ k ∈ Inst.keysE e, k < N)
    (hr : ∀ r ∈ refsE e, LowR N r) : SimE ds N L c e e := by
  cases e with
  | call k cv st name ref args =>
    simp only [RawCall, Inst.keysE, refsE, List.mem_cons, List.mem_append] at h hk hr
    obtain ⟨rfl, -, h1⟩ := h
    exact .call (low_self (hk k (.inl rfl))) (simR_self hL (fun r h => hr r (.inl h)))
      (simEs_self hL c args h1 (fun k h => hk k (.inr h)) (fun r h => hr r (.inr h))) (fun v hv => by cases hv)
  | _ => exact h.elim

theorem simO_self {α : Type} {S : α → α → Prop} {o : Option α} (h : ∀ x, o = some x → S x x) : SameO S o o := by
  cases o with
  | none => exact .none
  | some x => exact .some (h x rfl)

mutual

theorem simS_self (hL : ∀ j, IsFn ds j → L j) : (s : AStmt) → RawS s → (∀ k ∈ Inst.keysS s, k < N) →
    (∀ r ∈ refsS s, LowR N r) → SimS ds N L s s
  | .const_ k cv name ty e, h, hk, hr => by
    simp only [RawS, Inst.keysS, refsS, List.mem_cons, List.mem_append] at h hk hr
    obtain ⟨rfl, h1, h2⟩ := h
    refine .const_ (low_self (hk k (.inl rfl))) (simO_self fun t ht => ?_)
      (simE_self hL true e h2 (fun k h => hk k (.inr (.inr h))) (fun r h => hr r (.inr h))) (fun v hv => by cases hv)
    subst ht
    exact simT_self hL t (h1 t rfl) (fun k h => hk k (.inr (.inl h))) (fun r h => hr r (.inl h))
  | .let_ k cv name ty e, h, hk, hr => by
    simp only [RawS, Inst.keysS, refsS, List.mem_cons, List.mem_append] at h hk hr
    obtain ⟨rfl, h1, h2⟩ := h
    refine .let_ (low_self (hk k (.inl rfl))) (simO_self fun t ht => ?_) (simO_self fun t ht => ?_) (fun v hv => by cases hv)
    · subst ht
      exact simT_self hL t (h1 t rfl) (fun k h => hk k (.inr (.inl h))) (fun r h => hr r (.inl h))
    · subst ht
      exact simE_self hL false t (h2 t rfl) (fun k h => hk k (.inr (.inr h))) (fun r h => hr r (.inr h))
  | .staticAssert k cv e, h, hk, hr => by
    simp only [RawS, Inst.keysS, refsS, List.mem_cons] at h hk hr
    exact .staticAssert (low_self (hk k (.inl rfl))) (simE_self hL true e h.2 (fun k h => hk k (.inr h)) hr)
  | .ifThen k cv b t, h, hk, hr => by
    simp only [RawS, Inst.keysS, refsS, List.mem_cons, List.mem_append] at h hk hr
    exact .ifThen (low_self (hk k (.inl rfl)))
      (simE_self hL false b h.2.1 (fun k h => hk k (.inr (.inl h))) (fun r h => hr r (.inl h)))
      (simS_self hL t h.2.2 (fun k h => hk k (.inr (.inr h))) (fun r h => hr r (.inr h)))
  | .ifElse k cv b t e, h, hk, hr => by
    simp only [RawS, Inst.keysS, refsS, List.mem_cons, List.mem_append] at h hk hr
    exact .ifElse (low_self (hk k (.inl rfl)))
      (simE_self hL false b h.2.1 (fun k h => hk k (.inr (.inl (.inl h)))) (fun r h => hr r (.inl h)))
      (simS_self hL t h.2.2.1 (fun k h => hk k (.inr (.inl (.inr h)))) (fun r h => hr r (.inr (.inl h))))
      (simS_self hL e h.2.2.2 (fun k h => hk k (.inr (.inr h))) (fun r h => hr r (.inr (.inr h))))
  | .while_ k cv b t, h, hk, hr => by
    simp only [RawS, Inst.keysS, refsS, List.mem_cons, List.mem_append] at h hk hr
    exact .while_ (low_self (hk k (.inl rfl)))
      (simE_self hL false b h.2.1 (fun k h => hk k (.inr (.inl h))) (fun r h => hr r (.inl h)))
      (simS_self hL t h.2.2 (fun k h => hk k (.inr (.inr h))) (fun r h => hr r (.inr h)))
  | .control k cv c e, h, hk, hr => by
    simp only [RawS, Inst.keysS, refsS, List.mem_cons] at h hk hr
    refine .control (low_self (hk k (.inl rfl))) (simO_self fun t ht => ?_)
    subst ht
    exact simE_self hL false t (h.2.2 t rfl) (fun k h => hk k (.inr h)) hr
  | .assign k cv name ref e, h, hk, hr => by
    simp only [RawS, Inst.keysS, refsS, List.mem_cons, List.mem_append] at h hk hr
    exact .assign (low_self (hk k (.inl rfl))) (simR_self hL (fun r h => hr r (.inl h)))
      (simE_self hL false e h.2 (fun k h => hk k (.inr h)) (fun r h => hr r (.inr h)))
  | .block k cv ss, h, hk, hr => by
    simp only [RawS, Inst.keysS, refsS, List.mem_cons] at h hk hr
    exact .block (simSs_self hL ss h.2 (fun k h => hk k (.inr h)) hr)
  | .call e, h, hk, hr => by
    simp only [RawS, Inst.keysS, refsS] at h hk hr
    exact .call (simCall_self hL false h hk hr)

theorem simSs_self (hL : ∀ j, IsFn ds j → L j) : (ss : List AStmt) → RawSs ss → (∀ k ∈ Inst.keysSs ss, k < N) →
    (∀ r ∈ refsSs ss, LowR N r) → SimSs ds N L ss ss
  | [], _, _, _ => .nil
  | s :: ss, h, hk, hr => by
    simp only [RawSs, Inst.keysSs, refsSs, List.mem_append] at h hk hr
    exact .cons (simS_self hL s h.1 (fun k h => hk k (.inl h)) (fun r h => hr r (.inl h)))
      (simSs_self hL ss h.2 (fun k h => hk k (.inr h)) (fun r h => hr r (.inr h)))

end

theorem forall₂_self {α : Type} {R : α → α → Prop} : (l : List α) → (∀ x ∈ l, R x x) → List.Forall₂ R l l
  | [], _ => .nil
  | x :: l, h => .cons (h x (by simp)) (forall₂_self l fun y hy => h y (by simp [hy]))

theorem fn_keys {f : AFn} (hk : ∀ k ∈ nodeKeys (.function f), k < N) : f.k < N ∧ (∀ p ∈ f.params, p.k < N) ∧
    (∀ p ∈ f.params, ∀ k ∈ Inst.keysT p.type, k < N) ∧ (∀ k ∈ Inst.keysT f.ret, k < N) ∧
    (∀ e, f.requires_ = some e → ∀ k ∈ Inst.keysE e, k < N) ∧ ∀ k ∈ Inst.keysSs f.body, k < N := by
  simp only [nodeKeys, Inst.keys, List.mem_append, List.mem_cons, List.mem_flatMap, List.mem_map] at hk
  refine ⟨hk f.k (.inl (.inl rfl)), fun p hp => hk p.k (.inr ⟨p, hp, rfl⟩),
    fun p hp k h => hk k (.inl (.inr (.inl (.inl (.inl ⟨p, hp, h⟩))))),
    fun k h => hk k (.inl (.inr (.inl (.inl (.inr h))))), fun e he k h => hk k (.inl (.inr (.inl (.inr ?_)))),
    fun k h => hk k (.inl (.inr (.inr (.inr h))))⟩
  rw [he]
  exact h

theorem simF_self (hL : ∀ j, IsFn ds j → L j) {f : AFn} (h : RawFn f) (hk : ∀ k ∈ nodeKeys (.function f), k < N)
    (hl : Names.LowD N (.function f)) : SimF ds N L f f := by
  obtain ⟨k1, k2, k3, k4, k5, k6⟩ := fn_keys hk
  refine ⟨low_self k1, forall₂_self _ fun p hp => ⟨low_self (k2 p hp), simT_self hL _ (h.params p hp).1 (k3 p hp) (hl.1 p hp)⟩,
    simT_self hL _ h.ret.1 k4 hl.2.1, simO_self fun e he => simE_self hL true e (h.reqs e he) (k5 e he) ?_,
    simSs_self hL _ h.body k6 hl.2.2.2, ?_, ?_⟩
  · have := hl.2.2.1
    rw [he] at this
    exact this
  · rw [h.cv]; intro v hv; cases hv
  · rw [h.instances]; simp

/-! ## Copies -/

/-- The result, if there is one, has `P`; no error is reported. -/
def OBl {α : Type} (P : α → Prop) (o : Outcome AErr α) : Prop :=
  match o with
  | .ok a => P a
  | .err _ => False
  | _ => True

theorem OBl.bind {α β : Type} {P : α → Prop} {Q : β → Prop} {o : Outcome AErr α} {f : α → Outcome AErr β} (h : OBl P o)
    (hf : ∀ a, P a → OBl Q (f a)) : OBl Q (o >>= f) := by
  cases o with
  | ok a => exact hf a h
  | err e => exact h.elim
  | _ => trivial

theorem OBl.mono {α : Type} {P Q : α → Prop} {o : Outcome AErr α} (h : OBl P o) (hf : ∀ a, P a → Q a) : OBl Q o := by
  cases o with
  | ok a => exact hf a h
  | err e => exact h.elim
  | _ => trivial

/-- Copies of lookup results are right. -/
def CopiesR (ds : List ADecl) (N : Nat) (L : Key → Prop) (m : Inst.Remap) : Prop :=
  ∀ r : Option Lookup, (∀ x ∈ r.toList, LowR N x) → OBl (SimR ds N L r) (Inst.lookup m r)

variable {m : Inst.Remap}

theorem low_copy (hb : m.base % N = 0) {k : Key} (h : k < N) : (k + m.base) % N = k := by
  rw [Nat.add_mod, hb, Nat.add_zero, Nat.mod_mod, low_self h]

mutual

theorem copyE_sim (hb : m.base % N = 0) (hm : CopiesR ds N L m) (c : Bool) : (e : AExpr) → RawE e → (∀ k ∈ Inst.keysE e, k < N) →
    (∀ r ∈ refsE e, LowR N r) → OBl (SimE ds N L c e) (Inst.expr m e)
  | .literal k cv l, h, hk, _ => by
    simp only [RawE] at h
    subst h
    exact .literal (low_copy hb (hk k (by simp [Inst.keysE]))) (fun v hv => by cases hv)
  | .id k cv name ref g, h, hk, hr => by
    simp only [RawE] at h
    subst h
    exact (hm ref hr).bind fun r hr => .id (low_copy hb (hk k (by simp [Inst.keysE]))) hr (fun v hv => by cases hv)
  | .conversion k cv e ty, h, hk, hr => by
    simp only [RawE, Inst.keysE, refsE, List.mem_cons, List.mem_append] at h hk hr
    obtain ⟨rfl, h1, h2⟩ := h
    exact (copyE_sim hb hm c e h1 (fun k h => hk k (.inr (.inl h))) (fun r h => hr r (.inl h))).bind fun e' he =>
      (copyT_sim hb hm ty h2 (fun k h => hk k (.inr (.inr h))) (fun r h => hr r (.inr h))).bind fun t' ht =>
      .conversion (low_copy hb (hk k (.inl rfl))) he ht (fun v hv => by cases hv)
  | .ite k cv l b r, h, hk, hr => by
    simp only [RawE, Inst.keysE, refsE, List.mem_cons, List.mem_append] at h hk hr
    obtain ⟨rfl, h1, h2, h3⟩ := h
    exact (copyE_sim hb hm c l h1 (fun k h => hk k (.inr (.inl (.inl h)))) (fun r h => hr r (.inl h))).bind fun _ hl =>
      (copyE_sim hb hm c b h2 (fun k h => hk k (.inr (.inl (.inr h)))) (fun r h => hr r (.inr (.inl h)))).bind fun _ hc =>
      (copyE_sim hb hm c r h3 (fun k h => hk k (.inr (.inr h))) (fun r h => hr r (.inr (.inr h)))).bind fun _ hr =>
      .ite (low_copy hb (hk k (.inl rfl))) hl hc hr (fun v hv => by cases hv)
  | .binary k cv op l r, h, hk, hr => by
    simp only [RawE, Inst.keysE, refsE, List.mem_cons, List.mem_append] at h hk hr
    obtain ⟨rfl, h1, h2⟩ := h
    exact (copyE_sim hb hm c l h1 (fun k h => hk k (.inr (.inl h))) (fun r h => hr r (.inl h))).bind fun _ hl =>
      (copyE_sim hb hm c r h2 (fun k h => hk k (.inr (.inr h))) (fun r h => hr r (.inr h))).bind fun _ hr =>
      .binary (low_copy hb (hk k (.inl rfl))) hl hr (fun v hv => by cases hv)
  | .prefix k cv op e, h, hk, hr => by
    simp only [RawE, Inst.keysE, refsE, List.mem_cons] at h hk hr
    obtain ⟨rfl, h1⟩ := h
    exact (copyE_sim hb hm c e h1 (fun k h => hk k (.inr h)) hr).bind fun _ he =>
      .pre (low_copy hb (hk k (.inl rfl))) he (fun v hv => by cases hv)
  | .call k cv st name ref args, h, hk, hr => by
    simp only [RawE, Inst.keysE, refsE, List.mem_cons, List.mem_append] at h hk hr
    obtain ⟨rfl, -, h1⟩ := h
    exact (hm ref (fun r h => hr r (.inl h))).bind fun _ hrf =>
      (copyEs_sim hb hm c args h1 (fun k h => hk k (.inr h)) (fun r h => hr r (.inr h))).bind fun _ ha =>
      .call (low_copy hb (hk k (.inl rfl))) hrf ha (fun v hv => by cases hv)

theorem copyT_sim (hb : m.base % N = 0) (hm : CopiesR ds N L m) : (t : AType) → RawT t → (∀ k ∈ Inst.keysT t, k < N) →
    (∀ r ∈ refsT t, LowR N r) → OBl (SimT ds N L t) (Inst.type m t)
  | .base k cv b, h, _, _ => by
    simp only [RawT] at h
    subst h
    exact .base (fun v hv => by cases hv)
  | .uint k cv n w, h, hk, hr => by
    simp only [RawT, Inst.keysT, refsT, List.mem_cons] at h hk hr
    obtain ⟨rfl, rfl, h1⟩ := h
    exact (copyE_sim hb hm true w h1 (fun k h => hk k (.inr h)) hr).bind fun _ hw =>
      .uint hw (fun v hv => by cases hv) (fun _ _ hv => by cases hv)

theorem copyEs_sim (hb : m.base % N = 0) (hm : CopiesR ds N L m) (c : Bool) : (es : List AExpr) → RawEs es →
    (∀ k ∈ Inst.keysEs es, k < N) → (∀ r ∈ refsEs es, LowR N r) → OBl (SimEs ds N L c es) (Inst.exprs m es)
  | [], _, _, _ => .nil
  | e :: es, h, hk, hr => by
    simp only [RawEs, Inst.keysEs, refsEs, List.mem_append] at h hk hr
    exact (copyE_sim hb hm c e h.1 (fun k h => hk k (.inl h)) (fun r h => hr r (.inl h))).bind fun _ he =>
      (copyEs_sim hb hm c es h.2 (fun k h => hk k (.inr h)) (fun r h => hr r (.inr h))).bind fun _ hes => .cons he hes

end

theorem copyCall_sim (hb : m.base % N = 0) (hm : CopiesR ds N L m) (c : Bool) {e : AExpr} (h : RawCall e)
    (hk : ∀ k ∈ Inst.keysE e, k < N) (hr : ∀ r ∈ refsE e, LowR N r) : OBl (SimE ds N L c e) (Inst.expr m e) := by
  cases e with
  | call k cv st name ref args =>
    simp only [RawCall, Inst.keysE, refsE, List.mem_cons, List.mem_append] at h hk hr
    obtain ⟨rfl, -, h1⟩ := h
    exact (hm ref (fun r h => hr r (.inl h))).bind fun _ hrf =>
      (copyEs_sim hb hm c args h1 (fun k h => hk k (.inr h)) (fun r h => hr r (.inr h))).bind fun _ ha =>
      .call (low_copy hb (hk k (.inl rfl))) hrf ha (fun v hv => by cases hv)
  | _ => exact h.elim

theorem copyO_sim {α : Type} {S : α → α → Prop} {f : α → Outcome AErr α} {o : Option α} (h : ∀ x, o = some x → OBl (S x) (f x)) :
    OBl (SameO S o) (Names.optional f o) := by
  cases o with
  | none => exact .none
  | some x => exact (h x rfl).bind fun _ hy => .some hy

mutual

theorem copyS_sim (hb : m.base % N = 0) (hm : CopiesR ds N L m) : (s : AStmt) → RawS s → (∀ k ∈ Inst.keysS s, k < N) →
    (∀ r ∈ refsS s, LowR N r) → OBl (SimS ds N L s) (Inst.stmt m s)
  | .const_ k cv name ty e, h, hk, hr => by
    simp only [RawS, Inst.keysS, refsS, List.mem_cons, List.mem_append] at h hk hr
    obtain ⟨rfl, h1, h2⟩ := h
    refine (copyO_sim (S := SimT ds N L) fun t ht => ?_).bind fun _ ht =>
      (copyE_sim hb hm true e h2 (fun k h => hk k (.inr (.inr h))) (fun r h => hr r (.inr h))).bind fun _ he =>
      .const_ (low_copy hb (hk k (.inl rfl))) ht he (fun v hv => by cases hv)
    subst ht
    exact copyT_sim hb hm t (h1 t rfl) (fun k h => hk k (.inr (.inl h))) (fun r h => hr r (.inl h))
  | .let_ k cv name ty e, h, hk, hr => by
    simp only [RawS, Inst.keysS, refsS, List.mem_cons, List.mem_append] at h hk hr
    obtain ⟨rfl, h1, h2⟩ := h
    refine (copyO_sim (S := SimT ds N L) fun t ht => ?_).bind fun _ ht =>
      (copyO_sim (S := SimE ds N L false) fun t ht => ?_).bind fun _ he =>
      .let_ (low_copy hb (hk k (.inl rfl))) ht he (fun v hv => by cases hv)
    · subst ht
      exact copyT_sim hb hm t (h1 t rfl) (fun k h => hk k (.inr (.inl h))) (fun r h => hr r (.inl h))
    · subst ht
      exact copyE_sim hb hm false t (h2 t rfl) (fun k h => hk k (.inr (.inr h))) (fun r h => hr r (.inr h))
  | .staticAssert k cv e, h, hk, hr => by
    simp only [RawS, Inst.keysS, refsS, List.mem_cons] at h hk hr
    exact (copyE_sim hb hm true e h.2 (fun k h => hk k (.inr h)) hr).bind fun _ he =>
      .staticAssert (low_copy hb (hk k (.inl rfl))) he
  | .ifThen k cv b t, h, hk, hr => by
    simp only [RawS, Inst.keysS, refsS, List.mem_cons, List.mem_append] at h hk hr
    exact (copyE_sim hb hm false b h.2.1 (fun k h => hk k (.inr (.inl h))) (fun r h => hr r (.inl h))).bind fun _ hc =>
      (copyS_sim hb hm t h.2.2 (fun k h => hk k (.inr (.inr h))) (fun r h => hr r (.inr h))).bind fun _ ht =>
      .ifThen (low_copy hb (hk k (.inl rfl))) hc ht
  | .ifElse k cv b t e, h, hk, hr => by
    simp only [RawS, Inst.keysS, refsS, List.mem_cons, List.mem_append] at h hk hr
    exact (copyE_sim hb hm false b h.2.1 (fun k h => hk k (.inr (.inl (.inl h)))) (fun r h => hr r (.inl h))).bind fun _ hc =>
      (copyS_sim hb hm t h.2.2.1 (fun k h => hk k (.inr (.inl (.inr h)))) (fun r h => hr r (.inr (.inl h)))).bind fun _ ht =>
      (copyS_sim hb hm e h.2.2.2 (fun k h => hk k (.inr (.inr h))) (fun r h => hr r (.inr (.inr h)))).bind fun _ he =>
      .ifElse (low_copy hb (hk k (.inl rfl))) hc ht he
  | .while_ k cv b t, h, hk, hr => by
    simp only [RawS, Inst.keysS, refsS, List.mem_cons, List.mem_append] at h hk hr
    exact (copyE_sim hb hm false b h.2.1 (fun k h => hk k (.inr (.inl h))) (fun r h => hr r (.inl h))).bind fun _ hc =>
      (copyS_sim hb hm t h.2.2 (fun k h => hk k (.inr (.inr h))) (fun r h => hr r (.inr h))).bind fun _ ht =>
      .while_ (low_copy hb (hk k (.inl rfl))) hc ht
  | .control k cv c e, h, hk, hr => by
    simp only [RawS, Inst.keysS, refsS, List.mem_cons] at h hk hr
    refine (copyO_sim (S := SimE ds N L false) fun t ht => ?_).bind fun _ he => .control (low_copy hb (hk k (.inl rfl))) he
    subst ht
    exact copyE_sim hb hm false t (h.2.2 t rfl) (fun k h => hk k (.inr h)) hr
  | .assign k cv name ref e, h, hk, hr => by
    simp only [RawS, Inst.keysS, refsS, List.mem_cons, List.mem_append] at h hk hr
    exact (hm ref (fun r h => hr r (.inl h))).bind fun _ hrf =>
      (copyE_sim hb hm false e h.2 (fun k h => hk k (.inr h)) (fun r h => hr r (.inr h))).bind fun _ he =>
      .assign (low_copy hb (hk k (.inl rfl))) hrf he
  | .block k cv ss, h, hk, hr => by
    simp only [RawS, Inst.keysS, refsS, List.mem_cons] at h hk hr
    exact (copySs_sim hb hm ss h.2 (fun k h => hk k (.inr h)) hr).bind fun _ hs => .block hs
  | .call e, h, hk, hr => by
    simp only [RawS, Inst.keysS, refsS] at h hk hr
    exact (copyCall_sim hb hm false h hk hr).bind fun _ he => .call he

theorem copySs_sim (hb : m.base % N = 0) (hm : CopiesR ds N L m) : (ss : List AStmt) → RawSs ss →
    (∀ k ∈ Inst.keysSs ss, k < N) → (∀ r ∈ refsSs ss, LowR N r) → OBl (SimSs ds N L ss) (Inst.stmts m ss)
  | [], _, _, _ => .nil
  | s :: ss, h, hk, hr => by
    simp only [RawSs, Inst.keysSs, refsSs, List.mem_append] at h hk hr
    exact (copyS_sim hb hm s h.1 (fun k h => hk k (.inl h)) (fun r h => hr r (.inl h))).bind fun _ hs =>
      (copySs_sim hb hm ss h.2 (fun k h => hk k (.inr h)) (fun r h => hr r (.inr h))).bind fun _ hss => .cons hs hss

end

theorem copyPs_sim (hb : m.base % N = 0) (hm : CopiesR ds N L m) : (ps : List AParam) → (∀ p ∈ ps, RawT p.type) →
    (∀ p ∈ ps, p.k < N) → (∀ p ∈ ps, ∀ k ∈ Inst.keysT p.type, k < N) → (∀ p ∈ ps, ∀ r ∈ refsT p.type, LowR N r) →
    OBl (List.Forall₂ (SimP ds N L) ps) (Inst.params m ps)
  | [], _, _, _, _ => .nil
  | p :: ps, h1, h2, h3, h4 =>
    (copyT_sim hb hm p.type (h1 p (by simp)) (h3 p (by simp)) (h4 p (by simp))).bind fun _ ht =>
    (copyPs_sim hb hm ps (fun p hp => h1 p (by simp [hp])) (fun p hp => h2 p (by simp [hp])) (fun p hp => h3 p (by simp [hp]))
      (fun p hp => h4 p (by simp [hp]))).bind fun _ hps => .cons ⟨low_copy hb (h2 p (by simp)), ht⟩ hps

/-- Widths that parameters declare have a value, if they have been substituted. -/
def WidthKnown (p : AParam) : Prop :=
  ∀ k cv c ki v name ref, p.type = .uint k cv c (.id ki (some v) name ref true) → v.isKnown = true ∧ v.type = .int

theorem getWidth_bl (w : List Nat) (i : Nat) : OBl (fun _ => True) (Inst.getWidth w i) := by
  unfold Inst.getWidth
  split <;> trivial

theorem substitute_sim (w : List Nat) : (ws : List Nat) → (ps0 ps : List AParam) → List.Forall₂ (SimP ds N L) ps0 ps →
    OBl (fun r => List.Forall₂ (SimP ds N L) ps0 r.2 ∧ ∀ p ∈ r.2, WidthKnown p) (Inst.substitute w ws ps)
  | ws, _, [], .nil => ⟨.nil, by simp⟩
  | ws, p0 :: ps0, p :: ps, .cons hp hps => by
    have hother : (∀ k cv c ki cvi name ref, p.type ≠ .uint k cv c (.id ki cvi name ref true)) →
        OBl (fun r => List.Forall₂ (SimP ds N L) (p0 :: ps0) r.2 ∧ ∀ p ∈ r.2, WidthKnown p)
          (do let (ws, ps) ← Inst.substitute w ws ps; .ok (ws, p :: ps)) := by
      intro hne
      refine (substitute_sim w ws ps0 ps hps).bind fun r hr => ?_
      refine ⟨.cons hp hr.1, fun q hq => ?_⟩
      rcases List.mem_cons.1 hq with rfl | hq
      · intro k cv c ki v name ref he
        exact (hne _ _ _ _ _ _ _ he).elim
      · exact hr.2 q hq
    unfold Inst.substitute
    split
    · next k cv c ki cvi name ref he =>
      refine (getWidth_bl w ws.length).bind fun x _ => ?_
      refine (substitute_sim w (ws ++ [x]) ps0 ps hps).bind fun r hr => ?_
      refine ⟨.cons ⟨hp.1, ?_⟩ hr.1, fun q hq => ?_⟩
      · have ht := hp.2
        rw [he] at ht
        revert ht
        generalize p0.type = t0
        intro ht
        cases ht with
        | uint h1 h2 h3 =>
          cases h1 with
          | id h4 h5 h6 =>
            refine .uint (.id h4 h5 fun v hv => ?_) h2 fun y t hy hm => ?_
            · cases hv
              simp only [Has, TypeE]
              exact .inl ⟨trivial, rfl⟩
            · obtain ⟨rfl, h7, h8, h9⟩ := mkUint_ok hm
              refine ⟨y, by simp, by omega, by omega, fun k cv text hw => ?_⟩
              cases hw
      · rcases List.mem_cons.1 hq with rfl | hq
        · intro k' cv' c' ki' v' name' ref' he'
          cases he'
          exact ⟨rfl, rfl⟩
        · exact hr.2 q hq
    · next hne => exact hother fun k cv c ki cvi name ref he => hne k cv c ki cvi name ref he

theorem hasWidths_bl (w : List Nat) : (i : Nat) → (xs : List Nat) → OBl (fun _ => True) (Inst.hasWidths w i xs)
  | _, [] => trivial
  | i, x :: xs => (getWidth_bl w i).bind fun y _ => by
    split
    · trivial
    · exact hasWidths_bl w (i + 1) xs

theorem findInstance_bl (w : List Nat) : (is : List AInstance) → OBl (fun r => ∀ i, r = some i → i ∈ is) (Inst.findInstance w is)
  | [] => fun i h => by cases h
  | i :: is => by
    unfold Inst.findInstance
    refine (hasWidths_bl w 0 i.widths).bind fun b _ => ?_
    split
    · intro j hj
      cases hj
      simp
    · exact (findInstance_bl w is).mono fun r hr j hj => List.mem_cons_of_mem _ (hr j hj)

theorem isFn_keys (hg : BGiven ds N) {f : AFn} (hf : .function f ∈ ds) {k : Key} (hk : k ∈ Inst.keys f) (hi : IsFn ds k) : k = f.k := by
  obtain ⟨g, hgm, rfl⟩ := hi
  have := nodeKeys_unique hg.raw.nodup hf hgm (x := g.k) (by simp [nodeKeys, hk]) (by simp [nodeKeys, Inst.keys])
  cases this
  rfl

theorem instance_sim (hg : BGiven ds N) {f0 : AFn} (hf : .function f0 ∈ ds) (is : List AInstance) (w : List Nat)
    {base : Nat} (hb : base % N = 0) (hL : L (f0.k + base)) :
    OBl (fun r => r.2 = none ∧ r.1 ∈ is ∨ ∃ g, r.2 = some g ∧ g.k = r.1.key ∧ g.k = f0.k + base ∧ g.generic = false ∧
      (∀ p ∈ g.params, WidthKnown p) ∧ SimF ds N L f0 g) (Inst.function base { f0 with instances := is } w) := by
  have hraw : RawFn f0 := hg.raw.raw _ hf
  have hlow : Names.LowD N (.function f0) := hg.low _ hf
  obtain ⟨k1, k2, k3, k4, k5, k6⟩ := fn_keys (fun k h => hg.lt hf h)
  unfold Inst.function
  have ha : OBl (fun _ => True) (Outcome.assert (ε := AErr) f0.generic) := by
    unfold Outcome.assert
    split <;> trivial
  refine ha.bind fun _ _ => ?_
  refine (findInstance_bl w is).bind fun r hr => ?_
  cases r with
  | some i => exact .inl ⟨rfl, hr i rfl⟩
  | none =>
    simp only
    unfold Inst.copy
    split
    · trivial
    · let m : Inst.Remap := ⟨Inst.keys f0, f0.params.map AParam.k, base⟩
      have hm : CopiesR ds N L m := by
        intro r hr
        cases r with
        | none => exact .none
        | some r =>
          have hr := hr r (by simp)
          cases r with
          | builtin b => exact .builtin
          | node k =>
            simp only [Inst.lookup]
            split
            · next hk =>
              refine .node (low_copy (m := m) hb hr) fun hi => ?_
              rw [isFn_keys hg hf hk hi]
              exact hL
            · trivial
          | param k =>
            simp only [Inst.lookup]
            split
            · exact .param (low_copy (m := m) hb hr)
            · trivial
      have hcp := copyPs_sim (m := m) hb hm f0.params (fun p hp => (hraw.params p hp).1) k2 k3 hlow.1
      have hcr := copyT_sim (m := m) hb hm f0.ret hraw.ret.1 k4 hlow.2.1
      have hcq : OBl (SameO (SimE ds N L true) f0.requires_) (Names.optional (Inst.expr m) f0.requires_) := by
        refine copyO_sim fun e he => copyE_sim (m := m) hb hm true e (hraw.reqs e he) (k5 e he) ?_
        have := hlow.2.2.1
        rw [he] at this
        exact this
      have hcb := copySs_sim (m := m) hb hm f0.body hraw.body k6 hlow.2.2.2
      refine OBl.bind (P := fun g => g.k = f0.k + base ∧ g.generic = false ∧ SimF ds N L f0 g) ?_ fun g hgs => ?_
      · refine hcp.bind fun ps hps => hcr.bind fun ret hret => hcq.bind fun req hreq => hcb.bind fun body hbody => ?_
        refine ⟨rfl, rfl, low_copy (m := m) hb k1, hps, hret, hreq, hbody, ?_, by simp⟩
        rw [hraw.cv]
        intro v hv
        cases hv
      · obtain ⟨h1, h2, h3⟩ := hgs
        refine (substitute_sim w [] f0.params g.params h3.params).bind fun r hr => ?_
        exact .inr ⟨_, rfl, rfl, h1, h2, hr.2, h3.k, hr.1, h3.ret, h3.reqs, h3.body, h3.cv, h3.instances⟩

end

end Bms
