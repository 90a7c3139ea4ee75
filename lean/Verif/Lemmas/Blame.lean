import Verif.Spec.Blame
import Verif.Lemmas.AnalyzeTyped

/-!
# Errors of analysis: types of results, and what analysis does to nodes
-/

namespace Bms

open Spec

/-! ## Types of results -/

theorem convertTo_type {v w : CVal} {t : CType} {k : ConvKind} (h : v.convertTo t k = .ok w) : w.type = t := by
  unfold CVal.convertTo at h
  split at h
  · next he => cases h; exact he
  split at h
  · cases h
  split at h
  · dsimp only at h
    split at h
    · cases h
    · cases h; rfl
  · cases h

theorem map_some {ε α β : Type} {o : Outcome ε α} {f : α → β} {u : β} (h : o.map f = .ok u) : ∃ a, u = f a := by
  cases o with
  | ok a => exact ⟨a, (Outcome.ok.inj h).symm⟩
  | _ => cases h

theorem guard_some {α : Type} {n : Nat} {a b : α} (h : shiftGuard n a = .ok b) : b = a := by
  unfold shiftGuard at h
  split at h
  · cases h; rfl
  · cases h

theorem evalBinaryEqual_type {l r u : CVal} {op : ExprType} {t : CType} (h : checkBinaryCommon op l.type = .ok t)
    (hu : evalBinaryEqual l op r = .ok u) : u.type = t := by
  obtain ⟨lt, li⟩ := l
  cases lt with
  | void => simp [checkBinaryCommon] at h
  | bool =>
    cases op <;> simp [checkBinaryCommon, ExprType.isBinaryArithmetic, ExprType.isBinaryBitwise, ExprType.isRelationalComparison,
      evalBinaryEqual, evalBinaryBool, CType.isInteger, CVal.ofBool] at h hu <;> (first | (cases hu; done) | skip) <;>
      (subst h; subst hu; rfl)
  | int =>
    cases op <;> simp [checkBinaryCommon, ExprType.isBinaryLogical, ExprType.isBinaryBitwise, ExprType.isBinaryComparison,
      ExprType.isEqualityComparison, ExprType.isRelationalComparison,
      evalBinaryEqual, evalBinaryInt, CType.isInteger] at h hu <;> (first | (cases hu; done) | skip) <;>
      (try subst h) <;>
      (first
        | (subst hu; rfl)
        | (obtain ⟨a, rfl⟩ := map_some hu; rfl)
        | (obtain ⟨a, rfl⟩ := map_some hu.2; rfl)
        | (split at hu
           · cases hu
           · obtain ⟨a, rfl⟩ := map_some hu; rfl))
  | uint w =>
    cases op <;> simp [checkBinaryCommon, ExprType.isBinaryLogical, ExprType.isBinaryComparison,
      ExprType.isEqualityComparison, ExprType.isRelationalComparison,
      evalBinaryEqual, evalBinaryUint, CType.isInteger] at h hu <;> (first | (cases hu; done) | skip) <;>
      (try subst h) <;>
      (first
        | (subst hu; rfl)
        | (rw [guard_some hu]; rfl)
        | (obtain ⟨a, rfl⟩ := map_some hu; rfl)
        | (split at hu
           · cases hu
           · obtain ⟨a, rfl⟩ := map_some hu; rfl))

theorem evalBinary_result {l r u : CVal} {op : ExprType} {t : CType} (h : checkBinary l.type op r.type = .ok t)
    (hu : evalBinary l op r = .ok u) : u.type = t := by
  unfold evalBinary at hu
  obtain ⟨_, -, hu⟩ := Outcome.bind_eq_ok.1 hu
  obtain ⟨⟨a, b⟩, hab, hu⟩ := Outcome.bind_eq_ok.1 hu
  obtain ⟨_, -, hu⟩ := Outcome.bind_eq_ok.1 hu
  unfold convertToEqual at hab
  obtain ⟨common, hc, hab⟩ := Outcome.bind_eq_ok.1 hab
  obtain ⟨x, hx, hab⟩ := Outcome.bind_eq_ok.1 hab
  obtain ⟨y, -, hab⟩ := Outcome.bind_eq_ok.1 hab
  cases hab
  unfold checkBinary at h
  split at h
  · cases h
  split at h
  · cases h
  obtain ⟨common', hc', h⟩ := Outcome.bind_eq_ok.1 h
  rw [hc'] at hc
  cases hc
  exact evalBinaryEqual_type (by rw [convertTo_type hx]; exact h) hu

theorem evalBinaryV_result {l r w : Value} {op : ExprType} {t : CType} (hck : checkBinary l.type op r.type = .ok t)
    (h : evalBinaryV l op r = .ok w) : w.type = t := by
  unfold evalBinaryV at h
  rw [hck] at h
  simp only [Outcome.mapErr_ok, Outcome.ok_bind] at h
  obtain ⟨⟨a, b⟩, hab, h⟩ := Outcome.bind_eq_ok.1 h
  simp only at h
  split at h
  · rename_i x y hx hy
    cases hu : evalBinary ⟨a.type, x⟩ op ⟨b.type, y⟩ with
    | ok u =>
      rw [hu] at h
      cases h
      refine evalBinary_result (l := ⟨a.type, x⟩) (r := ⟨b.type, y⟩) ?_ hu
      unfold convertToEqualV at hab
      obtain ⟨common, hc, hab⟩ := Outcome.bind_eq_ok.1 hab
      obtain ⟨a', ha, hab⟩ := Outcome.bind_eq_ok.1 hab
      obtain ⟨b', hb, hab⟩ := Outcome.bind_eq_ok.1 hab
      cases hab
      show checkBinary a.type op b.type = _
      rw [(valueConvertTo_known ha).1, (valueConvertTo_known hb).1]
      unfold checkBinary at hck ⊢
      split at hck
      · cases hck
      · next h1 =>
        rw [if_neg h1]
        split at hck
        · cases hck
        · obtain ⟨common', hc', hck⟩ := Outcome.bind_eq_ok.1 hck
          rw [hc'] at hc
          cases hc
          rw [if_neg (by rintro (rfl | rfl) <;> simp [checkBinaryCommon] at hck)]
          unfold getCommonType
          rw [if_pos rfl]
          exact hck
    | _ => rw [hu] at h; cases h
  · obtain ⟨-, -, h⟩ := Outcome.bind_eq_ok.1 h
    cases h; rfl
  · cases h; rfl

theorem evalUnary_result {op : ExprType} {v u : CVal} {t : CType} (hck : checkUnary op v.type = .ok t)
    (h : evalUnary op v = .ok u) : u.type = t := by
  have ht : t = v.type := by
    unfold checkUnary at hck
    revert hck
    cases v.type <;> simp only [] <;> (repeat' split) <;> intro h <;> cases h <;> rfl
  subst ht
  unfold evalUnary at h
  obtain ⟨_, -, h⟩ := Outcome.bind_eq_ok.1 h
  cases hv : v.type with
  | void => rw [hv] at h; cases h
  | bool =>
    rw [hv] at h
    simp only at h
    split at h
    · cases h; rfl
    · cases h
  | int =>
    rw [hv] at h
    simp only at h
    split at h
    · cases h; exact hv
    split at h
    · obtain ⟨a, rfl⟩ := map_some h; rfl
    · cases h
  | uint w =>
    rw [hv] at h
    simp only at h
    have hT : ∀ f, v.transformUint f = .ok u → u.type = .uint w := by
      intro f hf
      unfold CVal.transformUint at hf
      obtain ⟨_, -, hf⟩ := Outcome.bind_eq_ok.1 hf
      split at hf
      · cases hf
      · cases hf; exact hv
    split at h
    · cases h; exact hv
    split at h
    · exact hT _ h
    split at h
    · exact hT _ h
    · cases h

theorem evalUnaryV_result {op : ExprType} {v w : Value} {t : CType} (hck : checkUnary op v.type = .ok t)
    (h : evalUnaryV op v = .ok w) : w.type = t := by
  unfold evalUnaryV at h
  rw [hck] at h
  simp only [Outcome.mapErr_ok, Outcome.ok_bind] at h
  cases hx : v.val with
  | none =>
    simp only [hx] at h
    cases h
    unfold checkUnary at hck
    revert hck
    cases v.type <;> simp only [] <;> (repeat' split) <;> intro h <;> cases h <;> rfl
  | some x =>
    simp only [hx] at h
    cases hu : evalUnary op ⟨v.type, x⟩ with
    | ok u =>
      rw [hu] at h
      cases h
      exact evalUnary_result (v := ⟨v.type, x⟩) hck hu
    | _ => rw [hu] at h; cases h

theorem evalBuiltinV_result {b : Builtin} {vs : List Value} {w : Value} {t : CType}
    (hck : checkBuiltin b (vs.map Value.type) = .ok t) (h : evalBuiltinV b vs = .ok w) : w.type = t := by
  have ht : t = .void := by
    unfold checkBuiltin at hck
    split at hck
    · cases hck
    · cases b
      simp only at hck
      split at hck
      · cases hck
      · cases hck; rfl
  subst ht
  unfold evalBuiltinV at h
  rw [hck] at h
  simp only [Outcome.mapErr_ok, Outcome.ok_bind] at h
  split at h
  · cases h; rfl
  · obtain ⟨cs, -, h⟩ := Outcome.bind_eq_ok.1 h
    cases hu : unsafeEvalBuiltin b cs with
    | ok u =>
      rw [hu] at h
      cases h
      unfold unsafeEvalBuiltin at hu
      obtain ⟨_, -, hu⟩ := Outcome.bind_eq_ok.1 hu
      cases b
      cases cs with
      | nil => cases hu
      | cons a as =>
        simp only at hu
        split at hu
        · cases hu
        · cases hu; rfl
    | _ => rw [hu] at h; cases h

/-! ## Types -/

section

variable {V V' : Key → CType → Prop} {ds : List ADecl}

mutual

theorem TypeE.mono (hV : ∀ k t, V k t → V' k t) {c c' : Bool} (hc : c = true → c' = true) :
    (e : AExpr) → ∀ t, TypeE V ds c e t → TypeE V' ds c' e t
  | .literal .., t, h => by simpa only [TypeE] using h
  | .id .., t, h => by
    simp only [TypeE] at h ⊢
    exact h.imp id fun ⟨j, h1, h2⟩ => ⟨j, h1, hV _ _ h2⟩
  | .conversion .., t, h => by simpa only [TypeE] using h
  | .ite _ _ l b r, t, h => by
    simp only [TypeE] at h ⊢
    obtain ⟨tl, tb, tr, h1, h2, h3, h4⟩ := h
    exact ⟨tl, tb, tr, TypeE.mono hV hc l _ h1, TypeE.mono hV hc b _ h2, TypeE.mono hV hc r _ h3, h4⟩
  | .binary _ _ _ l r, t, h => by
    simp only [TypeE] at h ⊢
    obtain ⟨tl, tr, h1, h2, h3⟩ := h
    exact ⟨tl, tr, TypeE.mono hV hc l _ h1, TypeE.mono hV hc r _ h2, h3⟩
  | .prefix _ _ _ e, t, h => by
    simp only [TypeE] at h ⊢
    obtain ⟨u, h1, h2⟩ := h
    exact ⟨u, TypeE.mono hV hc e _ h1, h2⟩
  | .call _ _ _ _ _ args, t, h => by
    simp only [TypeE] at h ⊢
    rcases h with ⟨b, ts, h1, h2, h3⟩ | ⟨f, h1, h2, h3⟩
    · exact .inl ⟨b, ts, h1, TypeEs.mono hV hc args _ h2, h3⟩
    · exact .inr ⟨f, h1, h2, h3.imp hc id⟩

theorem TypeEs.mono (hV : ∀ k t, V k t → V' k t) {c c' : Bool} (hc : c = true → c' = true) :
    (es : List AExpr) → ∀ ts, TypeEs V ds c es ts → TypeEs V' ds c' es ts
  | [], ts, h => by simpa only [TypeEs] using h
  | e :: es, ts, h => by
    simp only [TypeEs] at h ⊢
    obtain ⟨u, us, h1, h2, h3⟩ := h
    exact ⟨u, us, h1, TypeE.mono hV hc e _ h2, TypeEs.mono hV hc es _ h3⟩

end

theorem varType_follows (ds : List ADecl) : Follows ds (VarType ds) where
  given d hd b hb ty hty t ht V hV := hV.given d hd b hb ty hty t ht
  found d hd b hb hn e he t ht V hV := hV.found d hd b hb hn e he t (TypeE.mono (fun k t h => h V hV) id e t ht)
  param f hf p hp t ht V hV := hV.param f hf p hp t ht
  width f hf p hp k hk V hV := hV.width f hf p hp k hk

end

/-! ## What analysis does to nodes

Keys of nodes of an instance are keys of the generic function plus a multiple of `N`. -/

/-- Where a lookup result leads. -/
inductive SimR (ds : List ADecl) (N : Nat) (L : Key → Prop) : Option Lookup → Option Lookup → Prop
  | none : SimR ds N L none none
  | builtin {b} : SimR ds N L (some (.builtin b)) (some (.builtin b))
  | param {p p0} : p % N = p0 → SimR ds N L (some (.param p0)) (some (.param p))
  | node {j j0} : j % N = j0 → (IsFn ds j0 → L j) → SimR ds N L (some (.node j0)) (some (.node j))

/-- The value of a literal. -/
def LitIs (l : Option Lit) (v : Value) : Prop :=
  (l = some .true_ ∧ v = Value.ofBool true) ∨ (l = some .false_ ∧ v = Value.ofBool false) ∨
    ∃ text x, l = some (.integer text) ∧ parseIntegerLiteral text = some x ∧ v = Value.known (CVal.ofInt x)

mutual

/-- The second expression is the first one, or its copy in an instance, with values of the right types. -/
inductive SimE (ds : List ADecl) (N : Nat) (L : Key → Prop) : Bool → AExpr → AExpr → Prop
  | literal {c k0 k cv0 cv l} : k % N = k0 → (∀ v, cv = some v → LitIs l v) →
      SimE ds N L c (.literal k0 cv0 l) (.literal k cv l)
  | id {c k0 k cv0 cv name r0 r g} : k % N = k0 → SimR ds N L r0 r →
      (∀ v, cv = some v → Has ds c (.id k0 cv0 name r0 g) v.type) →
      SimE ds N L c (.id k0 cv0 name r0 g) (.id k cv name r g)
  | conversion {c k0 k cv0 cv e0 e t0 t} : k % N = k0 → SimE ds N L c e0 e → SimT ds N L t0 t →
      (∀ v, cv = some v → Has ds c (.conversion k0 cv0 e0 t0) v.type) →
      SimE ds N L c (.conversion k0 cv0 e0 t0) (.conversion k cv e t)
  | ite {c k0 k cv0 cv l0 l b0 b r0 r} : k % N = k0 → SimE ds N L c l0 l → SimE ds N L c b0 b → SimE ds N L c r0 r →
      (∀ v, cv = some v → Has ds c (.ite k0 cv0 l0 b0 r0) v.type) →
      SimE ds N L c (.ite k0 cv0 l0 b0 r0) (.ite k cv l b r)
  | binary {c k0 k cv0 cv op l0 l r0 r} : k % N = k0 → SimE ds N L c l0 l → SimE ds N L c r0 r →
      (∀ v, cv = some v → Has ds c (.binary k0 cv0 op l0 r0) v.type) →
      SimE ds N L c (.binary k0 cv0 op l0 r0) (.binary k cv op l r)
  | pre {c k0 k cv0 cv op e0 e} : k % N = k0 → SimE ds N L c e0 e →
      (∀ v, cv = some v → Has ds c (.prefix k0 cv0 op e0) v.type) →
      SimE ds N L c (.prefix k0 cv0 op e0) (.prefix k cv op e)
  | call {c k0 k cv0 cv st name r0 r args0 args} : k % N = k0 → SimR ds N L r0 r → SimEs ds N L c args0 args →
      (∀ v, cv = some v → Has ds c (.call k0 cv0 st name r0 args0) v.type) →
      SimE ds N L c (.call k0 cv0 st name r0 args0) (.call k cv st name r args)

/-- The same for types. -/
inductive SimT (ds : List ADecl) (N : Nat) (L : Key → Prop) : AType → AType → Prop
  | base {k0 k cv0 cv b} : (∀ v, cv = some v → v.type = b.type) → SimT ds N L (.base k0 cv0 b) (.base k cv b)
  | uint {k0 k cv0 cv n0 n w0 w} : SimE ds N L true w0 w → (∀ v, cv = some v → Stands (.uint k0 cv0 n0 w0) v.type) →
      (∀ (x : Nat) t, n = some x → (CType.mkUint (ε := AErr) x) = .ok t → Stands (.uint k0 cv0 n0 w0) t) →
      SimT ds N L (.uint k0 cv0 n0 w0) (.uint k cv n w)

/-- The same for several expressions. -/
inductive SimEs (ds : List ADecl) (N : Nat) (L : Key → Prop) : Bool → List AExpr → List AExpr → Prop
  | nil {c} : SimEs ds N L c [] []
  | cons {c e0 e es0 es} : SimE ds N L c e0 e → SimEs ds N L c es0 es → SimEs ds N L c (e0 :: es0) (e :: es)

end

mutual

/-- The same for statements. -/
inductive SimS (ds : List ADecl) (N : Nat) (L : Key → Prop) : AStmt → AStmt → Prop
  | const_ {k0 k cv0 cv name t0 t e0 e} : k % N = k0 → SameO (SimT ds N L) t0 t → SimE ds N L true e0 e →
      (∀ v, cv = some v → VarType ds k0 v.type) → SimS ds N L (.const_ k0 cv0 name t0 e0) (.const_ k cv name t e)
  | let_ {k0 k cv0 cv name t0 t e0 e} : k % N = k0 → SameO (SimT ds N L) t0 t → SameO (SimE ds N L false) e0 e →
      (∀ v, cv = some v → VarType ds k0 v.type) → SimS ds N L (.let_ k0 cv0 name t0 e0) (.let_ k cv name t e)
  | staticAssert {k0 k cv0 cv e0 e} : k % N = k0 → SimE ds N L true e0 e →
      SimS ds N L (.staticAssert k0 cv0 e0) (.staticAssert k cv e)
  | ifThen {k0 k cv0 cv b0 b t0 t} : k % N = k0 → SimE ds N L false b0 b → SimS ds N L t0 t →
      SimS ds N L (.ifThen k0 cv0 b0 t0) (.ifThen k cv b t)
  | ifElse {k0 k cv0 cv b0 b t0 t e0 e} : k % N = k0 → SimE ds N L false b0 b → SimS ds N L t0 t → SimS ds N L e0 e →
      SimS ds N L (.ifElse k0 cv0 b0 t0 e0) (.ifElse k cv b t e)
  | while_ {k0 k cv0 cv b0 b t0 t} : k % N = k0 → SimE ds N L false b0 b → SimS ds N L t0 t →
      SimS ds N L (.while_ k0 cv0 b0 t0) (.while_ k cv b t)
  | control {k0 k cv0 cv c e0 e} : k % N = k0 → SameO (SimE ds N L false) e0 e →
      SimS ds N L (.control k0 cv0 c e0) (.control k cv c e)
  | assign {k0 k cv0 cv name r0 r e0 e} : k % N = k0 → SimR ds N L r0 r → SimE ds N L false e0 e →
      SimS ds N L (.assign k0 cv0 name r0 e0) (.assign k cv name r e)
  | block {k0 k cv0 cv ss0 ss} : SimSs ds N L ss0 ss → SimS ds N L (.block k0 cv0 ss0) (.block k cv ss)
  | call {e0 e} : SimE ds N L false e0 e → SimS ds N L (.call e0) (.call e)

/-- The same for several statements. -/
inductive SimSs (ds : List ADecl) (N : Nat) (L : Key → Prop) : List AStmt → List AStmt → Prop
  | nil : SimSs ds N L [] []
  | cons {s0 s ss0 ss} : SimS ds N L s0 s → SimSs ds N L ss0 ss → SimSs ds N L (s0 :: ss0) (s :: ss)

end

/-- The same for parameters. -/
def SimP (ds : List ADecl) (N : Nat) (L : Key → Prop) (p0 p : AParam) : Prop :=
  p.k % N = p0.k ∧ SimT ds N L p0.type p.type

/-- The same for functions. -/
structure SimF (ds : List ADecl) (N : Nat) (L : Key → Prop) (f0 f : AFn) : Prop where
  k : f.k % N = f0.k
  params : List.Forall₂ (SimP ds N L) f0.params f.params
  ret : SimT ds N L f0.ret f.ret
  reqs : SameO (SimE ds N L true) f0.requires_ f.requires_
  body : SimSs ds N L f0.body f.body
  cv : ∀ v, f.cv = some v → Stands f0.ret v.type ∨ (f0.requires_ ≠ none ∧ v.type = .bool)
  instances : ∀ i ∈ f.instances, i.key % N = f0.k ∧ L i.key

section

variable {ds : List ADecl} {N : Nat} {L L' : Key → Prop}

theorem SimR.mono (h : ∀ j, L j → L' j) {r0 r : Option Lookup} (hr : SimR ds N L r0 r) : SimR ds N L' r0 r := by
  cases hr with
  | none => exact .none
  | builtin => exact .builtin
  | param h1 => exact .param h1
  | node h1 h2 => exact .node h1 fun hf => h _ (h2 hf)

mutual

theorem SimE.mono (h : ∀ j, L j → L' j) {c : Bool} : (e0 : AExpr) → ∀ e, SimE ds N L c e0 e → SimE ds N L' c e0 e
  | .literal .., _, .literal h1 h2 => .literal h1 h2
  | .id .., _, .id h1 h2 h3 => .id h1 (h2.mono h) h3
  | .conversion _ _ e ty, _, .conversion h1 h2 h3 h4 => .conversion h1 (SimE.mono h e _ h2) (SimT.mono h ty _ h3) h4
  | .ite _ _ l b r, _, .ite h1 h2 h3 h4 h5 => .ite h1 (SimE.mono h l _ h2) (SimE.mono h b _ h3) (SimE.mono h r _ h4) h5
  | .binary _ _ _ l r, _, .binary h1 h2 h3 h4 => .binary h1 (SimE.mono h l _ h2) (SimE.mono h r _ h3) h4
  | .prefix _ _ _ e, _, .pre h1 h2 h3 => .pre h1 (SimE.mono h e _ h2) h3
  | .call _ _ _ _ _ args, _, .call h1 h2 h3 h4 => .call h1 (h2.mono h) (SimEs.mono h args _ h3) h4

theorem SimT.mono (h : ∀ j, L j → L' j) : (t0 : AType) → ∀ t, SimT ds N L t0 t → SimT ds N L' t0 t
  | .base .., _, .base h1 => .base h1
  | .uint _ _ _ w, _, .uint h1 h2 h3 => .uint (SimE.mono h w _ h1) h2 h3

theorem SimEs.mono (h : ∀ j, L j → L' j) {c : Bool} : (es0 : List AExpr) → ∀ es, SimEs ds N L c es0 es → SimEs ds N L' c es0 es
  | [], _, .nil => .nil
  | e :: es, _, .cons h1 h2 => .cons (SimE.mono h e _ h1) (SimEs.mono h es _ h2)

end

theorem Spec.SameO.sim_mono {α : Type} {S S' : α → α → Prop} (h : ∀ a b, S a b → S' a b) {a b : Option α} (hs : SameO S a b) :
    SameO S' a b := by
  cases hs with
  | none => exact .none
  | some h1 => exact .some (h _ _ h1)

mutual

theorem SimS.mono (h : ∀ j, L j → L' j) : (s0 : AStmt) → ∀ s, SimS ds N L s0 s → SimS ds N L' s0 s
  | .const_ .., _, .const_ h1 h2 h3 h4 => .const_ h1 (h2.sim_mono (SimT.mono h)) (SimE.mono h _ _ h3) h4
  | .let_ .., _, .let_ h1 h2 h3 h4 => .let_ h1 (h2.sim_mono (SimT.mono h)) (h3.sim_mono (SimE.mono h)) h4
  | .staticAssert .., _, .staticAssert h1 h2 => .staticAssert h1 (SimE.mono h _ _ h2)
  | .ifThen _ _ _ t, _, .ifThen h1 h2 h3 => .ifThen h1 (SimE.mono h _ _ h2) (SimS.mono h t _ h3)
  | .ifElse _ _ _ t e, _, .ifElse h1 h2 h3 h4 => .ifElse h1 (SimE.mono h _ _ h2) (SimS.mono h t _ h3) (SimS.mono h e _ h4)
  | .while_ _ _ _ t, _, .while_ h1 h2 h3 => .while_ h1 (SimE.mono h _ _ h2) (SimS.mono h t _ h3)
  | .control .., _, .control h1 h2 => .control h1 (h2.sim_mono (SimE.mono h))
  | .assign .., _, .assign h1 h2 h3 => .assign h1 (h2.mono h) (SimE.mono h _ _ h3)
  | .block _ _ ss, _, .block h1 => .block (SimSs.mono h ss _ h1)
  | .call _, _, .call h1 => .call (SimE.mono h _ _ h1)

theorem SimSs.mono (h : ∀ j, L j → L' j) : (ss0 : List AStmt) → ∀ ss, SimSs ds N L ss0 ss → SimSs ds N L' ss0 ss
  | [], _, .nil => .nil
  | s :: ss, _, .cons h1 h2 => .cons (SimS.mono h s _ h1) (SimSs.mono h ss _ h2)

end

theorem SimP.mono (h : ∀ j, L j → L' j) {p0 p : AParam} (hp : SimP ds N L p0 p) : SimP ds N L' p0 p :=
  ⟨hp.1, SimT.mono h _ _ hp.2⟩

theorem simPs_mono (h : ∀ j, L j → L' j) {ps0 ps : List AParam} (hp : List.Forall₂ (SimP ds N L) ps0 ps) :
    List.Forall₂ (SimP ds N L') ps0 ps := by
  induction hp with
  | nil => exact .nil
  | cons h1 _ ih => exact .cons (h1.mono h) ih

theorem SimF.mono (h : ∀ j, L j → L' j) {f0 f : AFn} (hf : SimF ds N L f0 f) : SimF ds N L' f0 f where
  k := hf.k
  params := simPs_mono h hf.params
  ret := SimT.mono h _ _ hf.ret
  reqs := hf.reqs.sim_mono (SimE.mono h)
  body := SimSs.mono h _ _ hf.body
  cv := hf.cv
  instances i hi := ⟨(hf.instances i hi).1, h _ (hf.instances i hi).2⟩

/-! ## Values -/

theorem LitIs.has {V : Key → CType → Prop} {l : Option Lit} {v : Value} (h : LitIs l v) {c : Bool} {k : Key} {cv : Option Value} :
    TypeE V ds c (.literal k cv l) v.type := by
  simp only [TypeE]
  rcases h with ⟨rfl, rfl⟩ | ⟨rfl, rfl⟩ | ⟨text, x, rfl, -, rfl⟩
  · exact .inr ⟨.inl rfl, rfl⟩
  · exact .inr ⟨.inr rfl, rfl⟩
  · exact .inl ⟨text, rfl, rfl⟩

/-- Values have the types of expressions. -/
theorem SimE.has {c : Bool} {e0 e : AExpr} (h : SimE ds N L c e0 e) {v : Value} (hv : e.cv = some v) : Has ds c e0 v.type := by
  cases h with
  | literal _ h => exact (h v hv).has
  | id _ _ h => exact h v hv
  | conversion _ _ _ h => exact h v hv
  | ite _ _ _ _ h => exact h v hv
  | binary _ _ _ h => exact h v hv
  | pre _ _ h => exact h v hv
  | call _ _ _ h => exact h v hv

theorem SimE.key {c : Bool} {e0 e : AExpr} (h : SimE ds N L c e0 e) : e.key % N = e0.key := by
  cases h with
  | literal h => exact h
  | id h => exact h
  | conversion h => exact h
  | ite h => exact h
  | binary h => exact h
  | pre h => exact h
  | call h => exact h

theorem SimT.stands {t0 t : AType} (h : SimT ds N L t0 t) {v : Value} (hv : t.cv = some v) : Stands t0 v.type := by
  cases h with
  | base h => exact h v hv
  | uint _ h _ => exact h v hv

theorem SimT.concrete {t0 t : AType} (h : SimT ds N L t0 t) {u : CType} (hu : t.concreteType (ε := AErr) = .ok (some u)) :
    Stands t0 u := by
  cases h with
  | base h => cases hu; rfl
  | @uint _ _ _ _ _ n _ _ h1 h2 h3 =>
    cases n with
    | none => cases hu
    | some x =>
      simp only [AType.concreteType] at hu
      cases hm : (CType.mkUint (ε := AErr) x) with
      | ok t => rw [hm] at hu; cases hu; exact h3 x _ rfl hm
      | _ => rw [hm] at hu; cases hu

theorem SimEs.length {c : Bool} {es0 es : List AExpr} (h : SimEs ds N L c es0 es) : es.length = es0.length := by
  induction es0 generalizing es with
  | nil => cases h; rfl
  | cons e0 es0 ih => cases h with | cons _ h => simp [ih h]

theorem forall₂_length {α β : Type} {R : α → β → Prop} {as : List α} {bs : List β} (h : List.Forall₂ R as bs) :
    bs.length = as.length := by
  induction h with
  | nil => rfl
  | cons _ _ ih => simp [ih]

end

end Bms
