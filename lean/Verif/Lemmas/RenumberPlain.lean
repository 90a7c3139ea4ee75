import Verif.Lemmas.RenumberTyped
import Verif.Spec.GenBms
import Verif.Spec.Build

/-!
# Trees that are equal apart from the addresses of nodes
-/

namespace Bms

open Spec

namespace Renumber

/-! ## A renumbering -/

/-- The address with the same place in another list; addresses that are not listed become large. -/
def place : List Key → List Key → Nat → Key → Key
  | a :: as, b :: bs, m, k => if k = a then b else place as bs m k
  | _, _, m, k => (m + k + 1 : Nat)

theorem place_mem : ∀ {as bs : List Key} {m : Nat} {k : Key}, as.length = bs.length → k ∈ as → place as bs m k ∈ bs
  | [], _, _, _, _, h => by cases h
  | a :: as, [], _, _, hl, _ => by cases hl
  | a :: as, b :: bs, m, k, hl, h => by
    simp only [place]
    by_cases e : k = a
    · rw [if_pos e]
      exact List.mem_cons_self
    · rw [if_neg e]
      refine List.mem_cons_of_mem _ (place_mem (by simpa using hl) ?_)
      rcases List.mem_cons.mp h with h | h
      · exact absurd h e
      · exact h

theorem place_not : ∀ {as bs : List Key} {m : Nat} {k : Key}, k ∉ as → place as bs m k = (m + k + 1 : Nat)
  | [], _, _, _, _ => rfl
  | a :: as, [], _, _, _ => rfl
  | a :: as, b :: bs, m, k, h => by
    simp only [place]
    have e : k ≠ a := fun e => h (by rw [e]; exact List.mem_cons_self)
    rw [if_neg e]
    exact place_not fun hk => h (List.mem_cons_of_mem _ hk)

theorem place_map : ∀ {as bs : List Key} {m : Nat}, as.length = bs.length → as.Nodup → as.map (place as bs m) = bs
  | [], [], _, _, _ => rfl
  | [], _ :: _, _, hl, _ => by cases hl
  | _ :: _, [], _, hl, _ => by cases hl
  | a :: as, b :: bs, m, hl, hn => by
    obtain ⟨h1, h2⟩ := List.nodup_cons.mp hn
    simp only [List.map_cons, place, if_true]
    refine congrArg _ ?_
    refine Eq.trans (List.map_congr_left fun k hk => ?_) (place_map (m := m) (by simpa using hl) h2)
    have e : k ≠ a := fun e => h1 (by rw [← e]; exact hk)
    rw [if_neg e]

theorem place_inj : ∀ {as bs : List Key} {m : Nat} {k k' : Key}, as.length = bs.length → bs.Nodup →
    k ∈ as → k' ∈ as → place as bs m k = place as bs m k' → k = k'
  | [], _, _, _, _, _, _, h, _, _ => by cases h
  | _ :: _, [], _, _, _, hl, _, _, _, _ => by cases hl
  | a :: as, b :: bs, m, k, k', hl, hn, h, h', e => by
    obtain ⟨h1, h2⟩ := List.nodup_cons.mp hn
    have hl' : as.length = bs.length := by simpa using hl
    simp only [place] at e
    by_cases e1 : k = a
    · by_cases e2 : k' = a
      · rw [e1, e2]
      · rw [if_pos e1, if_neg e2] at e
        have : k' ∈ as := (List.mem_cons.mp h').resolve_left e2
        exact absurd (e ▸ place_mem hl' this) h1
    · have hk : k ∈ as := (List.mem_cons.mp h).resolve_left e1
      by_cases e2 : k' = a
      · rw [if_neg e1, if_pos e2] at e
        exact absurd (e ▸ place_mem hl' hk) h1
      · rw [if_neg e1, if_neg e2] at e
        exact place_inj hl' h2 hk ((List.mem_cons.mp h').resolve_left e2) e

theorem exists_renumbering {as bs : List Key} (hl : as.length = bs.length) (ha : as.Nodup) (hb : bs.Nodup) :
    ∃ τ : Key → Key, Inj τ ∧ as.map τ = bs := by
  have hm : ∀ l : List Nat, ∃ m : Nat, ∀ b ∈ l, b ≤ m := by
    intro l
    induction l with
    | nil => exact ⟨0, by simp⟩
    | cons x l ih =>
      obtain ⟨m, h⟩ := ih
      refine ⟨m + x, fun b hb => ?_⟩
      rcases List.mem_cons.mp hb with rfl | hb
      · omega
      · have := h b hb
        omega
  obtain ⟨m, hm⟩ := hm bs
  refine ⟨place as bs m, fun k k' e => ?_, place_map hl ha⟩
  by_cases h : k ∈ as
  · by_cases h' : k' ∈ as
    · exact place_inj hl hb h h' e
    · have h1 : (place as bs m k : Nat) ≤ m := hm _ (place_mem hl h)
      rw [e, place_not h'] at h1
      exact absurd h1 (Nat.not_le.mpr (Nat.lt_of_le_of_lt (Nat.le_add_right m k') (Nat.lt_succ_self _)))
  · by_cases h' : k' ∈ as
    · have h1 : (place as bs m k' : Nat) ≤ m := hm _ (place_mem hl h')
      rw [← e, place_not h] at h1
      exact absurd h1 (Nat.not_le.mpr (Nat.lt_of_le_of_lt (Nat.le_add_right m k) (Nat.lt_succ_self _)))
    · rw [place_not h, place_not h'] at e
      exact Nat.add_left_cancel (Nat.succ.inj e)

/-! ## Numbers of nodes -/

/-- All addresses become zero. -/
abbrev zero : Key → Key := fun _ => 0

mutual

theorem keysE_plain : (e : AExpr) → Inst.keysE (plainE e) = (Inst.keysE e).map zero
  | .literal .. => by simp only [Inst.keysE, plainE, List.map_cons, List.map_nil]
  | .id .. => by simp only [Inst.keysE, plainE, List.map_cons, List.map_nil]
  | .conversion _ _ e ty => by
    simp only [Inst.keysE, plainE, List.map_cons, List.map_append, keysE_plain e, keysT_plain ty]
  | .ite _ _ l c r => by
    simp only [Inst.keysE, plainE, List.map_cons, List.map_append, keysE_plain l, keysE_plain c, keysE_plain r]
  | .binary _ _ _ l r => by
    simp only [Inst.keysE, plainE, List.map_cons, List.map_append, keysE_plain l, keysE_plain r]
  | .prefix _ _ _ e => by simp only [Inst.keysE, plainE, List.map_cons, keysE_plain e]
  | .call _ _ _ _ _ args => by simp only [Inst.keysE, plainE, List.map_cons, keysEs_plain args]

theorem keysT_plain : (ty : AType) → Inst.keysT (plainT ty) = (Inst.keysT ty).map zero
  | .base .. => by simp only [Inst.keysT, plainT, List.map_cons, List.map_nil]
  | .uint _ _ _ w => by simp only [Inst.keysT, plainT, List.map_cons, keysE_plain w]

theorem keysEs_plain : (es : List AExpr) → Inst.keysEs (plainEs es) = (Inst.keysEs es).map zero
  | [] => by simp only [Inst.keysEs, plainEs, List.map_nil]
  | e :: es => by simp only [Inst.keysEs, plainEs, List.map_append, keysE_plain e, keysEs_plain es]

end

theorem keysO_plainE (e : Option AExpr) : Inst.keysO Inst.keysE (e.map plainE) = (Inst.keysO Inst.keysE e).map zero := by
  cases e <;> simp only [Option.map_none, Option.map_some, Inst.keysO, List.map_nil, keysE_plain]

theorem keysO_plainT (e : Option AType) : Inst.keysO Inst.keysT (e.map plainT) = (Inst.keysO Inst.keysT e).map zero := by
  cases e <;> simp only [Option.map_none, Option.map_some, Inst.keysO, List.map_nil, keysT_plain]

mutual

theorem keysS_plain : (s : AStmt) → Inst.keysS (plainS s) = (Inst.keysS s).map zero
  | .const_ .. => by
    simp only [Inst.keysS, plainS, List.map_cons, List.map_append, keysO_plainT, keysE_plain]
  | .let_ .. => by
    simp only [Inst.keysS, plainS, List.map_cons, List.map_append, keysO_plainT, keysO_plainE]
  | .staticAssert .. => by simp only [Inst.keysS, plainS, List.map_cons, keysE_plain]
  | .ifThen _ _ _ t => by
    simp only [Inst.keysS, plainS, List.map_cons, List.map_append, keysE_plain, keysS_plain t]
  | .ifElse _ _ _ t e => by
    simp only [Inst.keysS, plainS, List.map_cons, List.map_append, keysE_plain, keysS_plain t, keysS_plain e]
  | .while_ _ _ _ b => by
    simp only [Inst.keysS, plainS, List.map_cons, List.map_append, keysE_plain, keysS_plain b]
  | .control .. => by simp only [Inst.keysS, plainS, List.map_cons, keysO_plainE]
  | .assign .. => by simp only [Inst.keysS, plainS, List.map_cons, keysE_plain]
  | .block _ _ ss => by simp only [Inst.keysS, plainS, List.map_cons, keysSs_plain ss]
  | .call e => by simp only [Inst.keysS, plainS, keysE_plain]

theorem keysSs_plain : (ss : List AStmt) → Inst.keysSs (plainSs ss) = (Inst.keysSs ss).map zero
  | [] => by simp only [Inst.keysSs, plainSs, List.map_nil]
  | s :: ss => by simp only [Inst.keysSs, plainSs, List.map_append, keysS_plain s, keysSs_plain ss]

end

theorem nodeKeys_plain (d : ADecl) : nodeKeys (plainD d) = (nodeKeys d).map zero := by
  cases d with
  | const_ => simp only [nodeKeys, plainD, List.map_cons, List.map_append, keysO_plainT, keysE_plain]
  | staticAssert => simp only [nodeKeys, plainD, List.map_cons, keysE_plain]
  | function f =>
    have h1 : (f.params.map plainP).flatMap (fun p => Inst.keysT p.type) =
        (f.params.flatMap fun p => Inst.keysT p.type).map zero := by
      induction f.params with
      | nil => rfl
      | cons p ps ih =>
        simp only [List.map_cons, List.flatMap_cons, ih, List.map_append, plainP, keysT_plain]
    have h2 : (f.params.map plainP).map AParam.k = (f.params.map AParam.k).map zero := by
      rw [List.map_map, List.map_map]
      rfl
    simp only [nodeKeys, plainD, plainF, Inst.keys, List.map_cons, List.map_append, h1, h2, keysT_plain,
      keysO_plainE, keysSs_plain]

theorem same_length {α : Type} {keys : α → List Key} {plain : α → α} (hk : ∀ x, keys (plain x) = (keys x).map zero)
    {x y : α} (h : plain x = plain y) : (keys x).length = (keys y).length := by
  have h1 := congrArg List.length (hk x)
  have h2 := congrArg List.length (hk y)
  rw [List.length_map] at h1 h2
  rw [← h1, ← h2, h]

/-! ## Trees that are not analyzed -/

/-- The keys of two parts. -/
theorem split_keys {τ : Key → Key} {a b a' b' : List Key} (h : (a ++ b).map τ = a' ++ b') (hl : a'.length = a.length) :
    a.map τ = a' ∧ b.map τ = b' := by
  rw [List.map_append] at h
  exact List.append_inj h (by rw [List.length_map, hl])

mutual

theorem keysE_ren (τ : Key → Key) : (e : AExpr) → Inst.keysE (expr τ e) = (Inst.keysE e).map τ
  | .literal .. => by simp only [Inst.keysE, expr, List.map_cons, List.map_nil]
  | .id .. => by simp only [Inst.keysE, expr, List.map_cons, List.map_nil]
  | .conversion _ _ e ty => by
    simp only [Inst.keysE, expr, List.map_cons, List.map_append, keysE_ren τ e, keysT_ren τ ty]
  | .ite _ _ l c r => by
    simp only [Inst.keysE, expr, List.map_cons, List.map_append, keysE_ren τ l, keysE_ren τ c, keysE_ren τ r]
  | .binary _ _ _ l r => by
    simp only [Inst.keysE, expr, List.map_cons, List.map_append, keysE_ren τ l, keysE_ren τ r]
  | .prefix _ _ _ e => by simp only [Inst.keysE, expr, List.map_cons, keysE_ren τ e]
  | .call _ _ _ _ _ args => by simp only [Inst.keysE, expr, List.map_cons, keysEs_ren τ args]

theorem keysT_ren (τ : Key → Key) : (ty : AType) → Inst.keysT (type τ ty) = (Inst.keysT ty).map τ
  | .base .. => by simp only [Inst.keysT, type, List.map_cons, List.map_nil]
  | .uint _ _ _ w => by simp only [Inst.keysT, type, List.map_cons, keysE_ren τ w]

theorem keysEs_ren (τ : Key → Key) : (es : List AExpr) → Inst.keysEs (exprs τ es) = (Inst.keysEs es).map τ
  | [] => by simp only [Inst.keysEs, exprs, List.map_nil]
  | e :: es => by simp only [Inst.keysEs, exprs, List.map_append, keysE_ren τ e, keysEs_ren τ es]

end

theorem keysO_renE (τ : Key → Key) (e : Option AExpr) :
    Inst.keysO Inst.keysE (e.map (expr τ)) = (Inst.keysO Inst.keysE e).map τ := by
  cases e <;> simp only [Option.map_none, Option.map_some, Inst.keysO, List.map_nil, keysE_ren]

theorem keysO_renT (τ : Key → Key) (e : Option AType) :
    Inst.keysO Inst.keysT (e.map (type τ)) = (Inst.keysO Inst.keysT e).map τ := by
  cases e <;> simp only [Option.map_none, Option.map_some, Inst.keysO, List.map_nil, keysT_ren]

mutual

theorem keysS_ren (τ : Key → Key) : (s : AStmt) → Inst.keysS (stmt τ s) = (Inst.keysS s).map τ
  | .const_ .. => by
    simp only [Inst.keysS, stmt, List.map_cons, List.map_append, keysO_renT, keysE_ren]
  | .let_ .. => by
    simp only [Inst.keysS, stmt, List.map_cons, List.map_append, keysO_renT, keysO_renE]
  | .staticAssert .. => by simp only [Inst.keysS, stmt, List.map_cons, keysE_ren]
  | .ifThen _ _ _ t => by
    simp only [Inst.keysS, stmt, List.map_cons, List.map_append, keysE_ren, keysS_ren τ t]
  | .ifElse _ _ _ t e => by
    simp only [Inst.keysS, stmt, List.map_cons, List.map_append, keysE_ren, keysS_ren τ t, keysS_ren τ e]
  | .while_ _ _ _ b => by
    simp only [Inst.keysS, stmt, List.map_cons, List.map_append, keysE_ren, keysS_ren τ b]
  | .control .. => by simp only [Inst.keysS, stmt, List.map_cons, keysO_renE]
  | .assign .. => by simp only [Inst.keysS, stmt, List.map_cons, keysE_ren]
  | .block _ _ ss => by simp only [Inst.keysS, stmt, List.map_cons, keysSs_ren τ ss]
  | .call e => by simp only [Inst.keysS, stmt, keysE_ren]

theorem keysSs_ren (τ : Key → Key) : (ss : List AStmt) → Inst.keysSs (stmts τ ss) = (Inst.keysSs ss).map τ
  | [] => by simp only [Inst.keysSs, stmts, List.map_nil]
  | s :: ss => by simp only [Inst.keysSs, stmts, List.map_append, keysS_ren τ s, keysSs_ren τ ss]

end

theorem lengths {α : Type} {keys : α → List Key} {plain ren : α → α} (hk : ∀ x, keys (plain x) = (keys x).map zero)
    (hr : ∀ x, keys (ren x) = (keys x).map zero) {x y : α} (h : ren x = plain y) :
    (keys x).length = (keys y).length := by
  have h1 := congrArg List.length (hr x)
  have h2 := congrArg List.length (hk y)
  rw [List.length_map] at h1 h2
  rw [← h1, ← h2, h]

theorem lengthE {e e' : AExpr} (h : expr zero e' = plainE e) : (Inst.keysE e').length = (Inst.keysE e).length :=
  lengths keysE_plain (keysE_ren zero) h

theorem lengthT {e e' : AType} (h : type zero e' = plainT e) : (Inst.keysT e').length = (Inst.keysT e).length :=
  lengths keysT_plain (keysT_ren zero) h

theorem lengthS {e e' : AStmt} (h : stmt zero e' = plainS e) : (Inst.keysS e').length = (Inst.keysS e).length :=
  lengths keysS_plain (keysS_ren zero) h

theorem lengthOE {e e' : Option AExpr} (h : e'.map (expr zero) = e.map plainE) :
    (Inst.keysO Inst.keysE e').length = (Inst.keysO Inst.keysE e).length :=
  lengths keysO_plainE (keysO_renE zero) h

theorem lengthOT {e e' : Option AType} (h : e'.map (type zero) = e.map plainT) :
    (Inst.keysO Inst.keysT e').length = (Inst.keysO Inst.keysT e).length :=
  lengths keysO_plainT (keysO_renT zero) h

variable {τ : Key → Key}

mutual

theorem eqE : (a b : AExpr) → expr zero b = plainE a → expr zero a = plainE a →
    (Inst.keysE a).map τ = Inst.keysE b → b = expr τ a
  | .literal .., b, h1, h2, hk => by
    cases b <;> simp only [expr, plainE, reduceCtorEq, AExpr.literal.injEq, true_and, and_true] at h1 h2
    simp only [Inst.keysE, List.map_cons, List.map_nil, List.cons.injEq, and_true] at hk
    simp only [expr, hk, h1, h2]
  | .id .., b, h1, h2, hk => by
    cases b <;> simp only [expr, plainE, reduceCtorEq, AExpr.id.injEq, true_and, and_true,
      Option.map_eq_none_iff] at h1 h2
    simp only [Inst.keysE, List.map_cons, List.map_nil, List.cons.injEq, and_true] at hk
    simp only [expr, hk, h1, h2, Option.map_none]
  | .conversion _ _ e ty, b, h1, h2, hk => by
    cases b <;> simp only [expr, plainE, reduceCtorEq, AExpr.conversion.injEq, true_and] at h1 h2
    simp only [Inst.keysE, List.map_cons, List.cons.injEq] at hk
    obtain ⟨k1, k2⟩ := split_keys hk.2 (lengthE h1.2.1)
    simp only [expr, hk.1, h1.1, h2.1, eqE e _ h1.2.1 h2.2.1 k1, eqT ty _ h1.2.2 h2.2.2 k2]
  | .ite _ _ l c r, b, h1, h2, hk => by
    cases b <;> simp only [expr, plainE, reduceCtorEq, AExpr.ite.injEq, true_and] at h1 h2
    simp only [Inst.keysE, List.map_cons, List.cons.injEq] at hk
    obtain ⟨k1, k2⟩ := split_keys hk.2 (by
      rw [List.length_append, List.length_append, lengthE h1.2.1, lengthE h1.2.2.1])
    obtain ⟨k3, k4⟩ := split_keys k1 (lengthE h1.2.1)
    simp only [expr, hk.1, h1.1, h2.1, eqE l _ h1.2.1 h2.2.1 k3, eqE c _ h1.2.2.1 h2.2.2.1 k4,
      eqE r _ h1.2.2.2 h2.2.2.2 k2]
  | .binary _ _ _ l r, b, h1, h2, hk => by
    cases b <;> simp only [expr, plainE, reduceCtorEq, AExpr.binary.injEq, true_and] at h1 h2
    simp only [Inst.keysE, List.map_cons, List.cons.injEq] at hk
    obtain ⟨k1, k2⟩ := split_keys hk.2 (lengthE h1.2.2.1)
    simp only [expr, hk.1, h1.1, h1.2.1, h2.1, eqE l _ h1.2.2.1 h2.2.1 k1, eqE r _ h1.2.2.2 h2.2.2 k2]
  | .prefix _ _ _ e, b, h1, h2, hk => by
    cases b <;> simp only [expr, plainE, reduceCtorEq, AExpr.prefix.injEq, true_and] at h1 h2
    simp only [Inst.keysE, List.map_cons, List.cons.injEq] at hk
    simp only [expr, hk.1, h1.1, h1.2.1, h2.1, eqE e _ h1.2.2 h2.2 hk.2]
  | .call _ _ _ _ _ args, b, h1, h2, hk => by
    cases b <;> simp only [expr, plainE, reduceCtorEq, AExpr.call.injEq, true_and, Option.map_eq_none_iff] at h1 h2
    simp only [Inst.keysE, List.map_cons, List.cons.injEq] at hk
    simp only [expr, hk.1, h1.1, h1.2.1, h1.2.2.1, h1.2.2.2.1, h2.1, h2.2.1,
      eqEs args _ h1.2.2.2.2 h2.2.2 hk.2, Option.map_none]

theorem eqT : (a b : AType) → type zero b = plainT a → type zero a = plainT a →
    (Inst.keysT a).map τ = Inst.keysT b → b = type τ a
  | .base .., b, h1, h2, hk => by
    cases b <;> simp only [type, plainT, reduceCtorEq, AType.base.injEq, true_and, and_true] at h1 h2
    simp only [Inst.keysT, List.map_cons, List.map_nil, List.cons.injEq, and_true] at hk
    simp only [type, hk, h1, h2]
  | .uint _ _ _ w, b, h1, h2, hk => by
    cases b <;> simp only [type, plainT, reduceCtorEq, AType.uint.injEq, true_and] at h1 h2
    simp only [Inst.keysT, List.map_cons, List.cons.injEq] at hk
    simp only [type, hk.1, h1.1, h1.2.1, h2.1, h2.2.1, eqE w _ h1.2.2 h2.2.2 hk.2]

theorem eqEs : (a b : List AExpr) → exprs zero b = plainEs a → exprs zero a = plainEs a →
    (Inst.keysEs a).map τ = Inst.keysEs b → b = exprs τ a
  | [], b, h1, h2, hk => by
    cases b <;> simp only [exprs, plainEs, reduceCtorEq] at h1 ⊢
  | e :: es, b, h1, h2, hk => by
    cases b <;> simp only [exprs, plainEs, reduceCtorEq, List.cons.injEq] at h1 h2
    simp only [Inst.keysEs] at hk
    obtain ⟨k1, k2⟩ := split_keys hk (lengthE h1.1)
    simp only [exprs, eqE e _ h1.1 h2.1 k1, eqEs es _ h1.2 h2.2 k2]

end

theorem eqOE {a b : Option AExpr} (h1 : b.map (expr zero) = a.map plainE) (h2 : a.map (expr zero) = a.map plainE)
    (hk : (Inst.keysO Inst.keysE a).map τ = Inst.keysO Inst.keysE b) : b = a.map (expr τ) := by
  cases a <;> cases b <;> simp only [Option.map_none, Option.map_some, reduceCtorEq, Option.some.injEq] at h1 h2 ⊢
  exact eqE _ _ h1 h2 hk

theorem eqOT {a b : Option AType} (h1 : b.map (type zero) = a.map plainT) (h2 : a.map (type zero) = a.map plainT)
    (hk : (Inst.keysO Inst.keysT a).map τ = Inst.keysO Inst.keysT b) : b = a.map (type τ) := by
  cases a <;> cases b <;> simp only [Option.map_none, Option.map_some, reduceCtorEq, Option.some.injEq] at h1 h2 ⊢
  exact eqT _ _ h1 h2 hk

mutual

theorem eqS : (a b : AStmt) → stmt zero b = plainS a → stmt zero a = plainS a →
    (Inst.keysS a).map τ = Inst.keysS b → b = stmt τ a
  | .const_ _ _ _ ty e, b, h1, h2, hk => by
    cases b <;> simp only [stmt, plainS, reduceCtorEq, AStmt.const_.injEq, true_and] at h1 h2
    simp only [Inst.keysS, List.map_cons, List.cons.injEq] at hk
    obtain ⟨k1, k2⟩ := split_keys hk.2 (lengthOT h1.2.2.1)
    simp only [stmt, hk.1, h1.1, h1.2.1, h2.1, eqOT h1.2.2.1 h2.2.1 k1, eqE e _ h1.2.2.2 h2.2.2 k2]
  | .let_ _ _ _ ty e, b, h1, h2, hk => by
    cases b <;> simp only [stmt, plainS, reduceCtorEq, AStmt.let_.injEq, true_and] at h1 h2
    simp only [Inst.keysS, List.map_cons, List.cons.injEq] at hk
    obtain ⟨k1, k2⟩ := split_keys hk.2 (lengthOT h1.2.2.1)
    simp only [stmt, hk.1, h1.1, h1.2.1, h2.1, eqOT h1.2.2.1 h2.2.1 k1, eqOE h1.2.2.2 h2.2.2 k2]
  | .staticAssert _ _ e, b, h1, h2, hk => by
    cases b <;> simp only [stmt, plainS, reduceCtorEq, AStmt.staticAssert.injEq, true_and] at h1 h2
    simp only [Inst.keysS, List.map_cons, List.cons.injEq] at hk
    simp only [stmt, hk.1, h1.1, h2.1, eqE e _ h1.2 h2.2 hk.2]
  | .ifThen _ _ c t, b, h1, h2, hk => by
    cases b <;> simp only [stmt, plainS, reduceCtorEq, AStmt.ifThen.injEq, true_and] at h1 h2
    simp only [Inst.keysS, List.map_cons, List.cons.injEq] at hk
    obtain ⟨k1, k2⟩ := split_keys hk.2 (lengthE h1.2.1)
    simp only [stmt, hk.1, h1.1, h2.1, eqE c _ h1.2.1 h2.2.1 k1, eqS t _ h1.2.2 h2.2.2 k2]
  | .ifElse _ _ c t e, b, h1, h2, hk => by
    cases b <;> simp only [stmt, plainS, reduceCtorEq, AStmt.ifElse.injEq, true_and] at h1 h2
    simp only [Inst.keysS, List.map_cons, List.cons.injEq] at hk
    obtain ⟨k1, k2⟩ := split_keys hk.2 (by
      rw [List.length_append, List.length_append, lengthE h1.2.1, lengthS h1.2.2.1])
    obtain ⟨k3, k4⟩ := split_keys k1 (lengthE h1.2.1)
    simp only [stmt, hk.1, h1.1, h2.1, eqE c _ h1.2.1 h2.2.1 k3, eqS t _ h1.2.2.1 h2.2.2.1 k4,
      eqS e _ h1.2.2.2 h2.2.2.2 k2]
  | .while_ _ _ c t, b, h1, h2, hk => by
    cases b <;> simp only [stmt, plainS, reduceCtorEq, AStmt.while_.injEq, true_and] at h1 h2
    simp only [Inst.keysS, List.map_cons, List.cons.injEq] at hk
    obtain ⟨k1, k2⟩ := split_keys hk.2 (lengthE h1.2.1)
    simp only [stmt, hk.1, h1.1, h2.1, eqE c _ h1.2.1 h2.2.1 k1, eqS t _ h1.2.2 h2.2.2 k2]
  | .control _ _ _ e, b, h1, h2, hk => by
    cases b <;> simp only [stmt, plainS, reduceCtorEq, AStmt.control.injEq, true_and] at h1 h2
    simp only [Inst.keysS, List.map_cons, List.cons.injEq] at hk
    simp only [stmt, hk.1, h1.1, h1.2.1, h2.1, eqOE h1.2.2 h2.2 hk.2]
  | .assign _ _ _ _ e, b, h1, h2, hk => by
    cases b <;> simp only [stmt, plainS, reduceCtorEq, AStmt.assign.injEq, true_and, Option.map_eq_none_iff] at h1 h2
    simp only [Inst.keysS, List.map_cons, List.cons.injEq] at hk
    simp only [stmt, hk.1, h1.1, h1.2.1, h1.2.2.1, h2.1, h2.2.1, Option.map_none, eqE e _ h1.2.2.2 h2.2.2 hk.2]
  | .block _ _ ss, b, h1, h2, hk => by
    cases b <;> simp only [stmt, plainS, reduceCtorEq, AStmt.block.injEq, true_and] at h1 h2
    simp only [Inst.keysS, List.map_cons, List.cons.injEq] at hk
    simp only [stmt, hk.1, h1.1, h2.1, eqSs ss _ h1.2 h2.2 hk.2]
  | .call e, b, h1, h2, hk => by
    cases b <;> simp only [stmt, plainS, reduceCtorEq, AStmt.call.injEq] at h1 h2
    simp only [Inst.keysS] at hk
    simp only [stmt, eqE e _ h1 h2 hk]

theorem eqSs : (a b : List AStmt) → stmts zero b = plainSs a → stmts zero a = plainSs a →
    (Inst.keysSs a).map τ = Inst.keysSs b → b = stmts τ a
  | [], b, h1, h2, hk => by
    cases b <;> simp only [stmts, plainSs, reduceCtorEq] at h1 ⊢
  | e :: es, b, h1, h2, hk => by
    cases b <;> simp only [stmts, plainSs, reduceCtorEq, List.cons.injEq] at h1 h2
    simp only [Inst.keysSs] at hk
    obtain ⟨k1, k2⟩ := split_keys hk (lengthS h1.1)
    simp only [stmts, eqS e _ h1.1 h2.1 k1, eqSs es _ h1.2 h2.2 k2]

end

theorem lengthPs : (a b : List AParam) → b.map (param zero) = a.map plainP →
    (b.flatMap fun p => Inst.keysT p.type).length = (a.flatMap fun p => Inst.keysT p.type).length
  | [], b, h => by
    cases b with
    | nil => rfl
    | cons q b => simp only [List.map_cons, List.map_nil, reduceCtorEq] at h
  | p :: a, b, h => by
    cases b with
    | nil => simp only [List.map_cons, List.map_nil, reduceCtorEq] at h
    | cons q b =>
      simp only [List.map_cons, List.cons.injEq, param, plainP, AParam.mk.injEq, true_and] at h
      simp only [List.flatMap_cons, List.length_append, lengthT h.1.2, lengthPs a b h.2]

theorem eqPs : (a b : List AParam) → b.map (param zero) = a.map plainP → a.map (param zero) = a.map plainP →
    (a.flatMap fun p => Inst.keysT p.type).map τ = (b.flatMap fun p => Inst.keysT p.type) →
    (a.map AParam.k).map τ = b.map AParam.k → b = a.map (param τ)
  | [], b, h1, h2, hk, hp => by
    cases b with
    | nil => rfl
    | cons q b => simp only [List.map_cons, List.map_nil, reduceCtorEq] at h1
  | p :: a, b, h1, h2, hk, hp => by
    cases b with
    | nil => simp only [List.map_cons, List.map_nil, reduceCtorEq] at h1
    | cons q b =>
      obtain ⟨kq, nq, tq⟩ := q
      simp only [List.map_cons, List.cons.injEq, param, plainP, AParam.mk.injEq, true_and] at h1 h2 hp
      simp only [List.flatMap_cons] at hk
      obtain ⟨k1, k2⟩ := split_keys hk (lengthT h1.1.2)
      rw [eqPs a b h1.2 h2.2 k2 hp.2]
      simp only [List.map_cons, param, List.cons.injEq, and_true, AParam.mk.injEq]
      exact ⟨hp.1.symm, h1.1.1, eqT p.type _ h1.1.2 h2.1 k1⟩

theorem eqF {f g : AFn} (h1 : fn zero g = plainF f) (h2 : fn zero f = plainF f)
    (hk : (Inst.keys f ++ f.params.map AParam.k).map τ = Inst.keys g ++ g.params.map AParam.k) : g = fn τ f := by
  obtain ⟨k, cv, x, ps, r, q, kb, ss, is, ge, ad, lv⟩ := f
  obtain ⟨k', cv', x', ps', r', q', kb', ss', is', ge', ad', lv'⟩ := g
  simp only [fn, plainF, AFn.mk.injEq, true_and] at h1 h2
  obtain ⟨a1, a2, a3, a4, a5, a6, a7, a8, a9, a10⟩ := h1
  obtain ⟨b1, b3, b4, b5, b6, b7, b8, b9, b10⟩ := h2
  simp only [Inst.keys, List.cons_append, List.map_cons, List.cons.injEq] at hk
  obtain ⟨c1, hk⟩ := hk
  have l1 := lengthPs _ _ a3
  have l2 := lengthT a4
  have l3 := lengthOE a5
  have l4 := lengths keysSs_plain (keysSs_ren zero) a6
  obtain ⟨c2, c3⟩ := split_keys hk (by
    simp only [List.length_append, List.length_cons, l1, l2, l3, l4])
  obtain ⟨c4, c5⟩ := split_keys c2 (by simp only [List.length_append, l1, l2, l3])
  obtain ⟨c6, c7⟩ := split_keys c4 (by simp only [List.length_append, l1, l2])
  obtain ⟨c8, c9⟩ := split_keys c6 l1
  simp only [List.map_cons, List.cons.injEq] at c5
  simp only [fn, AFn.mk.injEq]
  exact ⟨c1.symm, a1.trans b1.symm, a2, eqPs _ _ a3 b3 c8 c3, eqT _ _ a4 b4 c9, eqOE a5 b5 c7, c5.1.symm,
    eqSs _ _ a6 b6 c5.2, by rw [List.map_eq_nil_iff.mp a7, List.map_eq_nil_iff.mp b7]; rfl, a8.trans b8.symm, a9.trans b9.symm, a10.trans b10.symm⟩

theorem eqD {a b : ADecl} (h1 : decl zero b = plainD a) (h2 : decl zero a = plainD a)
    (hk : (nodeKeys a).map τ = nodeKeys b) : b = decl τ a := by
  cases a with
  | const_ k cv x ty e =>
    cases b <;> simp only [decl, plainD, reduceCtorEq, ADecl.const_.injEq, true_and] at h1 h2
    simp only [nodeKeys, List.map_cons, List.cons.injEq] at hk
    obtain ⟨k1, k2⟩ := split_keys hk.2 (lengthOT h1.2.2.1)
    simp only [decl, hk.1, h1.1, h1.2.1, h2.1, eqOT h1.2.2.1 h2.2.1 k1, eqE e _ h1.2.2.2 h2.2.2 k2]
  | staticAssert k cv e =>
    cases b <;> simp only [decl, plainD, reduceCtorEq, ADecl.staticAssert.injEq, true_and] at h1 h2
    simp only [nodeKeys, List.map_cons, List.cons.injEq] at hk
    simp only [decl, hk.1, h1.1, h2.1, eqE e _ h1.2 h2.2 hk.2]
  | function f =>
    cases b <;> simp only [decl, plainD, reduceCtorEq, ADecl.function.injEq] at h1 h2
    simp only [nodeKeys] at hk
    simp only [decl, eqF h1 h2 hk]

end Renumber

end Bms
