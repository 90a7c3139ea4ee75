import Verif.Model.Result
import Verif.Model.Outcome

/-!
# Lemmas about variants and results
-/

namespace Bms.Sum

variable {α β : Type}

@[simp] theorem put_same (s : Nat → Option β) (i : Nat) (v : Option β) : put s i v i = v := by simp [put]

theorem put_other (s : Nat → Option β) {i j : Nat} (v : Option β) (h : j ≠ i) : put s i v j = s j := by simp [put, h]

theorem put_put (s : Nat → Option β) (i : Nat) (v w : Option β) : put (put s i v) i w = put s i w := by
  funext j
  by_cases h : j = i <;> simp [put, h]

theorem put_comm (s : Nat → Option β) {i j : Nat} (v w : Option β) (h : i ≠ j) :
    put (put s i v) j w = put (put s j w) i v := by
  funext k
  by_cases hi : k = i
  · subst hi
    simp [put, h]
  · by_cases hj : k = j
    · subst hj
      simp [put, hi]
    · simp [put, hi, hj]

theorem put_self (s : Nat → Option β) (i : Nat) : put s i (s i) = s := by
  funext j
  by_cases h : j = i <;> simp [put, h]

theorem put_map {γ : Type} (f : β → γ) (s : Nat → Option β) (i : Nat) (v : Option β) :
    (fun j => (put s i v j).map f) = put (fun j => (s j).map f) i (v.map f) := by
  funext j
  by_cases h : j = i <;> simp [put, h]

/-- How many objects of a type a variable holds. -/
def one (a : Alts α) (v : Option (Nat × α)) (t : Nat) : Nat := if v.any (fun v => decide (a.type v.1 = t)) then 1 else 0

theorem holders_succ (a : Alts α) (s : Vars α) (n t : Nat) :
    holders a s (n + 1) t = holders a s n t + one a (s n) t := by
  simp [holders, one, List.range_succ, List.countP_append, List.countP_cons]

theorem holders_more (a : Alts α) {s : Vars α} {n : Nat} (h : ∀ i, n ≤ i → s i = none) (t : Nat) :
    ∀ k, holders a s (n + k) t = holders a s n t
  | 0 => rfl
  | k + 1 => by
    rw [← Nat.add_assoc, holders_succ, holders_more a h t k, h (n + k) (by omega)]
    simp [one]

theorem holders_put (a : Alts α) (s : Vars α) (i : Nat) (v : Option (Nat × α)) (t : Nat) :
    ∀ n, (n ≤ i → holders a (put s i v) n t = holders a s n t) ∧
      (i < n → holders a (put s i v) n t + one a (s i) t = holders a s n t + one a v t)
  | 0 => ⟨fun _ => rfl, fun h => absurd h (by omega)⟩
  | n + 1 => by
    have ih := holders_put a s i v t n
    rw [holders_succ, holders_succ]
    constructor
    · intro h
      rw [put_other _ _ (by omega : n ≠ i), ih.1 (by omega)]
    · intro h
      by_cases hn : n = i
      · subst hn
        rw [put_same, ih.1 (Nat.le_refl _)]
        omega
      · rw [put_other _ _ hn]
        have := ih.2 (by omega)
        omega

theorem Balanced.put {a : Alts α} {s : Vars α} {t mk gn mk' gn' : Nat} (h : Balanced a s t mk gn) (i : Nat)
    (v : Option (Nat × α)) (e : mk' + gn + one a (s i) t = mk + gn' + one a v t) :
    Balanced a (put s i v) t mk' gn' := by
  obtain ⟨n, hn, hc⟩ := h
  refine ⟨n + (i + 1), fun j hj => ?_, ?_⟩
  · rw [put_other _ _ (by omega), hn j (by omega)]
  · have h1 := holders_more a hn t (i + 1)
    have h2 := (holders_put a s i v t (n + (i + 1))).2 (by omega)
    omega

theorem one_some (a : Alts α) (k : Nat) (x : α) (t : Nat) : one a (some (k, x)) t = if t = a.type k then 1 else 0 := by
  simp [one, eq_comm]

theorem one_none (a : Alts α) (t : Nat) : one a none t = 0 := rfl

theorem firstIndexOf_eq (t : Nat) : ∀ (l : List Nat) (n : Nat),
    firstIndexOf t l n = if t ∈ l then some (n + l.idxOf t) else none
  | [], n => by simp [firstIndexOf]
  | u :: us, n => by
    rw [firstIndexOf, firstIndexOf_eq t us]
    by_cases h : t = u
    · subst h
      simp
    · have : ¬ (u == t) = true := by
        simp only [beq_iff_eq]
        exact fun e => h e.symm
      by_cases h' : t ∈ us
      · rw [if_neg h, if_pos h', if_pos (by simp [h']), List.idxOf_cons]
        simp [this]
        omega
      · rw [if_neg h, if_neg h', if_neg (by simp [h, h'])]

/-- An alternative that a variable can hold: the first one of its type. -/
def Usable (a : Alts α) (k : Nat) : Prop := a.types[k]? = some (a.type k) ∧ a.types.idxOf (a.type k) = k

theorem usable_idxOf {a : Alts α} {t : Nat} (h : t ∈ a.types) :
    a.type (a.types.idxOf t) = t ∧ Usable a (a.types.idxOf t) := by
  have h1 := List.idxOf_lt_length_of_mem h
  have h2 : a.types[a.types.idxOf t]? = some t := by
    rw [List.getElem?_eq_getElem h1, List.getElem_idxOf]
  have h3 : a.type (a.types.idxOf t) = t := by
    simp [Alts.type, List.getD, h2]
  exact ⟨h3, by rw [Usable, h3]; exact ⟨h2, rfl⟩⟩

/-- A variant that holds an alternative. -/
def conc (a : Alts α) (v : Nat × α) : Var α := ⟨v.1, some ⟨a.type v.1, v.2⟩⟩

/-- The variants of a program hold what they should. -/
structure Rep (a : Alts α) (m : Mem (Var α)) (s : Vars α) : Prop where
  vars : m.vars = fun i => (s i).map (conc a)
  usable : ∀ i k x, s i = some (k, x) → Usable a k
  balanced : ∀ t, Balanced a s t (m.made t) (m.gone t)

theorem visit_conc {a : Alts α} {k : Nat} (x : α) (h : Usable a k) : visit a ⟨k, some ⟨a.type k, x⟩⟩ = .ok (a.type k, x) := by
  simp [visit, h.1, Var.as]

theorem usable_put {a : Alts α} {s : Vars α} (h : ∀ i k x, s i = some (k, x) → Usable a k) (i k : Nat) (x : α)
    (hk : Usable a k) : ∀ j l y, put s i (some (k, x)) j = some (l, y) → Usable a l := by
  intro j l y hj
  by_cases hi : j = i
  · subst hi
    rw [put_same] at hj
    cases hj
    exact hk
  · rw [put_other _ _ hi] at hj
    exact h j l y hj

theorem usable_put_none {a : Alts α} {s : Vars α} (h : ∀ i k x, s i = some (k, x) → Usable a k) (i : Nat) :
    ∀ j l y, put s i none j = some (l, y) → Usable a l := by
  intro j l y hj
  by_cases hi : j = i
  · subst hi
    rw [put_same] at hj
    cases hj
  · rw [put_other _ _ hi] at hj
    exact h j l y hj

theorem Rep.get {a : Alts α} {m : Mem (Var α)} {s : Vars α} (h : Rep a m s) {i k : Nat} {x : α}
    (hi : s i = some (k, x)) : m.vars i = some ⟨k, some ⟨a.type k, x⟩⟩ := by
  rw [h.vars]
  simp [hi, conc]

theorem Rep.after {a : Alts α} {m m' : Mem (Var α)} {s : Vars α} (h : Rep a m s) {i k : Nat} {x : α}
    (hv : m'.vars = put m.vars i (some ⟨k, some ⟨a.type k, x⟩⟩)) (hk : Usable a k)
    (hb : ∀ t, m'.made t + m.gone t + one a (s i) t = m.made t + m'.gone t + (if t = a.type k then 1 else 0)) :
    Rep a m' (put s i (some (k, x))) :=
  ⟨by rw [hv, h.vars, put_map]; rfl, usable_put h.usable i k x hk,
    fun t => (h.balanced t).put i _ (by rw [one_some]; exact hb t)⟩

theorem run_default {a : Alts α} {m : Mem (Var α)} {s : Vars α} (h : Rep a m s) (ha : a.types ≠ []) {i : Nat}
    (hi : s i = none) (x : α) : ∃ m', default a m i x = .ok m' ∧ Rep a m' (put s i (some (0, x))) := by
  obtain ⟨t, ts, hts⟩ := List.exists_cons_of_ne_nil ha
  have ht : a.type 0 = t := by simp [Alts.type, hts]
  have hu : Usable a 0 := by
    rw [Usable, ht, hts]
    simp
  refine ⟨_, by simp [default, hts, constructIn, Mem.get, Mem.set]; rfl, h.after (by simp [Mem.make, put_put, ht]) hu ?_⟩
  intro u
  rw [hi, ht]
  by_cases e : u = t <;> simp [Mem.make, Mem.set, one_none, e] <;> omega

theorem run_value {a : Alts α} {m : Mem (Var α)} {s : Vars α} (h : Rep a m s) {i t : Nat} (ht : t ∈ a.types)
    (hi : s i = none) (x : α) :
    ∃ m', fromValue a m i t x = .ok m' ∧ Rep a m' (put s i (some (a.types.idxOf t, x))) := by
  obtain ⟨h1, h2⟩ := usable_idxOf ht
  refine ⟨_, by simp [fromValue, firstIndexOf_eq, ht, constructIn, Mem.get, Mem.set]; rfl,
    h.after (by simp [Mem.make, put_put, h1]) h2 ?_⟩
  intro u
  rw [hi, h1]
  by_cases e : u = t <;> simp [Mem.make, Mem.set, one_none, e] <;> omega

theorem run_copy {a : Alts α} {m : Mem (Var α)} {s : Vars α} (h : Rep a m s) {i j k : Nat} {x : α}
    (hi : s i = none) (hj : s j = some (k, x)) (raise : Bool) :
    if raise && !a.nothrowCopy (a.type k) then copyConstruct a m i j raise = .ok (m, true)
    else ∃ m', copyConstruct a m i j raise = .ok (m', false) ∧ Rep a m' (put s i (some (k, x))) := by
  have hk := h.usable _ _ _ hj
  have hm : put m.vars i none = m.vars := by
    have : m.vars i = none := by rw [h.vars]; simp [hi]
    rw [← this, put_self]
  by_cases hr : (raise && !a.nothrowCopy (a.type k)) = true
  · rw [if_pos hr]
    simp only [copyConstruct, Mem.get, h.get hj, Outcome.ok_bind, visit_conc x hk, if_pos hr, Mem.set, put_put, hm,
      Outcome.pure_eq]
  · rw [if_neg hr]
    refine ⟨_, by
      simp only [copyConstruct, Mem.get, h.get hj, Outcome.ok_bind, visit_conc x hk, if_neg hr, Mem.set, constructIn,
        put_same, Outcome.pure_eq]; rfl, h.after (by simp [Mem.make, put_put]) hk ?_⟩
    intro u
    rw [hi]
    by_cases e : u = a.type k <;> simp [Mem.make, one_none, e] <;> omega

theorem run_move {a : Alts α} {m : Mem (Var α)} {s : Vars α} (h : Rep a m s) {i j k : Nat} {x : α}
    (hi : s i = none) (hj : s j = some (k, x)) :
    ∃ m', moveConstruct a m i j = .ok m' ∧ Rep a m' (put (put s j (some (k, a.moved x))) i (some (k, x))) := by
  have hk := h.usable _ _ _ hj
  have hij : j ≠ i := by
    intro e
    rw [e, hi] at hj
    cases hj
  rw [put_comm _ _ _ hij]
  refine ⟨_, by
      simp only [moveConstruct, Mem.get, h.get hj, Outcome.ok_bind, visit_conc x hk, Mem.set, constructIn,
        put_same, Outcome.pure_eq, Mem.make, assignIn, put_other _ _ hij, Var.as]
      simp only [if_true, Outcome.ok_bind]
      rfl, ?_⟩
  have h1 : Rep a ⟨put m.vars i (some ⟨k, some ⟨a.type k, x⟩⟩),
      fun u => if u = a.type k then m.made u + 1 else m.made u, m.gone⟩ (put s i (some (k, x))) := by
    refine h.after rfl hk fun u => ?_
    rw [hi]
    by_cases e : u = a.type k <;> simp [one_none, e] <;> omega
  refine h1.after (by simp [put_put]) hk fun u => ?_
  rw [put_other _ _ hij, hj, one_some]

theorem Rep.same {a : Alts α} {m : Mem (Var α)} {s : Vars α} (h : Rep a m s) {i k : Nat} {x : α}
    (hi : s i = some (k, x)) (y : α) :
    assignIn m i (a.type k) y = .ok (m.set i (some ⟨k, some ⟨a.type k, y⟩⟩)) ∧
      Rep a (m.set i (some ⟨k, some ⟨a.type k, y⟩⟩)) (put s i (some (k, y))) := by
  refine ⟨by simp [assignIn, Mem.get, h.get hi, Var.as], h.after rfl (h.usable _ _ _ hi) fun u => ?_⟩
  rw [hi, one_some]
  rfl

/-- A variable in whose storage another alternative was constructed. -/
theorem Rep.renew {a : Alts α} {m : Mem (Var α)} {s : Vars α} (h : Rep a m s) {i j k l : Nat} {x y : α}
    (hi : s i = some (k, x)) (hj : s j = some (l, y)) {m' : Mem (Var α)}
    (hv : m'.vars = put m.vars i (some ⟨l, some ⟨a.type l, y⟩⟩))
    (hm : ∀ u, m'.made u + m.gone u + (if u = a.type k then 1 else 0) =
      m.made u + m'.gone u + (if u = a.type l then 1 else 0)) : Rep a m' (put s i (some (l, y))) := by
  refine h.after hv (h.usable _ _ _ hj) fun u => ?_
  rw [hi, one_some]
  exact hm u

theorem run_assignMove {a : Alts α} {m : Mem (Var α)} {s : Vars α} (h : Rep a m s) {i j k l : Nat} {x y : α}
    (hi : s i = some (k, x)) (hj : s j = some (l, y)) :
    ∃ m', assignMove a m i j = .ok m' ∧ Rep a m'
      (if i = j then put s i (some (k, a.selfMoved x))
      else if k = l then put (put s j (some (l, a.movedAssign y))) i (some (l, y))
      else put (put s j (some (l, a.moved y))) i (some (l, y))) := by
  have hk := h.usable _ _ _ hi
  have hl := h.usable _ _ _ hj
  by_cases hij : i = j
  · subst hij
    rw [hi] at hj
    cases hj
    rw [if_pos rfl]
    obtain ⟨h1, h2⟩ := h.same hi (a.selfMoved x)
    refine ⟨_, ?_, h2⟩
    simp only [assignMove, Mem.get, h.get hi, Outcome.ok_bind, visit_conc x hk, if_true]
    exact h1
  · rw [if_neg hij]
    by_cases hkl : k = l
    · subst hkl
      rw [if_pos rfl, put_comm _ _ _ (Ne.symm hij)]
      obtain ⟨h1, h2⟩ := h.same hi y
      obtain ⟨h3, h4⟩ := h2.same (i := j) (k := k) (x := y) (by rw [put_other _ _ (Ne.symm hij), hj]) (a.movedAssign y)
      refine ⟨_, ?_, h4⟩
      simp only [assignMove, Mem.get, h.get hi, h.get hj, Outcome.ok_bind, visit_conc y hk, if_true, if_neg hij]
      rw [h1]
      exact h3
    · rw [if_neg hkl, put_comm _ _ _ (Ne.symm hij)]
      have h1 : Rep a ⟨put m.vars i (some ⟨l, some ⟨a.type l, y⟩⟩),
          fun u => if u = a.type l then m.made u + 1 else m.made u,
          fun u => if u = a.type k then m.gone u + 1 else m.gone u⟩ (put s i (some (l, y))) := by
        refine h.renew hi hj rfl fun u => ?_
        dsimp only
        (repeat' split) <;> omega
      obtain ⟨h3, h4⟩ := h1.same (i := j) (k := l) (x := y) (by rw [put_other _ _ (Ne.symm hij), hj]) (a.moved y)
      refine ⟨_, ?_, h4⟩
      simp only [assignMove, Mem.get, h.get hi, h.get hj, Outcome.ok_bind, visit_conc x hk, visit_conc y hl,
        if_neg hkl, destroyIn, Outcome.pure_eq, Mem.set, Mem.lose, constructIn, put_same, Mem.make, assignIn,
        put_other _ _ (Ne.symm hij), Var.as, setIndex, put_other _ _ hij, put_put]
      simp only [if_true, Outcome.ok_bind, put_same, put_other _ _ hij]
      simp only [put_comm _ _ _ (Ne.symm hij), put_put]

theorem run_assignCopy {a : Alts α} {m : Mem (Var α)} {s : Vars α} (h : Rep a m s) {i j k l : Nat} {x y : α}
    (hi : s i = some (k, x)) (hj : s j = some (l, y)) (raise : Bool) {s' : Vars α} {b : Bool}
    (hs : step a s (.assignCopy i j raise) = some (s', b)) :
    ∃ m', assignCopy a m i j raise = .ok (m', b) ∧ Rep a m' s' := by
  have hk := h.usable _ _ _ hi
  have hl := h.usable _ _ _ hj
  simp only [step, hi, hj] at hs
  by_cases hkl : k = l
  · subst hkl
    simp only [if_true] at hs
    by_cases hr : (raise && !a.nothrowAssign (a.type k)) = true
    · rw [if_pos hr] at hs
      cases hs
      obtain ⟨h1, h2⟩ := h.same hi (a.torn x y)
      refine ⟨_, ?_, h2⟩
      simp only [assignCopy, Mem.get, h.get hi, h.get hj, Outcome.ok_bind, visit_conc y hk, if_true, Var.as, if_pos hr, h1,
        Outcome.pure_eq]
    · rw [if_neg hr] at hs
      cases hs
      obtain ⟨h1, h2⟩ := h.same hi y
      refine ⟨_, ?_, h2⟩
      simp only [assignCopy, Mem.get, h.get hi, h.get hj, Outcome.ok_bind, visit_conc y hk, if_true, Var.as, if_neg hr, h1,
        Outcome.pure_eq]
  · rw [if_neg hkl] at hs
    by_cases hn : a.nothrowCopy (a.type l) = true
    · rw [if_neg (by simp [hn])] at hs
      cases hs
      refine ⟨⟨put m.vars i (some ⟨l, some ⟨a.type l, y⟩⟩),
          fun u => if u = a.type l then m.made u + 1 else m.made u,
          fun u => if u = a.type k then m.gone u + 1 else m.gone u⟩, ?_, h.renew hi hj rfl fun u => ?_⟩
      · simp only [assignCopy, Mem.get, h.get hi, h.get hj, Outcome.ok_bind, visit_conc x hk, visit_conc y hl,
          if_neg hkl, if_pos hn, destroyIn, Outcome.pure_eq, Mem.set, Mem.lose, constructIn, put_same, Mem.make,
          setIndex, put_put]
      · dsimp only
        (repeat' split) <;> omega
    · cases raise with
      | true =>
        rw [if_pos (by simp [hn])] at hs
        cases hs
        refine ⟨m, ?_, h⟩
        simp only [assignCopy, Mem.get, h.get hi, h.get hj, Outcome.ok_bind, visit_conc y hl, if_neg hkl, if_neg hn,
          if_true, Outcome.pure_eq]
      | false =>
        rw [if_neg (by simp)] at hs
        cases hs
        refine ⟨⟨put m.vars i (some ⟨l, some ⟨a.type l, y⟩⟩),
            fun u => if u = a.type l then (if u = a.type l then m.made u + 1 else m.made u) + 1
              else (if u = a.type l then m.made u + 1 else m.made u),
            fun u => if u = a.type l then (if u = a.type k then m.gone u + 1 else m.gone u) + 1
              else (if u = a.type k then m.gone u + 1 else m.gone u)⟩, ?_, h.renew hi hj rfl fun u => ?_⟩
        · simp only [assignCopy, Mem.get, h.get hi, h.get hj, Outcome.ok_bind, visit_conc x hk, visit_conc y hl,
            if_neg hkl, if_neg hn, destroyIn, Outcome.pure_eq, Mem.set, Mem.lose, constructIn, put_same, Mem.make,
            setIndex, put_put]
          simp
        · dsimp only
          (repeat' split) <;> omega

theorem run_destroy {a : Alts α} {m : Mem (Var α)} {s : Vars α} (h : Rep a m s) {i k : Nat} {x : α}
    (hi : s i = some (k, x)) : ∃ m', destruct a m i = .ok m' ∧ Rep a m' (put s i none) := by
  have hk := h.usable _ _ _ hi
  refine ⟨⟨put m.vars i none, m.made, fun u => if u = a.type k then m.gone u + 1 else m.gone u⟩, ?_, ?_, ?_, ?_⟩
  · simp only [destruct, destroyIn, Mem.get, h.get hi, Outcome.ok_bind, visit_conc x hk, Outcome.pure_eq, Mem.set, Mem.lose,
      put_put]
  · simp only [put_map, h.vars]
    rfl
  · exact usable_put_none h.usable i
  · intro t
    refine (h.balanced t).put i none ?_
    rw [hi, one_some, one_none]
    by_cases e : t = a.type k <;> simp [e] <;> omega

/-- Each operation does what it should. -/
theorem run_step {a : Alts α} (ha : a.types ≠ []) {m : Mem (Var α)} {s s' : Vars α} {op : Op α} {b : Bool}
    (h : Rep a m s) (hs : step a s op = some (s', b)) : ∃ m', run a m op = .ok (m', b) ∧ Rep a m' s' := by
  cases op with
  | default i x =>
    simp only [step] at hs
    cases hi : s i with
    | some v => simp [hi] at hs
    | none =>
      simp [hi] at hs
      obtain ⟨rfl, rfl⟩ := hs
      obtain ⟨m', h1, h2⟩ := run_default h ha hi x
      exact ⟨m', by simp [run, h1, calm], h2⟩
  | value i t x =>
    simp only [step] at hs
    cases hi : s i with
    | some v => simp [hi] at hs
    | none =>
      by_cases ht : t ∈ a.types
      · simp [hi, ht] at hs
        obtain ⟨rfl, rfl⟩ := hs
        obtain ⟨m', h1, h2⟩ := run_value h ht hi x
        exact ⟨m', by simp [run, h1, calm], h2⟩
      · simp [hi, ht] at hs
  | copy i j raise =>
    simp only [step] at hs
    cases hi : s i with
    | some v => simp [hi] at hs
    | none =>
      cases hj : s j with
      | none => simp [hi, hj] at hs
      | some v =>
        obtain ⟨k, x⟩ := v
        simp only [hi, hj] at hs
        have h1 := run_copy h hi hj raise
        by_cases hr : (raise && !a.nothrowCopy (a.type k)) = true
        · rw [if_pos hr] at hs h1
          cases hs
          exact ⟨m, h1, h⟩
        · rw [if_neg hr] at hs h1
          cases hs
          exact h1
  | move i j =>
    simp only [step] at hs
    cases hi : s i with
    | some v => simp [hi] at hs
    | none =>
      cases hj : s j with
      | none => simp [hi, hj] at hs
      | some v =>
        simp only [hi, hj] at hs
        cases hs
        obtain ⟨m', h1, h2⟩ := run_move h hi hj
        exact ⟨m', by simp [run, h1, calm], h2⟩
  | assignCopy i j raise =>
    cases hi : s i with
    | none => simp [step, hi] at hs
    | some v =>
      cases hj : s j with
      | none => simp [step, hi, hj] at hs
      | some w => exact run_assignCopy h hi hj raise hs
  | assignMove i j =>
    cases hi : s i with
    | none => simp [step, hi] at hs
    | some v =>
      cases hj : s j with
      | none => simp [step, hi, hj] at hs
      | some w =>
        obtain ⟨m', h1, h2⟩ := run_assignMove h hi hj
        refine ⟨m', ?_, ?_⟩
        · simp only [step, hi, hj] at hs
          have : b = false := by
            by_cases e1 : i = j
            · rw [if_pos e1] at hs; cases hs; rfl
            · rw [if_neg e1] at hs
              by_cases e2 : v.1 = w.1
              · rw [if_pos e2] at hs; cases hs; rfl
              · rw [if_neg e2] at hs; cases hs; rfl
          simp [run, h1, calm, this]
        · simp only [step, hi, hj] at hs
          by_cases e1 : i = j
          · rw [if_pos e1] at hs h2; cases hs; exact h2
          · rw [if_neg e1] at hs h2
            by_cases e2 : v.1 = w.1
            · rw [if_pos e2] at hs h2; cases hs; exact h2
            · rw [if_neg e2] at hs h2; cases hs; exact h2
  | destroy i =>
    simp only [step] at hs
    cases hi : s i with
    | none => simp [hi] at hs
    | some v =>
      simp [hi] at hs
      obtain ⟨rfl, rfl⟩ := hs
      obtain ⟨m', h1, h2⟩ := run_destroy h hi
      exact ⟨m', by simp [run, h1, calm], h2⟩

theorem rep_empty (a : Alts α) : Rep a Mem.empty fun _ => none := by
  refine ⟨rfl, (fun i k x h => by cases h), fun t => ⟨0, fun _ _ => rfl, ?_⟩⟩
  simp [Mem.empty, holders]

/-- A simulation of operations is one of lists of operations. -/
theorem runs_steps {a : Alts α} {f : Mem β → Op α → Outcome Empty (Mem β × Bool)} {R : Mem β → Vars α → Prop}
    {P : Op α → Prop}
    (hf : ∀ m s s' op b, P op → R m s → step a s op = some (s', b) → ∃ m', f m op = .ok (m', b) ∧ R m' s') :
    ∀ (ops : List (Op α)) (m : Mem β) (s s' : Vars α) (bs : List Bool), (∀ op ∈ ops, P op) → R m s →
      steps a s ops = some (s', bs) → ∃ m', runs f m ops = .ok (m', bs) ∧ R m' s'
  | [], m, s, s', bs, _, h, hs => by
    cases hs
    exact ⟨m, rfl, h⟩
  | op :: ops, m, s, s', bs, hp, h, hs => by
    rw [steps] at hs
    cases h1 : step a s op with
    | none => rw [h1] at hs; cases hs
    | some r =>
      rw [h1] at hs
      cases h2 : steps a r.1 ops with
      | none => simp [h2] at hs
      | some r' =>
        simp only [h2] at hs
        cases hs
        obtain ⟨m1, e1, h3⟩ := hf m s r.1 op r.2 (hp op (by simp)) h h1
        obtain ⟨m2, e2, h4⟩ := runs_steps hf ops m1 r.1 r'.1 r'.2 (fun o ho => hp o (by simp [ho])) h3 h2
        exact ⟨m2, by simp [runs, e1, e2], h4⟩

end Bms.Sum
