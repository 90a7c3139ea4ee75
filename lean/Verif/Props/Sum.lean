import Verif.Lemmas.Result

/-!
# C84: variants and results hold what was put into them, and destroy what they make
-/

namespace Bms

open Sum

variable {α : Type}

/-- Whatever a program does with variables of a variant type (construct, copy, move, assign, destroy, with exceptions of
copies), no undefined behaviour occurs and no assertion fails. Each variable holds the alternative and the value
that it should, and an exception is thrown only by a copy that may do so. Every object that was made is held by a
variable or was destroyed. -/
theorem C84_variant (a : Alts α) (ha : a.types ≠ []) (ops : List (Op α)) {s : Vars α} {bs : List Bool}
    (h : steps a (fun _ => none) ops = some (s, bs)) :
    ∃ m, runs (run a) Mem.empty ops = .ok (m, bs) ∧
      (∀ i, m.vars i = (s i).map fun v => ⟨v.1, some ⟨a.type v.1, v.2⟩⟩) ∧
      (∀ t, Balanced a s t (m.made t) (m.gone t)) := by
  obtain ⟨m, e, r⟩ := runs_steps (f := run a) (R := Rep a) (P := fun _ => True)
    (fun m s s' op b _ hr hs => run_step ha hr hs) ops Mem.empty _ s bs (fun _ _ => trivial) (rep_empty a) h
  exact ⟨m, e, fun i => by rw [r.vars]; rfl, r.balanced⟩

theorem holders_none (a : Alts α) {s : Vars α} (h : ∀ i, s i = none) (n t : Nat) : holders a s n t = 0 := by
  simp [holders, h]

/-- When all variables were destroyed, every object of the alternatives was destroyed exactly as often as it was
made. -/
theorem C84_no_leak (a : Alts α) (ha : a.types ≠ []) (ops : List (Op α)) {s : Vars α} {bs : List Bool}
    (h : steps a (fun _ => none) ops = some (s, bs)) (hn : ∀ i, s i = none) :
    ∃ m, runs (run a) Mem.empty ops = .ok (m, bs) ∧ (∀ i, m.vars i = none) ∧ ∀ t, m.made t = m.gone t := by
  obtain ⟨m, e, hv, hb⟩ := C84_variant a ha ops h
  refine ⟨m, e, fun i => by rw [hv, hn]; rfl, fun t => ?_⟩
  obtain ⟨n, _, hc⟩ := hb t
  rw [holders_none a hn] at hc
  omega

/-- What a program can ask: in every state that it can reach, a variable that holds a value `x` as alternative `k`
has the index `k`, and holds, of all types, the type of this alternative, and the value `x`. -/
theorem C84_access (a : Alts α) (ha : a.types ≠ []) (ops : List (Op α)) {s : Vars α} {bs : List Bool}
    (h : steps a (fun _ => none) ops = some (s, bs)) {i k : Nat} {x : α} (hi : s i = some (k, x)) :
    ∃ m v, runs (run a) Mem.empty ops = .ok (m, bs) ∧ m.vars i = some v ∧ v.index = k ∧
      visit a v = .ok (a.type k, x) ∧
      (∀ t, holdsAlternative a v t = true ↔ t = a.type k) ∧
      (∀ t, getIf a v t = .ok (if t = a.type k then some x else none)) ∧
      (∀ t, Sum.get a v t = if t = a.type k then .ok x else .throws) ∧
      (∀ l, getIfAt a v l = .ok (if l = k then some x else none)) ∧
      (∀ l, getAt a v l = if l = k then .ok x else .throws) := by
  obtain ⟨m, e, r⟩ := runs_steps (f := run a) (R := Rep a) (P := fun _ => True)
    (fun m s s' op b _ hr hs => run_step ha hr hs) ops Mem.empty _ s bs (fun _ _ => trivial) (rep_empty a) h
  have hu := r.usable _ _ _ hi
  have hf : ∀ t, firstIndexOf t a.types 0 = some k ↔ t = a.type k := by
    intro t
    rw [firstIndexOf_eq]
    constructor
    · intro h'
      by_cases ht : t ∈ a.types
      · rw [if_pos ht] at h'
        have h'' : a.types.idxOf t = k := by simpa using h'
        have := (usable_idxOf ht).1
        rw [h''] at this
        exact this.symm
      · rw [if_neg ht] at h'
        cases h'
    · intro ht
      have hm : t ∈ a.types := by
        rw [ht]
        exact List.mem_of_getElem? hu.1
      rw [if_pos hm, ht, hu.2]
      simp
  refine ⟨m, _, e, r.get hi, rfl, visit_conc x hu, fun t => ?_, fun t => ?_, fun t => ?_, fun l => ?_, fun l => ?_⟩
  · simp only [holdsAlternative, decide_eq_true_eq]
    exact hf t
  · rw [getIf]
    by_cases ht : t = a.type k
    · rw [if_pos ((hf t).2 ht), if_pos ht, ht]
      simp [Var.as]
    · rw [if_neg (fun e => ht ((hf t).1 e)), if_neg ht]
  · rw [Sum.get]
    by_cases ht : t = a.type k
    · rw [if_pos ((hf t).2 ht), if_pos ht, ht]
      simp [Var.as]
    · rw [if_neg (fun e => ht ((hf t).1 e)), if_neg ht]
  · rw [getIfAt]
    by_cases hl : l = k
    · subst hl
      simp [Var.as]
    · simp [hl, Ne.symm hl]
  · rw [getAt]
    by_cases hl : l = k
    · subst hl
      simp [Var.as]
    · simp [hl]

/-- Two variables are equal if they hold the same alternative and equal values; a variable is equal to a value if it
holds a value of its type that is equal to it. -/
theorem C84_equal (a : Alts α) (ha : a.types ≠ []) (eq : α → α → Bool) (ops : List (Op α)) {s : Vars α} {bs : List Bool}
    (h : steps a (fun _ => none) ops = some (s, bs)) {i j k l : Nat} {x y : α} (hi : s i = some (k, x))
    (hj : s j = some (l, y)) :
    ∃ m v w, runs (run a) Mem.empty ops = .ok (m, bs) ∧ m.vars i = some v ∧ m.vars j = some w ∧
      eqVar a eq v w = .ok (decide (k = l) && eq x y) ∧
      (∀ t z, eqValue a eq v t z = .ok (decide (a.type k = t) && eq x z)) := by
  obtain ⟨m, v, e, hv, hx, hvis, _, hg, _⟩ := C84_access a ha ops h hi
  obtain ⟨m', e', hv', _⟩ := C84_variant a ha ops h
  rw [e] at e'
  cases e'
  have h1 : some v = some ⟨k, some ⟨a.type k, x⟩⟩ := by rw [← hv, hv' i, hi]; rfl
  cases h1
  have hu : visit a ⟨k, some ⟨a.type k, x⟩⟩ = .ok (a.type k, x) := hvis
  refine ⟨m, _, _, e, hv, by rw [hv' j, hj]; rfl, ?_, fun t z => ?_⟩
  · rw [eqVar]
    by_cases hkl : k = l
    · subst hkl
      simp only [if_true, hu, Outcome.ok_bind, Var.as, Outcome.pure_eq]
      simp
    · simp [hkl]
  · have := hg t
    rw [getIf] at this
    rw [eqValue]
    by_cases ht : t = a.type k
    · subst ht
      by_cases hc : firstIndexOf (a.type k) a.types 0 = some k
      · rw [if_pos hc]
        simp [Var.as]
      · rw [if_neg hc] at this
        simp at this
    · by_cases hc : firstIndexOf t a.types 0 = some k
      · rw [if_pos hc, if_neg ht] at this
        simp [Var.as, Ne.symm ht] at this
      · rw [if_neg hc]
        simp [Ne.symm ht]

/-- `Result<T, Error>`: as for variants with two alternatives, the value and the error, but a program must not assign
by a move. What is missing: assignment by a move, which is undefined, see `C84_violation`. An assignment by a copy
that throws ends the program. -/
theorem C84_result_partial (a : Alts α) (ha : a.types = [0, 1]) (ops : List (Op α)) (hp : ∀ op ∈ ops, ResOp op)
    {s : Vars α} {bs : List Bool} (h : steps a (fun _ => none) ops = some (s, bs)) :
    ∃ m, runs (runRes a) Mem.empty ops = .ok (m, bs) ∧
      (∀ i, m.vars i = (s i).map fun v => ⟨v.1 == 0, some ⟨v.1, v.2⟩⟩) ∧
      (∀ i k x, s i = some (k, x) → ∃ r, m.vars i = some r ∧ r.hasValue = decide (k = 0) ∧
        resGet r = (if k = 0 then .ok x else .throws) ∧ resError r = (if k = 0 then .throws else .ok x)) ∧
      (∀ t, Balanced a s t (m.made t) (m.gone t)) := by
  obtain ⟨m, e, r⟩ := runs_steps (f := runRes a) (R := RepR a concR fun _ => True) (P := ResOp)
    (fun m s s' op b hp hr hs => run_res_step ha hp hr hs) ops Mem.empty _ s bs hp (repR_empty a _ _) h
  refine ⟨m, e, fun i => by rw [r.vars]; rfl, fun i k x hi => ⟨_, r.get hi, ?_, ?_, ?_⟩, fun t => r.balanced t trivial⟩
  all_goals
    have hk := r.two _ _ _ hi
    have h01 : k = 0 ∨ k = 1 := by omega
    rcases h01 with rfl | rfl <;> simp [concR, resGet, resError, Res.as]

/-- Every assignment by a move to a `Result<T, Error>` is undefined, in every state that a program can reach: the
function does what it should, but reaches its end without returning anything. -/
theorem C84_violation (a : Alts α) (ha : a.types = [0, 1]) (ops : List (Op α)) (hp : ∀ op ∈ ops, ResOp op)
    {s s' : Vars α} {bs : List Bool} (h : steps a (fun _ => none) ops = some (s, bs)) {i j : Nat}
    (hs : step a s (.assignMove i j) = some (s', false)) :
    (∃ m m', runs (runRes a) Mem.empty ops = .ok (m, bs) ∧ runRes a m (.assignMove i j) = .ub ∧
      resAssignMoveBody a m i j = .ok m' ∧
      (∀ n, m'.vars n = (s' n).map fun v => ⟨v.1 == 0, some ⟨v.1, v.2⟩⟩)) := by
  obtain ⟨m, e, r⟩ := runs_steps (f := runRes a) (R := RepR a concR fun _ => True) (P := ResOp)
    (fun m s s' op b hp hr hs => run_res_step ha hp hr hs) ops Mem.empty _ s bs hp (repR_empty a _ _) h
  obtain ⟨h1, m', h2, h3⟩ := run_res_assignMove ha r hs
  exact ⟨m, m', e, h1, h2, fun n => by rw [h3.vars]; rfl⟩

/-- `Result<void, Error>`: as above, and an assignment by a move does the same as one by a copy. Only errors are
objects. -/
theorem C84_void (a : Alts α) (ha : a.types = [0, 1]) (h0 : a.nothrowCopy 0 = true) (ops : List (Op α))
    (hp : ∀ op ∈ ops, VoidOp op) {s : Vars α} {bs : List Bool}
    (h : steps a (fun _ => none) (ops.map asCopy) = some (s, bs)) :
    ∃ m, runs (runVoid a) Mem.empty ops = .ok (m, bs) ∧
      (∀ i k x, s i = some (k, x) → ∃ r, m.vars i = some r ∧ r.hasValue = decide (k = 0) ∧
        voidGet r = (if k = 0 then .ok () else .throws) ∧ resError r = (if k = 0 then .throws else .ok x)) ∧
      (∀ i, s i = none → m.vars i = none) ∧
      Balanced a s 1 (m.made 1) (m.gone 1) := by
  have hr : ∀ (ops : List (Op α)) (m : Mem (Res α)),
      runs (runVoid a) m ops = runs (runVoid a) m (ops.map asCopy) := by
    intro ops
    induction ops with
    | nil => intro m; rfl
    | cons op ops ih =>
      intro m
      have : runVoid a m op = runVoid a m (asCopy op) := by cases op <;> rfl
      simp only [List.map_cons, runs, this, ih]
  rw [hr]
  have hp' : ∀ op ∈ ops.map asCopy, VoidOp op ∧ ∀ i j, op ≠ .assignMove i j := by
    intro op ho
    obtain ⟨op', ho', rfl⟩ := List.mem_map.1 ho
    have := hp op' ho'
    cases op' <;> first | exact ⟨rfl, fun i j e => by cases e⟩ | exact ⟨this, fun i j e => by cases e⟩
  obtain ⟨m, e, r⟩ := runs_steps (f := runVoid a) (R := RepR a concV fun t => t = 1)
    (P := fun op => VoidOp op ∧ ∀ i j, op ≠ .assignMove i j)
    (fun m s s' op b hp hr hs => run_void_step ha h0 hp.1 hr hs hp.2) (ops.map asCopy) Mem.empty _ s bs hp' (repR_empty a _ _) h
  refine ⟨m, e, fun i k x hi => ⟨_, r.get hi, ?_, ?_, ?_⟩, fun i hi => by rw [r.vars]; simp [hi], r.balanced 1 rfl⟩
  all_goals
    have hk := r.two _ _ _ hi
    have h01 : k = 0 ∨ k = 1 := by omega
    rcases h01 with rfl | rfl <;> simp [concV, voidGet, resError, Res.as]

/-! ## The theorems are about something -/

/-- A variant of two types, of which the second can throw when it is copied. -/
def sampleAlts : Alts Nat where
  types := [7, 9]
  nothrowCopy := fun t => t == 7
  nothrowAssign := fun t => t == 7
  moved := fun _ => 0
  movedAssign := fun _ => 0
  selfMoved := fun x => x
  torn := fun _ _ => 1

/-- A program that assigns across alternatives, with an exception and without, and destroys all of its variables. -/
def sampleOps : List (Op Nat) :=
  [.default 0 5, .value 1 9 6, .assignCopy 0 1 true, .assignCopy 0 1 false, .copy 2 0 false, .assignMove 2 2,
    .value 3 7 8, .assignMove 3 1, .destroy 0, .destroy 1, .destroy 2, .destroy 3]

theorem C84_sample : ∃ s, steps sampleAlts (fun _ => none) sampleOps =
      some (s, [false, false, true, false, false, false, false, false, false, false, false, false]) ∧
    (∃ s', steps sampleAlts (fun _ => none) (sampleOps.take 8) = some s' ∧
      s'.1 0 = some (1, 6) ∧ s'.1 1 = some (1, 0) ∧ s'.1 3 = some (1, 6)) ∧
    ∀ i, s i = none :=
  ⟨_, rfl, ⟨_, rfl, by decide, by decide, by decide⟩, by intro i; rcases i with _ | _ | _ | _ | i <;> rfl⟩

/-- Values and errors. -/
def sampleTwo : Alts Nat := { sampleAlts with types := [0, 1], nothrowCopy := fun _ => true, nothrowAssign := fun _ => true }

theorem C84_result_sample :
    (∃ s, steps sampleTwo (fun _ => none) [.value 0 0 5, .value 1 1 6, .assignCopy 0 1 false] = some (s, [false, false, false]) ∧
      s 0 = some (1, 6)) ∧
    (∃ s, steps sampleTwo (fun _ => none) [.value 0 0 5, .value 1 1 6] = some (s, [false, false]) ∧
      ∃ s', step sampleTwo s (.assignMove 0 1) = some (s', false) ∧ s' 0 = some (1, 6)) ∧
    (∃ s, steps sampleTwo (fun _ => none) ([.default 0 0, .value 1 1 6, .assignMove 0 1].map asCopy) =
      some (s, [false, false, false]) ∧ s 0 = some (1, 6)) :=
  ⟨⟨_, rfl, by decide⟩, ⟨_, rfl, _, rfl, by decide⟩, ⟨_, rfl, by decide⟩⟩

end Bms
