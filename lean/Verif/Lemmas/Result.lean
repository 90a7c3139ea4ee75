import Verif.Lemmas.Sum

/-!
# Lemmas about results
-/

namespace Bms.Sum

variable {α : Type}

/-- A `Result<T, Error>` that holds an alternative. -/
def concR (v : Nat × α) : Res α := ⟨v.1 == 0, some ⟨v.1, v.2⟩⟩

/-- A `Result<void, Error>` that holds an error or nothing. -/
def concV (v : Nat × α) : Res α := ⟨v.1 == 0, if v.1 = 0 then none else some ⟨v.1, v.2⟩⟩

/-- The results of a program hold what they should; only objects of some types are counted. -/
structure RepR (a : Alts α) (c : Nat × α → Res α) (counted : Nat → Prop) (m : Mem (Res α)) (s : Vars α) : Prop where
  vars : m.vars = fun i => (s i).map c
  two : ∀ i k x, s i = some (k, x) → k ≤ 1
  balanced : ∀ t, counted t → Balanced a s t (m.made t) (m.gone t)

variable {a : Alts α} {c : Nat × α → Res α} {counted : Nat → Prop} {m m' : Mem (Res α)} {s : Vars α}

theorem RepR.get (h : RepR a c counted m s) {i : Nat} {v : Nat × α} (hi : s i = some v) : m.vars i = some (c v) := by
  rw [h.vars]
  simp [hi]

theorem RepR.put (h : RepR a c counted m s) {i : Nat} (v : Option (Nat × α)) (hv : m'.vars = Sum.put m.vars i (v.map c))
    (hk : ∀ k x, v = some (k, x) → k ≤ 1)
    (hb : ∀ t, counted t → m'.made t + m.gone t + one a (s i) t = m.made t + m'.gone t + one a v t) :
    RepR a c counted m' (Sum.put s i v) := by
  refine ⟨by rw [hv, h.vars, put_map], fun j k x hj => ?_, fun t ht => (h.balanced t ht).put i _ (hb t ht)⟩
  by_cases e : j = i
  · subst e
    rw [put_same] at hj
    exact hk k x hj
  · rw [put_other _ _ e] at hj
    exact h.two j k x hj

theorem type_two (ha : a.types = [0, 1]) {k : Nat} (hk : k ≤ 1) : a.type k = k := by
  have : k = 0 ∨ k = 1 := by omega
  rcases this with rfl | rfl <;> simp [Alts.type, ha]

theorem idxOf_two (ha : a.types = [0, 1]) {t : Nat} (ht : t ∈ a.types) : a.types.idxOf t = t ∧ t ≤ 1 := by
  rw [ha] at ht ⊢
  have : t = 0 ∨ t = 1 := by simpa using ht
  rcases this with rfl | rfl <;> simp [List.idxOf, List.findIdx_cons]

theorem one_two (ha : a.types = [0, 1]) {k : Nat} (hk : k ≤ 1) (x : α) (t : Nat) :
    one a (some (k, x)) t = if t = k then 1 else 0 := by rw [one_some, type_two ha hk]

theorem repR_empty (a : Alts α) (c : Nat × α → Res α) (counted : Nat → Prop) :
    RepR a c counted Mem.empty fun _ => none := by
  refine ⟨rfl, (fun i k x h => by cases h), fun t _ => ⟨0, fun _ _ => rfl, ?_⟩⟩
  simp [Mem.empty, holders]

/-- The operations that programs can use with `Result<T, Error>`, without assignment by a move. -/
def ResOp : Op α → Prop
  | .default _ _ => False
  | .assignCopy _ _ raise => raise = false
  | .assignMove _ _ => False
  | _ => True

/-- The operations that programs can use with `Result<void, Error>`. -/
def VoidOp : Op α → Prop
  | .value _ t _ => t = 1
  | .assignCopy _ _ raise => raise = false
  | _ => True

/-- A change that keeps the number of objects. -/
theorem RepR.same (h : RepR a c counted m s) (ha : a.types = [0, 1]) {i k : Nat} {x : α} (hi : s i = some (k, x)) (y : α)
    {w : Res α} (hw : w = c (k, y)) : RepR a c counted (m.set i (some w)) (Sum.put s i (some (k, y))) := by
  have hk := h.two _ _ _ hi
  refine h.put _ (by rw [hw]; rfl) (by intro k' x' e; cases e; exact hk) fun t _ => ?_
  rw [hi, one_two ha hk, one_two ha hk]
  rfl

theorem run_res_step (ha : a.types = [0, 1]) {s' : Vars α} {op : Op α} {b : Bool} (hp : ResOp op)
    (h : RepR a concR (fun _ => True) m s) (hs : step a s op = some (s', b)) :
    ∃ m', runRes a m op = .ok (m', b) ∧ RepR a concR (fun _ => True) m' s' := by
  cases op with
  | default i x => exact absurd hp (by simp [ResOp])
  | value i t x =>
    simp only [step] at hs
    cases hi : s i with
    | some v => simp [hi] at hs
    | none =>
      by_cases ht : t ∈ a.types
      · simp [hi, ht] at hs
        obtain ⟨rfl, rfl⟩ := hs
        obtain ⟨h1, h2⟩ := idxOf_two ha ht
        rw [h1]
        refine ⟨_, by simp only [runRes, if_pos h2, resValue, calm, Outcome.ok_bind, Outcome.pure_eq]; rfl,
          h.put _ rfl (by intro k' x' e; cases e; exact h2) fun u _ => ?_⟩
        rw [hi, one_none, one_two ha h2]
        simp only [Mem.make, Mem.set]
        (repeat' split) <;> omega
      · simp [hi, ht] at hs
  | copy i j raise =>
    simp only [step] at hs
    cases hi : s i with
    | some v => simp [hi] at hs
    | none =>
      cases hj : s j with
      | none => simp [hi, hj] at hs
      | some v =>
        obtain ⟨k, x⟩ := v
        have hk := h.two _ _ _ hj
        simp only [hi, hj, type_two ha hk] at hs
        have hm : Sum.put m.vars i none = m.vars := by
          have : m.vars i = none := by rw [h.vars]; simp [hi]
          rw [← this, put_self]
        have ht : (if (k == 0) = true then 0 else 1) = k := by
          have : k = 0 ∨ k = 1 := by omega
          rcases this with rfl | rfl <;> rfl
        by_cases hr : (raise && !a.nothrowCopy k) = true
        · rw [if_pos hr] at hs
          cases hs
          refine ⟨m, ?_, h⟩
          simp only [runRes, resCopy, Mem.get, h.get hj, concR, Outcome.ok_bind, ht, Res.as, if_true, if_pos hr, Mem.set,
            put_put, hm, Outcome.pure_eq]
        · rw [if_neg hr] at hs
          cases hs
          refine ⟨⟨Sum.put m.vars i (some ⟨k == 0, some ⟨k, x⟩⟩), fun u => if u = k then m.made u + 1 else m.made u,
            m.gone⟩, ?_, h.put _ rfl (by intro k' x' e; cases e; exact hk) fun u _ => ?_⟩
          · simp only [runRes, resCopy, Mem.get, h.get hj, concR, Outcome.ok_bind, ht, Res.as, if_true, if_neg hr,
              Mem.set, put_put, constructR, put_same, Outcome.pure_eq, Mem.make]
          · rw [hi, one_none, one_two ha hk]
            dsimp only
            (repeat' split) <;> omega
  | move i j =>
    simp only [step] at hs
    cases hi : s i with
    | some v => simp [hi] at hs
    | none =>
      cases hj : s j with
      | none => simp [hi, hj] at hs
      | some v =>
        obtain ⟨k, x⟩ := v
        have hk := h.two _ _ _ hj
        simp only [hi, hj] at hs
        cases hs
        have hij : j ≠ i := by
          intro e
          rw [e, hi] at hj
          cases hj
        have ht : (if (k == 0) = true then 0 else 1) = k := by
          have : k = 0 ∨ k = 1 := by omega
          rcases this with rfl | rfl <;> rfl
        rw [put_comm _ _ _ hij]
        have h1 : RepR a concR (fun _ => True) ⟨Sum.put m.vars i (some ⟨k == 0, some ⟨k, x⟩⟩),
            fun u => if u = k then m.made u + 1 else m.made u, m.gone⟩ (Sum.put s i (some (k, x))) := by
          refine h.put _ rfl (by intro k' x' e; cases e; exact hk) fun u _ => ?_
          rw [hi, one_none, one_two ha hk]
          dsimp only
          (repeat' split) <;> omega
        refine ⟨_, ?_, h1.same ha (by rw [put_other _ _ hij, hj]) (a.moved x) rfl⟩
        simp only [runRes, calm, resMove, Mem.get, h.get hj, concR, Outcome.ok_bind, ht, Res.as, if_true, Mem.set, put_put,
          constructR, put_same, Outcome.pure_eq, Mem.make, assignR, put_other _ _ hij]
  | assignCopy i j raise =>
    have hp : raise = false := hp
    subst hp
    simp only [step] at hs
    cases hi : s i with
    | none => simp [hi] at hs
    | some v =>
      cases hj : s j with
      | none => simp [hi, hj] at hs
      | some w =>
        obtain ⟨k, x⟩ := v
        obtain ⟨l, y⟩ := w
        have hk := h.two _ _ _ hi
        have hl := h.two _ _ _ hj
        have hs' : Sum.put s i (some (l, y)) = s' ∧ b = false := by
          by_cases e : k = l
          · simp [hi, hj, e] at hs
            exact ⟨hs.1, hs.2⟩
          · simp [hi, hj, e] at hs
            exact ⟨hs.1, hs.2⟩
        obtain ⟨rfl, rfl⟩ := hs'
        by_cases hij : i = j
        · subst hij
          rw [hi] at hj
          cases hj
          rw [← hi, put_self]
          exact ⟨m, by simp [runRes, calm, resAssignCopy, Mem.get, h.get hi], h⟩
        · by_cases hkl : k = l
          · subst hkl
            refine ⟨_, ?_, h.same ha hi y rfl⟩
            have : k = 0 ∨ k = 1 := by omega
            rcases this with rfl | rfl <;>
              simp [runRes, calm, resAssignCopy, Mem.get, h.get hi, h.get hj, hij, concR, Res.as, assignR]
          · refine ⟨⟨Sum.put m.vars i (some ⟨l == 0, some ⟨l, y⟩⟩), fun u => if u = l then m.made u + 1 else m.made u,
              fun u => if u = k then m.gone u + 1 else m.gone u⟩, ?_,
              h.put _ rfl (by intro k' x' e; cases e; exact hl) fun u _ => ?_⟩
            · have : (k = 0 ∧ l = 1) ∨ (k = 1 ∧ l = 0) := by omega
              rcases this with ⟨rfl, rfl⟩ | ⟨rfl, rfl⟩ <;>
                simp [runRes, calm, resAssignCopy, Mem.get, h.get hi, h.get hj, hij, concR, Res.as, destroyR, constructR,
                  setHas, Mem.set, Mem.make, Mem.lose, put_put]
            · rw [hi, one_two ha hk, one_two ha hl]
              dsimp only
              (repeat' split) <;> omega
  | assignMove i j => exact absurd hp (by simp [ResOp])
  | destroy i =>
    simp only [step] at hs
    cases hi : s i with
    | none => simp [hi] at hs
    | some v =>
      obtain ⟨k, x⟩ := v
      have hk := h.two _ _ _ hi
      simp [hi] at hs
      obtain ⟨rfl, rfl⟩ := hs
      refine ⟨⟨Sum.put m.vars i none, m.made, fun u => if u = k then m.gone u + 1 else m.gone u⟩, ?_,
        h.put none rfl (by intro k' x' e; cases e) fun u _ => ?_⟩
      · have : k = 0 ∨ k = 1 := by omega
        rcases this with rfl | rfl <;>
          simp [runRes, calm, resDestruct, Mem.get, h.get hi, concR, Res.as, destroyR, Mem.set, Mem.lose, put_put]
      · rw [hi, one_two ha hk, one_none]
        dsimp only
        (repeat' split) <;> omega

/-- Assignment by a move is always undefined. -/
theorem run_res_assignMove (ha : a.types = [0, 1]) {s' : Vars α} {i j : Nat} {b : Bool}
    (h : RepR a concR (fun _ => True) m s) (hs : step a s (.assignMove i j) = some (s', b)) :
    runRes a m (.assignMove i j) = .ub ∧
      ∃ m', resAssignMoveBody a m i j = .ok m' ∧ RepR a concR (fun _ => True) m' s' := by
  have key : ∃ m', resAssignMoveBody a m i j = .ok m' ∧ RepR a concR (fun _ => True) m' s' := by
    simp only [step] at hs
    cases hi : s i with
    | none => simp [hi] at hs
    | some v =>
      cases hj : s j with
      | none => simp [hi, hj] at hs
      | some w =>
        obtain ⟨k, x⟩ := v
        obtain ⟨l, y⟩ := w
        have hk := h.two _ _ _ hi
        have hl := h.two _ _ _ hj
        simp only [hi, hj] at hs
        by_cases hij : i = j
        · subst hij
          rw [hi] at hj
          cases hj
          simp at hs
          obtain ⟨rfl, rfl⟩ := hs
          refine ⟨_, ?_, h.same ha hi (a.selfMoved x) rfl⟩
          have : k = 0 ∨ k = 1 := by omega
          rcases this with rfl | rfl <;> simp [resAssignMoveBody, Mem.get, h.get hi, concR, Res.as, assignR]
        · rw [if_neg hij] at hs
          by_cases hkl : k = l
          · subst hkl
            simp at hs
            obtain ⟨rfl, rfl⟩ := hs
            rw [put_comm _ _ _ (Ne.symm hij)]
            refine ⟨_, ?_, (h.same ha hi y rfl).same ha (i := j) (by rw [put_other _ _ (Ne.symm hij), hj])
              (a.movedAssign y) rfl⟩
            have : k = 0 ∨ k = 1 := by omega
            rcases this with rfl | rfl <;>
              simp [resAssignMoveBody, Mem.get, h.get hi, h.get hj, hij, concR, Res.as, assignR, Mem.set,
                put_other _ _ (Ne.symm hij)]
          · simp [hkl] at hs
            obtain ⟨rfl, rfl⟩ := hs
            rw [put_comm _ _ _ (Ne.symm hij)]
            have h1 : RepR a concR (fun _ => True) ⟨Sum.put m.vars i (some ⟨l == 0, some ⟨l, y⟩⟩),
                fun u => if u = l then m.made u + 1 else m.made u,
                fun u => if u = k then m.gone u + 1 else m.gone u⟩ (Sum.put s i (some (l, y))) := by
              refine h.put _ rfl (by intro k' x' e; cases e; exact hl) fun u _ => ?_
              rw [hi, one_two ha hk, one_two ha hl]
              dsimp only
              (repeat' split) <;> omega
            refine ⟨_, ?_, h1.same ha (i := j) (by rw [put_other _ _ (Ne.symm hij), hj]) (a.moved y) rfl⟩
            have : (k = 0 ∧ l = 1) ∨ (k = 1 ∧ l = 0) := by omega
            rcases this with ⟨rfl, rfl⟩ | ⟨rfl, rfl⟩ <;>
              simp [resAssignMoveBody, Mem.get, h.get hi, h.get hj, hij, concR, Res.as, assignR, Mem.set, destroyR,
                constructR, setHas, Mem.make, Mem.lose, put_put, put_other _ _ (Ne.symm hij), put_other _ _ hij,
                put_comm _ _ _ (Ne.symm hij)]
  obtain ⟨m', e, hr⟩ := key
  exact ⟨by simp [runRes, calm, resAssignMove, e], m', e, hr⟩

/-- Assignments by a move, taken as assignments by a copy. -/
def asCopy : Op α → Op α
  | .assignMove i j => .assignCopy i j false
  | op => op

theorem run_void_step (ha : a.types = [0, 1]) (h0 : a.nothrowCopy 0 = true) {s' : Vars α} {op : Op α} {b : Bool} (hp : VoidOp op)
    (h : RepR a concV (fun t => t = 1) m s) (hs : step a s op = some (s', b)) (hm : ∀ i j, op ≠ .assignMove i j) :
    ∃ m', runVoid a m op = .ok (m', b) ∧ RepR a concV (fun t => t = 1) m' s' := by
  cases op with
  | default i x =>
    simp only [step] at hs
    cases hi : s i with
    | some v => simp [hi] at hs
    | none =>
      simp [hi] at hs
      obtain ⟨rfl, rfl⟩ := hs
      refine ⟨_, by simp only [runVoid, voidDefault, calm, Outcome.ok_bind, Outcome.pure_eq]; rfl,
        h.put _ rfl (by intro k' x' e; cases e; omega) fun u hu => ?_⟩
      rw [hi, one_none, one_two ha (by omega), if_neg (by omega)]
      rfl
  | value i t x =>
    have hp : t = 1 := hp
    subst hp
    simp only [step] at hs
    cases hi : s i with
    | some v => simp [hi] at hs
    | none =>
      have ht : 1 ∈ a.types := by simp [ha]
      simp [hi, ht] at hs
      obtain ⟨rfl, rfl⟩ := hs
      rw [(idxOf_two ha ht).1]
      refine ⟨_, by simp only [runVoid, resValue, calm, Outcome.ok_bind, Outcome.pure_eq, if_true]; rfl,
        h.put _ rfl (by intro k' x' e; cases e; omega) fun u hu => ?_⟩
      rw [hi, one_none, one_two ha (by omega)]
      simp only [Mem.make, Mem.set]
      (repeat' split) <;> omega
  | copy i j raise =>
    simp only [step] at hs
    cases hi : s i with
    | some v => simp [hi] at hs
    | none =>
      cases hj : s j with
      | none => simp [hi, hj] at hs
      | some v =>
        obtain ⟨k, x⟩ := v
        have hk := h.two _ _ _ hj
        simp only [hi, hj, type_two ha hk] at hs
        have hm : Sum.put m.vars i none = m.vars := by
          have : m.vars i = none := by rw [h.vars]; simp [hi]
          rw [← this, put_self]
        have h01 : k = 0 ∨ k = 1 := by omega
        rcases h01 with rfl | rfl
        · rw [if_neg (by simp [h0])] at hs
          cases hs
          refine ⟨⟨Sum.put m.vars i (some ⟨true, none⟩), m.made, m.gone⟩, ?_,
            h.put _ rfl (by intro k' x' e; cases e; omega) fun u hu => ?_⟩
          · simp [runVoid, voidCopy, Mem.get, h.get hj, concV, Mem.set]
          · rw [hi, one_none, one_two ha (by omega), if_neg (by omega)]
        · by_cases hr : (raise && !a.nothrowCopy 1) = true
          · rw [if_pos hr] at hs
            cases hs
            refine ⟨m, ?_, h⟩
            simp only [Bool.and_eq_true, Bool.not_eq_true', Bool.not_eq_eq_eq_not, Bool.not_true] at hr
            simp [runVoid, voidCopy, Mem.get, h.get hj, concV, Res.as, hr.1, hr.2, Mem.set, put_put, hm]
          · rw [if_neg hr] at hs
            cases hs
            refine ⟨⟨Sum.put m.vars i (some ⟨false, some ⟨1, x⟩⟩), fun u => if u = 1 then m.made u + 1 else m.made u,
              m.gone⟩, ?_, h.put _ rfl (by intro k' x' e; cases e; omega) fun u _ => ?_⟩
            · simp only [runVoid, voidCopy, Mem.get, h.get hj, concV, Outcome.ok_bind, Res.as, if_neg hr, Mem.set,
                constructR, Outcome.pure_eq, Mem.make]
              simp [hr, put_put]
            · rw [hi, one_none, one_two ha (by omega)]
              dsimp only
              (repeat' split) <;> omega
  | move i j =>
    simp only [step] at hs
    cases hi : s i with
    | some v => simp [hi] at hs
    | none =>
      cases hj : s j with
      | none => simp [hi, hj] at hs
      | some v =>
        obtain ⟨k, x⟩ := v
        have hk := h.two _ _ _ hj
        simp only [hi, hj] at hs
        cases hs
        have hij : j ≠ i := by
          intro e
          rw [e, hi] at hj
          cases hj
        rw [put_comm _ _ _ hij]
        have h01 : k = 0 ∨ k = 1 := by omega
        rcases h01 with rfl | rfl
        · have h1 : RepR a concV (fun t => t = 1) ⟨Sum.put m.vars i (some ⟨true, none⟩), m.made, m.gone⟩
              (Sum.put s i (some (0, x))) := by
            refine h.put _ rfl (by intro k' x' e; cases e; omega) fun u hu => ?_
            rw [hi, one_none, one_two ha (by omega), if_neg (by omega)]
          have h2 := h1.same ha (i := j) (by rw [put_other _ _ hij, hj]) (a.moved x) rfl
          have e : Sum.put m.vars i (some ⟨true, none⟩) = Sum.put (Sum.put m.vars i (some ⟨true, none⟩)) j (some (concV (0, a.moved x))) := by
            have : some (concV (0, a.moved x)) = Sum.put m.vars i (some ⟨true, none⟩) j := by
              rw [put_other _ _ hij, h.get hj]
              rfl
            rw [this, put_self]
          refine ⟨_, ?_, h2⟩
          simp only [Mem.set, ← e]
          simp [runVoid, calm, voidMove, Mem.get, h.get hj, concV, Mem.set]
        · have h1 : RepR a concV (fun t => t = 1) ⟨Sum.put m.vars i (some ⟨false, some ⟨1, x⟩⟩),
              fun u => if u = 1 then m.made u + 1 else m.made u, m.gone⟩ (Sum.put s i (some (1, x))) := by
            refine h.put _ rfl (by intro k' x' e; cases e; omega) fun u hu => ?_
            rw [hi, one_none, one_two ha (by omega)]
            dsimp only
            (repeat' split) <;> omega
          refine ⟨_, ?_, h1.same ha (i := j) (by rw [put_other _ _ hij, hj]) (a.moved x) rfl⟩
          simp [runVoid, calm, voidMove, Mem.get, h.get hj, concV, Res.as, Mem.set, put_put, constructR, Mem.make, assignR,
            put_other _ _ hij]
  | assignCopy i j raise =>
    have hp : raise = false := hp
    subst hp
    simp only [step] at hs
    cases hi : s i with
    | none => simp [hi] at hs
    | some v =>
      cases hj : s j with
      | none => simp [hi, hj] at hs
      | some w =>
        obtain ⟨k, x⟩ := v
        obtain ⟨l, y⟩ := w
        have hk := h.two _ _ _ hi
        have hl := h.two _ _ _ hj
        have hs' : Sum.put s i (some (l, y)) = s' ∧ b = false := by
          by_cases e : k = l
          · simp [hi, hj, e] at hs
            exact ⟨hs.1, hs.2⟩
          · simp [hi, hj, e] at hs
            exact ⟨hs.1, hs.2⟩
        obtain ⟨rfl, rfl⟩ := hs'
        by_cases hij : i = j
        · subst hij
          rw [hi] at hj
          cases hj
          rw [← hi, put_self]
          exact ⟨m, by simp [runVoid, calm, voidAssign, Mem.get, h.get hi], h⟩
        · have h01 : (k = 0 ∧ l = 0) ∨ (k = 1 ∧ l = 1) ∨ (k = 0 ∧ l = 1) ∨ (k = 1 ∧ l = 0) := by omega
          rcases h01 with ⟨rfl, rfl⟩ | ⟨rfl, rfl⟩ | ⟨rfl, rfl⟩ | ⟨rfl, rfl⟩
          · have h2 := h.same ha hi y rfl
            have e : m.set i (some (concV (0, y))) = m := by
              have : some (concV (0, y)) = m.vars i := by
                rw [h.get hi]
                rfl
              rw [Mem.set, this, put_self]
            rw [e] at h2
            exact ⟨m, by simp [runVoid, calm, voidAssign, Mem.get, h.get hi, h.get hj, hij, concV], h2⟩
          · refine ⟨_, ?_, h.same ha hi y rfl⟩
            simp [runVoid, calm, voidAssign, Mem.get, h.get hi, h.get hj, hij, concV, Res.as, assignR]
          · refine ⟨⟨Sum.put m.vars i (some ⟨false, some ⟨1, y⟩⟩), fun u => if u = 1 then m.made u + 1 else m.made u,
              m.gone⟩, ?_, h.put _ rfl (by intro k' x' e; cases e; omega) fun u hu => ?_⟩
            · simp [runVoid, calm, voidAssign, Mem.get, h.get hi, h.get hj, hij, concV, Res.as, constructR, setHas, Mem.set,
                Mem.make, put_put]
            · rw [hi, one_two ha (by omega), one_two ha (by omega)]
              dsimp only
              (repeat' split) <;> omega
          · refine ⟨⟨Sum.put m.vars i (some ⟨true, none⟩), m.made, fun u => if u = 1 then m.gone u + 1 else m.gone u⟩, ?_,
              h.put _ rfl (by intro k' x' e; cases e; omega) fun u hu => ?_⟩
            · simp [runVoid, calm, voidAssign, Mem.get, h.get hi, h.get hj, hij, concV, Res.as, destroyR, setHas, Mem.set,
                Mem.lose, put_put]
            · rw [hi, one_two ha (by omega), one_two ha (by omega)]
              dsimp only
              (repeat' split) <;> omega
  | assignMove i j => exact absurd rfl (hm i j)
  | destroy i =>
    simp only [step] at hs
    cases hi : s i with
    | none => simp [hi] at hs
    | some v =>
      obtain ⟨k, x⟩ := v
      have hk := h.two _ _ _ hi
      simp [hi] at hs
      obtain ⟨rfl, rfl⟩ := hs
      have h01 : k = 0 ∨ k = 1 := by omega
      rcases h01 with rfl | rfl
      · refine ⟨⟨Sum.put m.vars i none, m.made, m.gone⟩, ?_, h.put none rfl (by intro k' x' e; cases e) fun u hu => ?_⟩
        · simp [runVoid, calm, voidDestruct, Mem.get, h.get hi, concV, Mem.set]
        · rw [hi, one_two ha (by omega), one_none, if_neg (by omega)]
      · refine ⟨⟨Sum.put m.vars i none, m.made, fun u => if u = 1 then m.gone u + 1 else m.gone u⟩, ?_,
          h.put none rfl (by intro k' x' e; cases e) fun u hu => ?_⟩
        · simp [runVoid, calm, voidDestruct, Mem.get, h.get hi, concV, Res.as, destroyR, Mem.set, Mem.lose, put_put]
        · rw [hi, one_two ha (by omega), one_none]
          dsimp only
          (repeat' split) <;> omega

end Bms.Sum
