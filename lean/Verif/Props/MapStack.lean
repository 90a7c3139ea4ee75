import Verif.Model.MapStack

/-!
# Property C25: variable storage is a stack of maps
-/

namespace Bms

open MapStack

namespace Spec

/-- Specification: a finite map from variables to values, as a function. -/
abbrev Frame := Key → Option CVal

/-- A frame without variables. -/
def Frame.empty : Frame := fun _ => none

/-- The map with one variable changed. -/
def Frame.set (f : Frame) (k : Key) (v : CVal) : Frame := fun k' => if k' = k then some v else f k'

/-- A stack of frames: the topmost frame, and below it the frames with the value that was given when
the frame above them was pushed. -/
structure Frames where
  top : Frame
  rest : List (CVal × Frame)

/-- The operations of `Linear_Map_Stack` with their arguments. -/
inductive MapOp where
  | find (k : Key)
  | emplace (k : Key) (v : CVal)
  | assign (k : Key) (v : CVal)
  | push (v : CVal)
  | pop
  | clear

/-- What an operation returns. -/
inductive MapObs where
  | unit
  | found (v : Option CVal)
  | inserted (b : Bool)
  | popped (v : Option CVal)

/-- The stack of maps that the operation should produce, and what it should return. -/
def Frames.apply (s : Frames) : MapOp → Frames × MapObs
  | .find k => (s, .found (s.top k))
  | .emplace k v =>
    if (s.top k).isSome then (s, .inserted false) else (⟨s.top.set k v, s.rest⟩, .inserted true)
  | .assign k v => (⟨s.top.set k v, s.rest⟩, .unit)
  | .push v => (⟨Frame.empty, (v, s.top) :: s.rest⟩, .unit)
  | .pop =>
    match s.rest with
    | [] => (s, .popped none)
    | (v, f) :: rest => (⟨f, rest⟩, .popped (some v))
  | .clear => (⟨Frame.empty, []⟩, .unit)

/-- The key of an operation is a variable, not the null pointer. -/
def MapOp.Valid : MapOp → Prop
  | .find k | .emplace k _ | .assign k _ => k ≠ sentinelKey
  | _ => True

end Spec

open Spec

/-- The operations of the data structure with what they return. -/
def MapStack.apply (d : List Entry) : MapOp → Outcome Empty (List Entry × MapObs)
  | .find k => (MapStack.lookup d k).map fun v => (d, .found v)
  | .emplace k v => (MapStack.emplace d k v).map fun r => (r.1, .inserted r.2)
  | .assign k v => (MapStack.assign d k v).map fun d' => (d', .unit)
  | .push v => .ok (pushFrame d v, .unit)
  | .pop =>
    match popFrame d with
    | none => .ok (d, .popped none)
    | some (v, d') => .ok (d', .popped (some v))
  | .clear => .ok (MapStack.clear d, .unit)

/-- The operations of a history, one after the other, with everything they return. -/
def MapStack.history (d : List Entry) : List MapOp → Outcome Empty (List Entry × List MapObs)
  | [] => .ok (d, [])
  | op :: ops => do
    let (d', o) ← MapStack.apply d op
    let (d'', os) ← MapStack.history d' ops
    .ok (d'', o :: os)

/-- The same for the specification. -/
def Spec.Frames.history (s : Frames) : List MapOp → Frames × List MapObs
  | [] => (s, [])
  | op :: ops => ((s.apply op).1.history ops |>.1, (s.apply op).2 :: ((s.apply op).1.history ops).2)

/-- The stack of maps that the entries represent. -/
def MapStack.frames : List Entry → Frames
  | [] => ⟨Frame.empty, []⟩
  | e :: es =>
    if e.key = sentinelKey then ⟨Frame.empty, (e.value, (frames es).top) :: (frames es).rest⟩
    else ⟨(frames es).top.set e.key e.value, (frames es).rest⟩

theorem MapStack.top_eq (d : List Entry) (k : Key) :
    (frames d).top k = (findLoop k d).bind fun i => d[i]?.map (·.value) := by
  induction d with
  | nil => rfl
  | cons e es ih =>
    simp only [frames, findLoop]
    split
    · rfl
    · simp only [Frame.set]
      split
      · simp
      · rw [ih]
        cases findLoop k es <;> simp

theorem MapStack.find_valid {d : List Entry} {k : Key} {i : Nat} (h : findLoop k d = some i) :
    ∃ e, d[i]? = some e := by
  induction d generalizing i with
  | nil => cases h
  | cons e es ih =>
    simp only [findLoop] at h
    split at h
    · cases h
    · split at h
      · cases h; exact ⟨e, rfl⟩
      · cases h' : findLoop k es with
        | none => rw [h'] at h; cases h
        | some j => rw [h'] at h; cases h; exact ih h'

theorem MapStack.frames_set {d : List Entry} {k : Key} {i : Nat} (v : CVal)
    (h : findLoop k d = some i) :
    frames (setValue d i v) = ⟨(frames d).top.set k v, (frames d).rest⟩ := by
  induction d generalizing i with
  | nil => cases h
  | cons e es ih =>
    simp only [findLoop] at h
    split at h
    · cases h
    · rename_i hs
      split at h
      · rename_i hk
        cases h
        simp only [setValue, frames, if_neg hs]
        congr 1
        funext k'
        simp only [Frame.set, hk]
        split <;> rfl
      · rename_i hk
        cases h' : findLoop k es with
        | none => rw [h'] at h; cases h
        | some j =>
          rw [h'] at h; cases h
          simp only [setValue, frames, if_neg hs, ih h']
          congr 1
          funext k'
          simp only [Frame.set]
          split
          · split
            · rename_i h1 h2; exact absurd (h2.symm.trans h1) hk
            · rfl
          · rfl

theorem MapStack.pop_eq (d : List Entry) :
    match popFrame d with
    | none => (frames d).rest = []
    | some (v, d') => (frames d).rest = (v, (frames d').top) :: (frames d').rest := by
  induction d with
  | nil => rfl
  | cons e es ih =>
    by_cases hs : e.key = sentinelKey
    · simp [popFrame, frames, hs]
    · simp only [popFrame, frames, if_neg hs]
      exact ih

/-- One operation refines the specification. -/
theorem MapStack.apply_refines (d : List Entry) (op : MapOp) (h : op.Valid) :
    ∃ d', MapStack.apply d op = .ok (d', ((frames d).apply op).2) ∧
      frames d' = ((frames d).apply op).1 := by
  cases op with
  | find k =>
    refine ⟨d, ?_, rfl⟩
    simp only [MapStack.apply, MapStack.lookup, find, if_neg (show k ≠ sentinelKey from h),
      Outcome.map_ok, Frames.apply, top_eq]
  | emplace k v =>
    simp only [MapStack.apply, MapStack.emplace, find, if_neg (show k ≠ sentinelKey from h),
      Frames.apply, top_eq, Outcome.ok_bind]
    cases hf : findLoop k d with
    | none =>
      refine ⟨⟨k, v⟩ :: d, by simp, ?_⟩
      simp only [frames, if_neg (show k ≠ sentinelKey from h)]
      simp
    | some i =>
      obtain ⟨e, he⟩ := find_valid hf
      exact ⟨d, by simp [he], by simp [he]⟩
  | assign k v =>
    simp only [MapStack.apply, MapStack.assign, find, if_neg (show k ≠ sentinelKey from h),
      Frames.apply, Outcome.ok_bind]
    cases hf : findLoop k d with
    | none =>
      refine ⟨⟨k, v⟩ :: d, by simp, ?_⟩
      simp only [frames, if_neg (show k ≠ sentinelKey from h)]
    | some i =>
      exact ⟨setValue d i v, by simp, frames_set v hf⟩
  | push v =>
    refine ⟨pushFrame d v, rfl, ?_⟩
    simp [pushFrame, frames, Frames.apply]
  | pop =>
    have := pop_eq d
    simp only [MapStack.apply, Frames.apply]
    cases hp : popFrame d with
    | none =>
      rw [hp] at this
      simp only at this
      simp [this]
    | some r =>
      rw [hp] at this
      simp only at this
      exact ⟨r.2, by simp [this], by simp [this]⟩
  | clear => exact ⟨[], rfl, rfl⟩

/-- **C25.** Every history of operations on an initially empty `Linear_Map_Stack` returns what a
stack of maps returns. -/
theorem C25_stack_of_maps (ops : List MapOp) (h : ∀ op ∈ ops, op.Valid) :
    ∃ d, MapStack.history [] ops = .ok (d, ((Frames.mk Frame.empty []).history ops).2) := by
  have key : ∀ (ops : List MapOp) (d : List Entry), (∀ op ∈ ops, op.Valid) →
      ∃ d', MapStack.history d ops = .ok (d', ((frames d).history ops).2) := by
    intro ops
    induction ops with
    | nil => intro d _; exact ⟨d, rfl⟩
    | cons op ops ih =>
      intro d h
      obtain ⟨d', h1, h2⟩ := MapStack.apply_refines d op (h op (by simp))
      obtain ⟨d'', h3⟩ := ih d' fun o ho => h o (by simp [ho])
      refine ⟨d'', ?_⟩
      simp only [MapStack.history, h1, Outcome.ok_bind, h3, Frames.history, h2]
  exact key ops [] h

/-- **C25, null pointer.** Looking up or changing the null pointer throws. -/
theorem C25_null_throws (d : List Entry) (v : CVal) :
    (MapStack.lookup d sentinelKey : Outcome Empty _) = .throws ∧
    (MapStack.assign d sentinelKey v : Outcome Empty _) = .throws ∧
    (MapStack.emplace d sentinelKey v : Outcome Empty _) = .throws :=
  ⟨rfl, rfl, rfl⟩

/-- **C25, consequences on the concrete entries**: what was assigned is found, other variables of
the frame are not affected, and pushing and popping a frame restores the entries exactly, whatever
was assigned in between. -/
theorem C25_assign_find {d d' : List Entry} {k : Key} {v : CVal}
    (h : (MapStack.assign d k v : Outcome Empty _) = .ok d') :
    (MapStack.lookup d' k : Outcome Empty _) = .ok (some v) ∧
    (∀ k', k' ≠ k → k' ≠ sentinelKey →
      (MapStack.lookup d' k' : Outcome Empty _) = MapStack.lookup d k') ∧
    popFrame d' = popFrame d := by
  by_cases hk : k = sentinelKey
  · subst hk; cases h
  · obtain ⟨e, h1, h2⟩ := MapStack.apply_refines d (.assign k v) hk
    simp only [MapStack.apply, h, Outcome.map_ok] at h1
    simp only [Outcome.ok.injEq, Prod.mk.injEq] at h1
    obtain ⟨rfl, -⟩ := h1
    have look : ∀ (d : List Entry) k, k ≠ sentinelKey →
        (MapStack.lookup d k : Outcome Empty _) = .ok ((frames d).top k) := by
      intro d k hk
      simp only [MapStack.lookup, find, if_neg hk, Outcome.map_ok, top_eq]
    refine ⟨?_, fun k' h' hs => ?_, ?_⟩
    · rw [look _ _ hk, h2]; simp [Frames.apply, Frame.set]
    · rw [look _ _ hs, look _ _ hs, h2]; simp [Frames.apply, Frame.set, h']
    · have pset : ∀ (d : List Entry) i, findLoop k d = some i →
          popFrame (setValue d i v) = popFrame d := by
        intro d
        induction d with
        | nil => intro i _; rfl
        | cons e es ih =>
          intro i h
          simp only [findLoop] at h
          split at h
          · cases h
          · rename_i hs
            split at h
            · cases h; simp [setValue, popFrame, hs]
            · cases h' : findLoop k es with
              | none => rw [h'] at h; cases h
              | some j => rw [h'] at h; cases h; simp [setValue, popFrame, hs, ih j h']
      simp only [MapStack.assign, find, if_neg hk, Outcome.ok_bind] at h
      cases hf : findLoop k d with
      | none => rw [hf] at h; cases h; simp [popFrame, hk]
      | some i => rw [hf] at h; cases h; exact pset d i hf

/-- Operations that do not touch the frame structure. -/
def Spec.MapOp.Local : MapOp → Prop
  | .find _ | .emplace _ _ | .assign _ _ => True
  | _ => False

/-- **C25, frames.** After pushing a frame and any number of local operations, popping it returns the
value it was pushed with and the exact entries from before. -/
theorem C25_push_pop (d : List Entry) (v : CVal) (ops : List MapOp) (h : ∀ op ∈ ops, op.Local)
    {d' : List Entry} {os : List MapObs}
    (hh : MapStack.history (pushFrame d v) ops = .ok (d', os)) :
    popFrame d' = some (v, d) := by
  have key : ∀ (ops : List MapOp) (e : List Entry), (∀ op ∈ ops, op.Local) →
      ∀ d' os, MapStack.history e ops = .ok (d', os) → popFrame d' = popFrame e := by
    intro ops
    induction ops with
    | nil => intro e _ d' os h; cases h; rfl
    | cons op ops ih =>
      intro e hl d' os h
      simp only [MapStack.history] at h
      obtain ⟨⟨e', o⟩, h1, h2⟩ := Outcome.bind_eq_ok.1 h
      obtain ⟨⟨e'', os'⟩, h3, h4⟩ := Outcome.bind_eq_ok.1 h2
      simp only [Outcome.ok.injEq, Prod.mk.injEq] at h4
      obtain ⟨rfl, -⟩ := h4
      rw [ih e' (fun o ho => hl o (by simp [ho])) _ _ h3]
      have hop := hl op (by simp)
      cases op with
      | find k =>
        simp only [MapStack.apply] at h1
        cases h' : (MapStack.lookup e k : Outcome Empty _) <;> rw [h'] at h1 <;> cases h1
        rfl
      | emplace k v =>
        simp only [MapStack.apply, MapStack.emplace] at h1
        by_cases hk : k = sentinelKey
        · simp [find, hk] at h1
        · simp only [find, if_neg hk, Outcome.ok_bind] at h1
          cases hf : findLoop k e with
          | none => rw [hf] at h1; cases h1; simp [popFrame, hk]
          | some i => rw [hf] at h1; cases h1; rfl
      | assign k v =>
        simp only [MapStack.apply] at h1
        cases h' : (MapStack.assign e k v : Outcome Empty _) <;> rw [h'] at h1 <;> cases h1
        exact (C25_assign_find h').2.2
      | push _ => exact absurd hop id
      | pop => exact absurd hop id
      | clear => exact absurd hop id
  rw [key ops _ h _ _ hh]
  simp [pushFrame, popFrame]

example :
    (MapStack.history [] [.assign 1 CVal.tt, .push (CVal.ofInt 7), .find 1, .assign 1 CVal.ff,
      .emplace 1 CVal.tt, .find 1, .pop, .find 1, .pop]).map (·.1) = .ok [⟨1, CVal.tt⟩] := by
  decide

end Bms
