import Verif.Lemmas.Run

/-!
# The machine computes with values of their types

A part of `Vm.Ok` that holds for programs of any length, and whatever the jumps do.
-/

namespace Bms

open Spec MapStack

/-- All values in the machine are values of their types. -/
structure Vm.ValuesOk (vm : Vm) : Prop where
  instrs : OperandsOk vm.instructions
  stack : ∀ v ∈ vm.stack, WF v
  frames : ∀ e ∈ vm.frames, e.key ≠ sentinelKey → WF e.value

theorem findLoop_key {k : Key} {d : List Entry} {i : Nat} (h : findLoop k d = some i) :
    ∃ e, d[i]? = some e ∧ e.key = k ∧ e.key ≠ sentinelKey := by
  induction d generalizing i with
  | nil => cases h
  | cons e es ih =>
    simp only [findLoop] at h
    split at h
    · cases h
    · split at h
      · rename_i h1 h2
        cases h
        exact ⟨e, rfl, h2.symm, h1⟩
      · rw [Option.map_eq_some_iff] at h
        obtain ⟨j, hj, rfl⟩ := h
        obtain ⟨x, hx, h⟩ := ih hj
        exact ⟨x, by simpa using hx, h⟩

theorem Vm.ValuesOk.setStack {vm : Vm} (h : vm.ValuesOk) {st : List CVal} (hst : ∀ v ∈ st, WF v)
    (pc : Nat) (cmp) : Vm.ValuesOk ⟨vm.instructions, vm.frames, st, pc, cmp⟩ :=
  ⟨h.instrs, hst, h.frames⟩

theorem exec_valuesOk {vm : Vm} {i : Instr} (hw : vm.ValuesOk) (hi : i ∈ vm.instructions) :
    (vm.exec i).1.ValuesOk := by
  have hio := hw.instrs i hi
  obtain ⟨is, fr, st, pc, cmp⟩ := vm
  obtain ⟨hin, hst, hfr⟩ := hw
  simp only at hin hst hfr hi
  have hself : Vm.ValuesOk ⟨is, fr, st, pc, cmp⟩ := ⟨hin, hst, hfr⟩
  have htail : ∀ {v s}, st = v :: s → ∀ u ∈ s, WF u := fun h u hu => hst u (by simp [h, hu])
  have hcons : ∀ {v : CVal} {s : List CVal}, WF v → (∀ u ∈ s, WF u) → ∀ u ∈ v :: s, WF u := by
    intro v s hv hs u hu
    cases hu with
    | head => exact hv
    | tail _ h => exact hs u h
  cases i with
  | load k =>
    simp only [Vm.exec, MapStack.lookup, find, if_neg (show k ≠ sentinelKey from hio),
      Outcome.map_ok]
    cases hf : findLoop k fr with
    | none => exact hself
    | some j =>
      obtain ⟨e, he, -, hs⟩ := findLoop_key hf
      simp only [Option.bind_some, he, Option.map_some]
      exact ⟨hin, hcons (hfr e (List.mem_of_getElem? he) hs) hst, hfr⟩
  | store k =>
    simp only [Vm.exec]
    cases st with
    | nil => exact hself
    | cons v s =>
      simp only
      cases h1 : (MapStack.assign fr k v : Outcome ExecErr _) with
      | ok d =>
        refine ⟨hin, htail rfl, fun e he hs => ?_⟩
        rcases assign_mem h1 e he with h | ⟨-, h⟩
        · exact hfr e h hs
        · rw [h]; exact hst v (by simp)
      | _ => exact ⟨hin, htail rfl, hfr⟩
  | push v => exact ⟨hin, hcons hio hst, hfr⟩
  | pop =>
    simp only [Vm.exec]
    cases st with
    | nil => exact hself
    | cons v s => exact ⟨hin, htail rfl, hfr⟩
  | jump o =>
    simp only [Vm.exec]
    split
    · exact hself
    · exact ⟨hin, hst, hfr⟩
  | jumpIf o b =>
    simp only [Vm.exec]
    cases st with
    | nil => exact hself
    | cons v s =>
      simp only
      split
      · exact ⟨hin, htail rfl, hfr⟩
      · split <;> exact ⟨hin, htail rfl, hfr⟩
  | ret =>
    simp only [Vm.exec]
    cases hp : popFrame fr with
    | none => exact hself
    | some x => exact ⟨hin, hst, fun e he => hfr e ((popFrame_mem hp).2 e he)⟩
  | convert t =>
    simp only [Vm.exec]
    cases st with
    | nil => exact hself
    | cons v s =>
      simp only
      cases he : evalConversion v t with
      | ok u => exact ⟨hin, hcons (C11_conversion_wf (hst v (by simp)) hio he).1 (htail rfl), hfr⟩
      | _ => exact ⟨hin, htail rfl, hfr⟩
  | unary op =>
    simp only [Vm.exec]
    cases st with
    | nil => exact hself
    | cons v s =>
      simp only
      cases he : evalUnary op v with
      | ok u => exact ⟨hin, hcons (C11_unary_wf (hst v (by simp)) he) (htail rfl), hfr⟩
      | _ => exact ⟨hin, htail rfl, hfr⟩
  | binary op =>
    simp only [Vm.exec]
    match st, hst, hself with
    | [], _, hself => exact hself
    | [_], _, hself => exact hself
    | y :: x :: s, hst, _ =>
      have hs : ∀ u ∈ s, WF u := fun u hu => hst u (by simp [hu])
      simp only
      cases he : evalBinary x op y with
      | ok u =>
        exact ⟨hin, hcons (C11_binary_wf (hst x (by simp)) (hst y (by simp)) he) hs, hfr⟩
      | _ => exact ⟨hin, hs, hfr⟩
  | call a =>
    simp only [Vm.exec]
    split
    · exact hself
    · refine ⟨hin, hst, fun e he hs => ?_⟩
      simp only [pushFrame, List.mem_cons] at he
      rcases he with rfl | he
      · exact absurd rfl hs
      · exact hfr e he hs
  | builtin f =>
    cases st with
    | nil => cases f; exact hself
    | cons v s =>
      have hlen : f.paramTypes.length = 1 := by cases f; rfl
      simp only [Vm.exec, hlen, List.length_cons, List.take_succ_cons, List.take_zero,
        List.reverse_cons, List.reverse_nil, List.nil_append, List.drop_succ_cons,
        List.drop_zero]
      rw [if_neg (by omega)]
      rcases evalBuiltin_one (f := f) (hst v (by simp)) with ⟨rfl, he⟩ | ⟨rfl, he⟩ | ⟨ht, he⟩ <;>
        rw [he]
      · exact ⟨hin, hcons (by decide) (htail rfl), hfr⟩
      · exact hself
      · exact hself
  | break_ => exact hself
  | continue_ => exact hself

theorem cycle_valuesOk {vm : Vm} (hw : vm.ValuesOk) : vm.cycle.1.ValuesOk := by
  unfold Vm.cycle
  cases hi : vm.instructions[vm.counter]? with
  | none => exact hw
  | some i =>
    have := exec_valuesOk hw (List.mem_of_getElem? hi)
    simp only
    split
    · rename_i vm' he
      rw [he] at this
      split <;> exact this
    · exact this

theorem run_valuesOk {n : Nat} : ∀ {vm vm' : Vm} {o : Outcome ExecErr Unit}, vm.ValuesOk →
    vm.run n = some (vm', o) → vm'.ValuesOk := by
  induction n with
  | zero => intro vm vm' o _ h; cases h
  | succ n ih =>
    intro vm vm' o hw h
    have hc := cycle_valuesOk hw
    simp only [Vm.run] at h
    split at h
    · rename_i v hv
      rw [hv] at hc
      exact ih hc h
    · rw [Option.some.injEq] at h
      rw [h] at hc
      exact hc

/-- A constant call of code with well-formed operands has a value of its type. -/
theorem constantCall_wf {code : List Instr} (hc : OperandsOk code) {a n : Nat} {vs : List CVal}
    (hvs : ∀ v ∈ vs, WF v) (ha : a < code.length) {v : CVal}
    (h : constantCall { Vm.initial with instructions := code } a vs n = some (.ok v)) : WF v := by
  rw [constantCall_eq (by exact ha), Option.map_eq_some_iff] at h
  obtain ⟨⟨vm', o⟩, hr, h⟩ := h
  have hok : (startCall { Vm.initial with instructions := code } a vs).ValuesOk :=
    ⟨hc, fun v hv => hvs v (by simpa [startCall] using hv), by simp [startCall]⟩
  have := run_valuesOk hok hr
  cases o with
  | err e =>
    simp only [endCall] at h
    split at h
    · cases h
    · split at h
      · cases h
      · simp only [Vm.popValue] at h
        cases hs : vm'.stack with
        | nil => rw [hs] at h; cases h
        | cons u s =>
          rw [hs] at h
          cases h
          exact this.stack _ (by simp [hs])
  | _ => cases h

end Bms
