import Verif.Spec.Vm
import Verif.Props.Typing

/-!
# Properties C26, C27: the virtual machine
-/

namespace Bms

open Spec MapStack

namespace Vm

/-- The configuration that the state of the machine represents. -/
def config (vm : Vm) : Config := ⟨MapStack.frames vm.frames, vm.stack, vm.counter⟩

/-- A well-formed entry: a variable with a well-formed value, or a return address in the program
(or directly behind it). -/
def EntryOk (size : Nat) (e : Entry) : Prop :=
  if e.key = sentinelKey then ∃ a : Nat, a ≤ size ∧ e.value = CVal.ofInt a else WF e.value

/-- Well-formed states of the machine: well-formed instructions and values, and a program of
realistic size. -/
structure Ok (vm : Vm) : Prop where
  size : vm.instructions.length < 2 ^ 63
  instrs : ∀ i ∈ vm.instructions, InstrOk i
  stack : ∀ v ∈ vm.stack, WF v
  frames : ∀ e ∈ vm.frames, EntryOk vm.instructions.length e

end Vm

theorem wf_bool {v : CVal} (h : WF v) (ht : v.type = .bool) : v = CVal.ofBool (decide (v.int ≠ 0)) := by
  obtain ⟨t, x⟩ := v
  cases ht
  obtain ⟨-, h⟩ := h
  rcases h with h | h <;> simp only at h <;> subst h <;> rfl

theorem toSize_nat {n : Nat} (h : n < 2 ^ 64) : Vm.toSize n = n := by
  simp only [Vm.toSize]
  omega

theorem toSize_neg {x : Int} (h : x < 0) (h' : -2 ^ 63 ≤ x) : 2 ^ 63 ≤ Vm.toSize x := by
  simp only [Vm.toSize]
  omega

theorem popFrame_frames {d d' : List Entry} {v : CVal} (h : popFrame d = some (v, d')) :
    MapStack.frames d = ⟨(MapStack.frames d).top, (v, (MapStack.frames d').top) :: (MapStack.frames d').rest⟩ := by
  have := MapStack.pop_eq d
  rw [h] at this
  simp only at this
  rw [← this]

theorem popFrame_mem {d d' : List Entry} {v : CVal} (h : popFrame d = some (v, d')) :
    (⟨sentinelKey, v⟩ ∈ d) ∧ ∀ e ∈ d', e ∈ d := by
  induction d with
  | nil => cases h
  | cons e es ih =>
    simp only [popFrame] at h
    split at h
    · rename_i hk
      cases h
      refine ⟨?_, fun e' he => by simp [he]⟩
      rw [← hk]
      simp
    · have := ih h
      exact ⟨by simp [this.1], fun e' he => by simp [this.2 e' he]⟩

theorem lookup_frames {ε : Type} (d : List Entry) {k : Key} (hk : k ≠ sentinelKey) :
    (MapStack.lookup d k : Outcome ε _) = .ok ((MapStack.frames d).top k) := by
  simp only [MapStack.lookup, find, if_neg hk, Outcome.map_ok, MapStack.top_eq]

theorem assign_frames {ε : Type} (d : List Entry) {k : Key} (hk : k ≠ sentinelKey) (v : CVal) :
    ∃ d', (MapStack.assign d k v : Outcome ε _) = .ok d' ∧
      MapStack.frames d' = ⟨(MapStack.frames d).top.set k v, (MapStack.frames d).rest⟩ := by
  simp only [MapStack.assign, find, if_neg hk, Outcome.ok_bind]
  cases hf : findLoop k d with
  | none =>
    exact ⟨⟨k, v⟩ :: d, rfl, by simp only [MapStack.frames, if_neg hk]⟩
  | some i => exact ⟨setValue d i v, rfl, MapStack.frames_set v hf⟩

theorem assign_mem {ε : Type} {d d' : List Entry} {k : Key} {v : CVal}
    (h : (MapStack.assign d k v : Outcome ε _) = .ok d') :
    ∀ e ∈ d', e ∈ d ∨ (e.key ≠ sentinelKey ∧ e.value = v) := by
  have hset : ∀ (d : List Entry) i, findLoop k d = some i →
      ∀ e ∈ setValue d i v, e ∈ d ∨ (e.key ≠ sentinelKey ∧ e.value = v) := by
    intro d
    induction d with
    | nil => intro i _ e he; cases he
    | cons x xs ih =>
      intro i h e he
      simp only [findLoop] at h
      split at h
      · cases h
      · rename_i hs
        split at h
        · cases h
          simp only [setValue, List.mem_cons] at he
          rcases he with rfl | he
          · exact .inr ⟨hs, rfl⟩
          · exact .inl (by simp [he])
        · cases h' : findLoop k xs with
          | none => rw [h'] at h; cases h
          | some j =>
            rw [h'] at h; cases h
            simp only [setValue, List.mem_cons] at he
            rcases he with rfl | he
            · exact .inl (by simp)
            · rcases ih j h' e he with h | h
              · exact .inl (by simp [h])
              · exact .inr h
  by_cases hk : k = sentinelKey
  · simp [MapStack.assign, find, hk] at h
  · simp only [MapStack.assign, find, if_neg hk, Outcome.ok_bind] at h
    cases hf : findLoop k d with
    | none =>
      rw [hf] at h; cases h
      intro e he
      simp only [List.mem_cons] at he
      rcases he with rfl | he
      · exact .inr ⟨hk, rfl⟩
      · exact .inl he
    | some i => rw [hf] at h; cases h; exact hset d i hf

/-- What a machine step may do, in terms of the specification. -/
def StepSpec (vm vm' : Vm) (i : Instr) : Outcome ExecErr Unit → Prop
  | .ok () =>
    Does vm.instructions.length i vm.config vm'.config ∨
      (Escapes i vm.config ∧ vm'.instructions[vm'.counter]? = none)
  | .err e => Fails vm.instructions.length i vm.config e
  | .throws => Evaluates i vm.config .throws
  | .ub => Evaluates i vm.config .ub

theorem evalBuiltin_one {f : Builtin} {v : CVal} (hv : WF v) :
    (v = CVal.tt ∧ evalBuiltin f [v] = .ok CVal.void) ∨
    (v = CVal.ff ∧ evalBuiltin f [v] = .err .assertion_fail) ∨
    (v.type ≠ .bool ∧ evalBuiltin f [v] = .err .type_error) := by
  cases f
  by_cases ht : v.type = .bool
  · rw [wf_bool hv ht]
    cases decide (v.int ≠ 0)
    · exact .inr (.inl ⟨rfl, by decide⟩)
    · exact .inl ⟨rfl, by decide⟩
  · refine .inr (.inr ⟨ht, ?_⟩)
    simp [evalBuiltin, checkBuiltin, Builtin.paramTypes, ht]

theorem exec_spec {vm vm' : Vm} {i : Instr} {r : Outcome ExecErr Unit} (hw : vm.Ok)
    (hi : vm.instructions[vm.counter]? = some i) (h : vm.exec i = (vm', r)) :
    vm'.instructions = vm.instructions ∧ StepSpec vm vm' i r := by
  have hmem : i ∈ vm.instructions := List.mem_of_getElem? hi
  have hio := hw.instrs i hmem
  have hlt : vm.counter < vm.instructions.length := by
    obtain ⟨h, -⟩ := List.getElem?_eq_some_iff.1 hi; exact h
  have hsz := hw.size
  have hout : ∀ n, vm.instructions.length ≤ n → vm.instructions[n]? = none :=
    fun n hn => List.getElem?_eq_none hn
  obtain ⟨is, fr, st, pc, cmp⟩ := vm
  simp only at *
  cases i with
  | load k =>
    simp only [Vm.exec, lookup_frames fr (show k ≠ sentinelKey from hio)] at h
    cases hv : (MapStack.frames fr).top k with
    | none => rw [hv] at h; cases h; exact ⟨rfl, .uninitialized hv⟩
    | some v => rw [hv] at h; cases h; exact ⟨rfl, .inl (.load hv)⟩
  | store k =>
    simp only [Vm.exec] at h
    cases st with
    | nil => cases h; exact ⟨rfl, .storeEmpty⟩
    | cons v s =>
      obtain ⟨d', h1, h2⟩ := assign_frames (ε := ExecErr) fr (show k ≠ sentinelKey from hio) v
      simp only [h1] at h
      cases h
      refine ⟨rfl, .inl ?_⟩
      simp only [Vm.config, h2]
      exact .store
  | push v => cases h; exact ⟨rfl, .inl .push⟩
  | pop =>
    simp only [Vm.exec] at h
    cases st with
    | nil => cases h; exact ⟨rfl, .popEmpty⟩
    | cons v s => cases h; exact ⟨rfl, .inl .pop⟩
  | jump o =>
    simp only [Vm.exec, Vm.target] at h
    by_cases hc : (pc : Int) + o + 1 ≥ is.length
    · rw [if_pos hc] at h
      cases h; exact ⟨rfl, .jump (by omega)⟩
    · rw [if_neg hc] at h
      cases h
      refine ⟨rfl, ?_⟩
      by_cases hneg : (pc : Int) + o + 1 < 0
      · have := toSize_neg hneg (by have : -2 ^ 62 ≤ o := hio; omega)
        exact .inr ⟨.jump hneg, hout _ (by simp only; omega)⟩
      · obtain ⟨t, ht⟩ := Int.eq_ofNat_of_zero_le (show 0 ≤ (pc : Int) + o + 1 by omega)
        rw [ht, toSize_nat (by omega)]
        exact .inl (.jump ht.symm (show t < is.length by omega))
  | jumpIf o b =>
    simp only [Vm.exec, Vm.target] at h
    cases st with
    | nil => cases h; exact ⟨rfl, .jumpIfEmpty⟩
    | cons v s =>
      simp only at h
      split at h
      · cases h; exact ⟨rfl, .notBool ‹_›⟩
      · rename_i ht
        simp only [ne_eq, Decidable.not_not] at ht
        by_cases hle : (pc : Int) + o + 1 ≥ is.length
        · rw [if_pos hle] at h
          cases h; exact ⟨rfl, .jumpIf ht (by omega)⟩
        · rw [if_neg hle] at h
          cases h
          refine ⟨rfl, ?_⟩
          have hv := wf_bool (hw.stack v (by simp)) ht
          by_cases hb : b = decide (v.int ≠ 0)
          · simp only [if_pos hb]
            rw [← hb] at hv
            subst hv
            by_cases hneg : (pc : Int) + o + 1 < 0
            · have := toSize_neg hneg (by have : -2 ^ 62 ≤ o := hio; omega)
              exact .inr ⟨.jumpIf rfl hneg, hout _ (by simp only; omega)⟩
            · obtain ⟨t, ht⟩ := Int.eq_ofNat_of_zero_le (show 0 ≤ (pc : Int) + o + 1 by omega)
              rw [ht, toSize_nat (by omega)]
              exact .inl (.taken rfl ht.symm (show t < is.length by omega))
          · simp only [if_neg hb]
            have hb' : decide (v.int ≠ 0) = !b := by
              cases b <;> cases hd : decide (v.int ≠ 0) <;> simp [hd] at hb ⊢
            rw [hb'] at hv
            subst hv
            have : (pc : Int) + 0 + 1 = ((pc + 1 : Nat) : Int) := by omega
            rw [this, toSize_nat (by omega)]
            exact .inl (.notTaken rfl (show (pc : Int) + o + 1 < is.length by omega))
  | break_ => cases h; exact ⟨rfl, .breaks⟩
  | continue_ => cases h; exact ⟨rfl, .continues⟩
  | ret =>
    simp only [Vm.exec] at h
    have hp := MapStack.pop_eq fr
    cases hf : popFrame fr with
    | none =>
      rw [hf] at h hp
      simp only at h hp
      cases h
      refine ⟨rfl, ?_⟩
      have : MapStack.frames fr = ⟨(MapStack.frames fr).top, []⟩ := by rw [← hp]
      simp only [StepSpec, Vm.config]
      rw [this]
      exact .ret
    | some x =>
      obtain ⟨v, d⟩ := x
      rw [hf] at h
      simp only at h
      cases h
      refine ⟨rfl, .inl ?_⟩
      have he := hw.frames _ (popFrame_mem hf).1
      simp only [Vm.EntryOk, if_pos] at he
      obtain ⟨a, ha, rfl⟩ := he
      simp only [Vm.config]
      rw [popFrame_frames hf]
      simp only [CVal.ofInt]
      rw [toSize_nat (by omega)]
      exact .ret
  | convert t =>
    simp only [Vm.exec] at h
    cases st with
    | nil => cases h; exact ⟨rfl, .convertEmpty⟩
    | cons v s =>
      simp only at h
      cases he : evalConversion v t <;> rw [he] at h <;> cases h <;> refine ⟨rfl, ?_⟩
      · exact .inl (.convert he)
      · exact .convert he
      · have := @Evaluates.convert t v (MapStack.frames fr) s pc; rw [he] at this; exact this
      · have := @Evaluates.convert t v (MapStack.frames fr) s pc; rw [he] at this; exact this
  | unary op =>
    simp only [Vm.exec] at h
    cases st with
    | nil => cases h; exact ⟨rfl, .unaryEmpty⟩
    | cons v s =>
      simp only at h
      cases he : evalUnary op v <;> rw [he] at h <;> cases h <;> refine ⟨rfl, ?_⟩
      · exact .inl (.unary he)
      · exact .unary he
      · have := @Evaluates.unary op v (MapStack.frames fr) s pc; rw [he] at this; exact this
      · have := @Evaluates.unary op v (MapStack.frames fr) s pc; rw [he] at this; exact this
  | binary op =>
    simp only [Vm.exec] at h
    match st, h with
    | [], h => cases h; exact ⟨rfl, .binaryEmpty (by simp)⟩
    | [_], h => cases h; exact ⟨rfl, .binaryEmpty (by simp)⟩
    | y :: x :: s, h =>
      simp only at h
      cases he : evalBinary x op y <;> rw [he] at h <;> cases h <;> refine ⟨rfl, ?_⟩
      · exact .inl (.binary he)
      · exact .binary he
      · have := @Evaluates.binary op x y (MapStack.frames fr) s pc; rw [he] at this; exact this
      · have := @Evaluates.binary op x y (MapStack.frames fr) s pc; rw [he] at this; exact this
  | call a =>
    simp only [Vm.exec] at h
    split at h
    · cases h; exact ⟨rfl, .call (by omega)⟩
    · cases h
      refine ⟨rfl, .inl ?_⟩
      simp only [Vm.config, pushFrame, MapStack.frames, if_pos]
      exact .call (by omega)
  | builtin f =>
    cases st with
    | nil => cases f; cases h; exact ⟨rfl, .builtinEmpty⟩
    | cons v s =>
      have hlen : f.paramTypes.length = 1 := by cases f; rfl
      simp only [Vm.exec, hlen, List.length_cons, List.take_succ_cons, List.take_zero,
        List.reverse_cons, List.reverse_nil, List.nil_append, List.drop_succ_cons,
        List.drop_zero] at h
      rw [if_neg (by omega)] at h
      rcases evalBuiltin_one (f := f) (hw.stack v (by simp)) with ⟨rfl, he⟩ | ⟨rfl, he⟩ | ⟨ht, he⟩ <;>
        rw [he] at h <;> cases h <;> refine ⟨rfl, ?_⟩ <;> cases f
      · exact .inl (.assert rfl)
      · exact .assertFalse rfl
      · exact .assertType ht


/-! ### Well-formed states stay well-formed -/

theorem ofInt_wf {a : Nat} (h : a ≤ 2 ^ 63) : WF (CVal.ofInt a) := by
  refine ⟨trivial, ?_⟩
  show InI128 (a : Int)
  simp only [InI128]
  omega

theorem exec_ok {vm vm' : Vm} {i : Instr} (hw : vm.Ok)
    (hi : vm.instructions[vm.counter]? = some i) (h : vm.exec i = (vm', .ok ())) : vm'.Ok := by
  have hio := hw.instrs i (List.mem_of_getElem? hi)
  have hlt : vm.counter < vm.instructions.length := by
    obtain ⟨h, -⟩ := List.getElem?_eq_some_iff.1 hi; exact h
  have hins := (exec_spec hw hi h).1
  obtain ⟨hs, hin, hst, hfr⟩ := hw
  refine ⟨hins ▸ hs, hins ▸ hin, ?_, ?_⟩
  · obtain ⟨is, fr, st, pc, cmp⟩ := vm
    simp only at *
    cases i with
    | load k =>
      simp only [Vm.exec, lookup_frames fr (show k ≠ sentinelKey from hio)] at h
      cases hv : (MapStack.frames fr).top k with
      | none => rw [hv] at h; cases h
      | some v =>
        rw [hv] at h; cases h
        intro u hu
        simp only [List.mem_cons] at hu
        rcases hu with rfl | hu
        · rw [MapStack.top_eq] at hv
          cases hf : findLoop k fr with
          | none => rw [hf] at hv; cases hv
          | some j =>
            rw [hf] at hv
            simp only [Option.bind_some, Option.map_eq_some_iff] at hv
            obtain ⟨e, he, rfl⟩ := hv
            have := hfr e (List.mem_of_getElem? he)
            simp only [Vm.EntryOk] at this
            split at this
            · obtain ⟨a, ha, hv⟩ := this
              rw [hv]; exact ofInt_wf (by omega)
            · exact this
        · exact hst u hu
    | store k =>
      simp only [Vm.exec] at h
      cases st with
      | nil => cases h
      | cons v s =>
        obtain ⟨d', h1, h2⟩ := assign_frames (ε := ExecErr) fr (show k ≠ sentinelKey from hio) v
        simp only [h1] at h
        cases h
        exact fun u hu => hst u (by simp [hu])
    | push v =>
      cases h
      intro u hu
      simp only [List.mem_cons] at hu
      rcases hu with rfl | hu
      · exact hio
      · exact hst u hu
    | pop =>
      simp only [Vm.exec] at h
      cases st with
      | nil => cases h
      | cons v s => cases h; exact fun u hu => hst u (by simp [hu])
    | jump o =>
      simp only [Vm.exec] at h
      split at h <;> cases h
      exact hst
    | jumpIf o b =>
      simp only [Vm.exec] at h
      cases st with
      | nil => cases h
      | cons v s =>
        simp only at h
        split at h
        · cases h
        · split at h <;> cases h
          exact fun u hu => hst u (by simp [hu])
    | break_ => cases h
    | continue_ => cases h
    | ret =>
      simp only [Vm.exec] at h
      split at h <;> cases h
      exact hst
    | convert t =>
      simp only [Vm.exec] at h
      cases st with
      | nil => cases h
      | cons v s =>
        simp only at h
        cases he : evalConversion v t <;> rw [he] at h <;> cases h
        intro u hu
        simp only [List.mem_cons] at hu
        rcases hu with rfl | hu
        · exact (C11_conversion_wf (hst v (by simp)) hio he).1
        · exact hst u (by simp [hu])
    | unary op =>
      simp only [Vm.exec] at h
      cases st with
      | nil => cases h
      | cons v s =>
        simp only at h
        cases he : evalUnary op v <;> rw [he] at h <;> cases h
        intro u hu
        simp only [List.mem_cons] at hu
        rcases hu with rfl | hu
        · exact C11_unary_wf (hst v (by simp)) he
        · exact hst u (by simp [hu])
    | binary op =>
      simp only [Vm.exec] at h
      match st, h, hst with
      | [], h, _ => cases h
      | [_], h, _ => cases h
      | y :: x :: s, h, hst =>
        simp only at h
        cases he : evalBinary x op y <;> rw [he] at h <;> cases h
        intro u hu
        simp only [List.mem_cons] at hu
        rcases hu with rfl | hu
        · exact C11_binary_wf (hst x (by simp)) (hst y (by simp)) he
        · exact hst u (by simp [hu])
    | call a =>
      simp only [Vm.exec] at h
      split at h <;> cases h
      exact hst
    | builtin f =>
      cases st with
      | nil => cases f; cases h
      | cons v s =>
        have hlen : f.paramTypes.length = 1 := by cases f; rfl
        simp only [Vm.exec, hlen, List.length_cons, List.take_succ_cons, List.take_zero,
          List.reverse_cons, List.reverse_nil, List.nil_append, List.drop_succ_cons,
          List.drop_zero] at h
        rw [if_neg (by omega)] at h
        rcases evalBuiltin_one (f := f) (hst v (by simp)) with ⟨rfl, he⟩ | ⟨rfl, he⟩ | ⟨ht, he⟩ <;>
          rw [he] at h <;> cases h
        intro u hu
        simp only [List.mem_cons] at hu
        rcases hu with rfl | hu
        · decide
        · exact hst u (by simp [hu])
  · rw [hins]
    obtain ⟨is, fr, st, pc, cmp⟩ := vm
    simp only at *
    have same : ∀ {g : List Entry}, g = fr → ∀ e ∈ g, Vm.EntryOk is.length e :=
      fun hg => by subst hg; exact hfr
    cases i with
    | store k =>
      simp only [Vm.exec] at h
      cases st with
      | nil => cases h
      | cons v s =>
        obtain ⟨d', h1, h2⟩ := assign_frames (ε := ExecErr) fr (show k ≠ sentinelKey from hio) v
        simp only [h1] at h
        cases h
        intro e he
        rcases assign_mem h1 e he with h | ⟨h, h'⟩
        · exact hfr e h
        · simp only [Vm.EntryOk, if_neg h, h']
          exact hst v (by simp)
    | ret =>
      simp only [Vm.exec] at h
      cases hf : popFrame fr with
      | none => rw [hf] at h; cases h
      | some x =>
        obtain ⟨v, d⟩ := x
        rw [hf] at h
        cases h
        exact fun e he => hfr e ((popFrame_mem hf).2 e he)
    | call a =>
      simp only [Vm.exec] at h
      split at h <;> cases h
      intro e he
      simp only [pushFrame, List.mem_cons] at he
      rcases he with rfl | he
      · simp only [Vm.EntryOk, if_pos]
        exact ⟨pc + 1, by omega, rfl⟩
      · exact hfr e he
    | load k =>
      simp only [Vm.exec, lookup_frames fr (show k ≠ sentinelKey from hio)] at h
      cases hv : (MapStack.frames fr).top k <;> rw [hv] at h <;> cases h
      exact hfr
    | push v => cases h; exact hfr
    | pop =>
      simp only [Vm.exec] at h
      split at h <;> cases h
      exact hfr
    | jump o =>
      simp only [Vm.exec] at h
      split at h <;> cases h
      exact hfr
    | jumpIf o b =>
      simp only [Vm.exec] at h
      cases st with
      | nil => cases h
      | cons v s =>
        simp only at h
        split at h
        · cases h
        · split at h <;> cases h
          exact hfr
    | break_ => cases h
    | continue_ => cases h
    | convert t =>
      simp only [Vm.exec] at h
      cases st with
      | nil => cases h
      | cons v s =>
        simp only at h
        cases he : evalConversion v t <;> rw [he] at h <;> cases h
        exact hfr
    | unary op =>
      simp only [Vm.exec] at h
      cases st with
      | nil => cases h
      | cons v s =>
        simp only at h
        cases he : evalUnary op v <;> rw [he] at h <;> cases h
        exact hfr
    | binary op =>
      simp only [Vm.exec] at h
      match st, h with
      | [], h => cases h
      | [_], h => cases h
      | y :: x :: s, h =>
        simp only at h
        cases he : evalBinary x op y <;> rw [he] at h <;> cases h
        exact hfr
    | builtin f =>
      simp only [Vm.exec] at h
      split at h
      · cases h
      · split at h <;> cases h
        exact hfr

/-! ### C26 -/

theorem ofBool_ne (b : Bool) : CVal.ofBool b ≠ CVal.ofBool (!b) := by cases b <;> decide

theorem ofBool_ne' (b : Bool) : CVal.ofBool (!b) ≠ CVal.ofBool b := by cases b <;> decide

theorem tt_type : CVal.tt.type = .bool := rfl

theorem ff_type : CVal.ff.type = .bool := rfl

theorem tt_ne_ff : CVal.tt ≠ CVal.ff := by decide

/-- The specification is deterministic: an instruction has at most one effect, and no effect if it
fails or escapes. -/
theorem Does.unique {n : Nat} {i : Instr} {c c' c'' : Config} (h : Does n i c c')
    (h' : Does n i c c'') : c' = c'' := by
  cases h <;> cases h' <;> simp_all [ofBool_ne, ofBool_ne'] <;> omega

theorem Does.not_fails {n : Nat} {i : Instr} {c c' : Config} {e : ExecErr} (h : Does n i c c') :
    ¬ Fails n i c e := by
  intro h'
  cases h <;> cases h' <;> first | omega | (simp_all [tt_type, tt_ne_ff.symm, CVal.ofBool] <;> omega)

theorem Does.not_escapes {n : Nat} {i : Instr} {c c' : Config} (h : Does n i c c') :
    ¬ Escapes i c := by
  intro h'
  cases h <;> cases h' <;> first | omega | simp_all [ofBool_ne]

theorem Fails.unique {n : Nat} {i : Instr} {c : Config} {e e' : ExecErr} (h : Fails n i c e)
    (h' : Fails n i c e') : e = e' := by
  cases h <;> cases h' <;> first | rfl | (simp_all [ff_type] <;> omega)

theorem Fails.not_escapes {n : Nat} {i : Instr} {c : Config} {e : ExecErr} (h : Fails n i c e) :
    ¬ Escapes i c := by
  intro h'
  cases h <;> cases h' <;> first | omega | simp_all [CVal.ofBool]

theorem exec_err_frames {vm vm' : Vm} {i : Instr} {e : ExecErr} (h : vm.exec i = (vm', .err e)) :
    vm'.frames = vm.frames := by
  cases i <;> simp only [Vm.exec] at h <;> repeat' split at h
  all_goals first | (cases h; rfl) | cases h

theorem exec_instructions {vm vm' : Vm} {i : Instr} {r : Outcome ExecErr Unit}
    (h : vm.exec i = (vm', r)) : vm'.instructions = vm.instructions := by
  cases i <;> simp only [Vm.exec] at h <;> repeat' split at h
  all_goals first | (cases h; rfl) | cases h

/-- **C26.** The program never changes, in whatever state the machine is. -/
theorem C26_program_unchanged (vm : Vm) : vm.cycle.1.instructions = vm.instructions := by
  simp only [Vm.cycle]
  split
  · rfl
  · rename_i i _
    cases he : vm.exec i with
    | mk v o =>
      have := exec_instructions he
      cases o with
      | ok u =>
        simp only
        split <;> exact this
      | _ => exact this

theorem steps_instructions {vm vm' : Vm} {n : Nat} (h : vm.steps n = some vm') :
    vm'.instructions = vm.instructions := by
  induction n generalizing vm with
  | zero => cases h; rfl
  | succ n ih =>
    simp only [Vm.steps] at h
    split at h
    · rename_i v hc
      have := C26_program_unchanged vm
      rw [hc] at this
      rw [ih h, ← this]
    · cases h

/-- **C26.** One cycle of the machine, in any well-formed state: it throws if the counter is outside
the program; otherwise the program is unchanged, and the cycle succeeds with exactly the specified
effect of the instruction at the counter (or with a jump to before the program, after which the
counter is outside the program), or fails with an error that the specification gives for it (or
because the counter has not changed), or has the abnormal outcome of the operation. -/
theorem C26_step {vm vm' : Vm} {r : Outcome ExecErr Unit} (hw : vm.Ok) (h : vm.cycle = (vm', r)) :
    match vm.instructions[vm.counter]? with
    | none => vm' = vm ∧ r = .throws
    | some i => vm'.instructions = vm.instructions ∧
      match r with
      | .ok () => vm'.counter ≠ vm.counter ∧
          (Does vm.instructions.length i vm.config vm'.config ∨
            (Escapes i vm.config ∧ vm'.cycle.2 = .throws))
      | .err e => Fails vm.instructions.length i vm.config e ∨
          (e = .infinite_loop ∧ vm'.counter = vm.counter ∧
            Does vm.instructions.length i vm.config vm'.config)
      | .throws => Evaluates i vm.config .throws
      | .ub => Evaluates i vm.config .ub := by
  simp only [Vm.cycle] at h
  cases hi : vm.instructions[vm.counter]? with
  | none => rw [hi] at h; cases h; exact ⟨rfl, rfl⟩
  | some i =>
    rw [hi] at h
    simp only at h ⊢
    cases he : vm.exec i with
    | mk v o =>
      obtain ⟨hins, hsp⟩ := exec_spec hw hi he
      rw [he] at h
      cases o with
      | ok u =>
        cases u
        simp only at h
        split at h
        · rename_i hc
          cases h
          refine ⟨hins, .inr ⟨rfl, hc, ?_⟩⟩
          rcases hsp with hd | ⟨-, hout⟩
          · exact hd
          · rw [hins, hc, hi] at hout; cases hout
        · rename_i hc
          cases h
          refine ⟨hins, hc, ?_⟩
          rcases hsp with hd | ⟨hesc, hout⟩
          · exact .inl hd
          · exact .inr ⟨hesc, by simp only [Vm.cycle, hout]⟩
      | err e => cases h; exact ⟨hins, .inl hsp⟩
      | throws => cases h; exact ⟨hins, hsp⟩
      | ub => cases h; exact ⟨hins, hsp⟩

/-- **C26, totality.** Whenever the specification gives an effect for the instruction at the counter,
the cycle has this effect; it is reported as an infinite loop exactly if the counter stays. -/
theorem C26_performs {vm : Vm} {i : Instr} {c : Config} (hw : vm.Ok)
    (hi : vm.instructions[vm.counter]? = some i) (h : Does vm.instructions.length i vm.config c) :
    ∃ vm', vm'.config = c ∧ vm'.instructions = vm.instructions ∧
      vm.cycle = (vm', if c.pc = vm.counter then .err .infinite_loop else .ok ()) := by
  cases hc : vm.cycle with
  | mk vm' r =>
    have hs := C26_step hw hc
    rw [hi] at hs
    obtain ⟨hins, hs⟩ := hs
    have hev : ∀ o, Evaluates i vm.config o → ∃ v, o = .ok v := by
      intro o ho
      generalize vm.config = c0 at ho h
      cases ho <;> cases h <;> exact ⟨_, by assumption⟩
    cases r with
    | ok u =>
      cases u
      obtain ⟨hne, hd | ⟨hesc, -⟩⟩ := hs
      · have := Does.unique h hd
        subst this
        exact ⟨vm', rfl, hins, by rw [if_neg]; exact hne⟩
      · exact absurd hesc (Does.not_escapes h)
    | err e =>
      rcases hs with hf | ⟨rfl, he, hd⟩
      · exact absurd hf (Does.not_fails h)
      · have := Does.unique h hd
        subst this
        exact ⟨vm', rfl, hins, by rw [if_pos]; exact he⟩
    | throws => obtain ⟨v, hv⟩ := hev _ hs; cases hv
    | ub => obtain ⟨v, hv⟩ := hev _ hs; cases hv

/-- **C26, errors.** Whenever the specification gives an error for the instruction at the counter,
the cycle reports it, and the variables are unchanged. -/
theorem C26_reports {vm : Vm} {i : Instr} {e : ExecErr} (hw : vm.Ok)
    (hi : vm.instructions[vm.counter]? = some i)
    (h : Fails vm.instructions.length i vm.config e) :
    ∃ vm', vm'.frames = vm.frames ∧ vm'.instructions = vm.instructions ∧
      vm.cycle = (vm', .err e) := by
  cases he : vm.exec i with
  | mk v o =>
    obtain ⟨hins, hsp⟩ := exec_spec hw hi he
    have hev : ∀ o, Evaluates i vm.config o → ∃ e, o = .err e := by
      intro o ho
      generalize vm.config = c0 at ho h
      cases ho <;> cases h <;> first | exact ⟨_, by assumption⟩ | (simp_all <;> omega)
    cases o with
    | ok u =>
      cases u
      rcases hsp with hd | ⟨hesc, -⟩
      · exact absurd h (Does.not_fails hd)
      · exact absurd hesc (Fails.not_escapes h)
    | err e' =>
      have := Fails.unique h hsp
      subst this
      exact ⟨v, exec_err_frames he, hins, by simp only [Vm.cycle, hi, he]⟩
    | throws => obtain ⟨v, hv⟩ := hev _ hsp; cases hv
    | ub => obtain ⟨v, hv⟩ := hev _ hsp; cases hv

/-- **C26, invariant.** Every successful cycle leads to a well-formed state again, so that the other
theorems apply to every reachable state. -/
theorem C26_invariant {vm vm' : Vm} (hw : vm.Ok) (h : vm.cycle = (vm', .ok ())) : vm'.Ok := by
  simp only [Vm.cycle] at h
  cases hi : vm.instructions[vm.counter]? with
  | none => rw [hi] at h; cases h
  | some i =>
    rw [hi] at h
    simp only at h
    cases he : vm.exec i with
    | mk v o =>
      rw [he] at h
      cases o with
      | ok u =>
        cases u
        simp only at h
        split at h
        · cases h
        · cases h; exact exec_ok hw hi he
      | _ => cases h

theorem C26_invariant_steps {vm vm' : Vm} {n : Nat} (hw : vm.Ok) (h : vm.steps n = some vm') :
    vm'.Ok := by
  induction n generalizing vm with
  | zero => cases h; exact hw
  | succ n ih =>
    simp only [Vm.steps] at h
    split at h
    · rename_i v hc; exact ih (C26_invariant hw hc) h
    · cases h

/-- **C26, locality.** The effect of an instruction other than calls and returns leaves all frames
below the topmost one alone, and every variable but the one it stores; and it leaves the operand
stack alone except for at most two values on top, which are replaced by at most one. -/
theorem C26_local {n : Nat} {i : Instr} {c c' : Config} (h : Does n i c c') :
    (i ≠ .ret → (∀ a, i ≠ .call a) → c'.vars.rest = c.vars.rest ∧
      ∀ k, i ≠ .store k → c'.vars.top k = c.vars.top k) ∧
    ∃ args res rest, c.stack = args ++ rest ∧ c'.stack = res ++ rest ∧
      args.length ≤ 2 ∧ res.length ≤ 1 := by
  have mk : ∀ args res rest : List CVal, args.length ≤ 2 → res.length ≤ 1 →
      ∃ a r t, args ++ rest = a ++ t ∧ res ++ rest = r ++ t ∧ a.length ≤ 2 ∧ r.length ≤ 1 :=
    fun a r t h h' => ⟨a, r, t, rfl, rfl, h, h'⟩
  cases h
  case load v f s pc _ => exact ⟨by simp, mk [] [v] s (by simp) (by simp)⟩
  case store k v f s pc =>
    refine ⟨fun _ _ => ⟨rfl, fun k' hk => ?_⟩, mk [v] [] s (by simp) (by simp)⟩
    simp only [Frame.set]
    rw [if_neg]
    rintro rfl
    exact hk rfl
  case push v f s pc => exact ⟨by simp, mk [] [v] s (by simp) (by simp)⟩
  case pop v f s pc => exact ⟨by simp, mk [v] [] s (by simp) (by simp)⟩
  case jump f s _ _ _ _ => exact ⟨by simp, mk [] [] s (by simp) (by simp)⟩
  case taken x f s _ _ _ _ _ => exact ⟨by simp, mk [x] [] s (by simp) (by simp)⟩
  case notTaken x f s _ _ _ => exact ⟨by simp, mk [x] [] s (by simp) (by simp)⟩
  case ret s _ _ => exact ⟨by simp, mk [] [] s (by simp) (by simp)⟩
  case convert x v f s _ _ => exact ⟨by simp, mk [x] [v] s (by simp) (by simp)⟩
  case unary x v f s _ _ => exact ⟨by simp, mk [x] [v] s (by simp) (by simp)⟩
  case binary x y v f s _ _ => exact ⟨by simp, mk [y, x] [v] s (by simp) (by simp)⟩
  case call s _ _ => exact ⟨by simp, mk [] [] s (by simp) (by simp)⟩
  case assert x f s _ _ => exact ⟨by simp, mk [x] [CVal.void] s (by simp) (by simp)⟩

/-- **C26, violated part.** A jump to before the first instruction is not reported as a jump out of
the program: the cycle succeeds, and the next one throws. -/
theorem C26_negative_jump :
    let vm : Vm := ⟨[.jump (-2)], [], [], 0, none⟩
    vm.Ok ∧ ∃ vm', vm.cycle = (vm', .ok ()) ∧ vm'.cycle.2 = .throws := by
  refine ⟨⟨by decide, ?_, by simp, by simp⟩, ⟨[.jump (-2)], [], [], 2 ^ 64 - 1, none⟩, ?_, ?_⟩
  · simp [InstrOk]
  · decide
  · decide

/-- A concrete case: `5 < 7`, in the middle of a program with a call in progress. -/
example :
    let vm : Vm := ⟨[.push (CVal.ofInt 5), .push (CVal.ofInt 7), .binary .less_than, .ret],
      [⟨3, CVal.tt⟩, ⟨0, CVal.ofInt 1⟩], [CVal.ofInt 7, CVal.ofInt 5], 2, none⟩
    vm.Ok ∧ vm.instructions[vm.counter]? = some (.binary .less_than) ∧
      Does 4 (.binary .less_than) vm.config ⟨vm.config.vars, [CVal.tt], 3⟩ := by
  refine ⟨⟨by decide, ?_, ?_, ?_⟩, rfl, .binary (by decide)⟩
  · intro i hi
    simp only [List.mem_cons, List.not_mem_nil, or_false] at hi
    rcases hi with rfl | rfl | rfl | rfl
    · exact ⟨trivial, by decide⟩
    · exact ⟨trivial, by decide⟩
    · trivial
    · trivial
  · intro i hi
    simp only [List.mem_cons, List.not_mem_nil, or_false] at hi
    rcases hi with rfl | rfl <;> exact ⟨trivial, by decide⟩
  · intro i hi
    simp only [List.mem_cons, List.not_mem_nil, or_false] at hi
    rcases hi with rfl | rfl
    · exact ⟨trivial, .inr rfl⟩
    · exact ⟨1, by decide, rfl⟩

/-! ### C27 -/

/-- The same machine with other frames. -/
def Vm.withFrames (vm : Vm) (d : List Entry) : Vm := { vm with frames := d }

theorem findLoop_sentinel (k : Key) (r : CVal) (base pre : List Entry) :
    findLoop k (pre ++ ⟨sentinelKey, r⟩ :: base) = findLoop k pre ∧
      ∀ i, findLoop k pre = some i → i < pre.length := by
  induction pre with
  | nil => exact ⟨rfl, fun i h => by cases h⟩
  | cons e es ih =>
    obtain ⟨h1, h2⟩ := ih
    simp only [List.cons_append, findLoop]
    refine ⟨by rw [h1], fun i h => ?_⟩
    split at h
    · cases h
    · split at h
      · cases h; simp
      · cases hf : findLoop k es with
        | none => rw [hf] at h; cases h
        | some j =>
          rw [hf] at h
          cases h
          have := h2 j hf
          simp only [List.length_cons]
          omega

theorem setValue_append (v : CVal) (rest pre : List Entry) {i : Nat} (h : i < pre.length) :
    setValue (pre ++ rest) i v = setValue pre i v ++ rest := by
  induction pre generalizing i with
  | nil => simp at h
  | cons e es ih =>
    cases i with
    | zero => rfl
    | succ i =>
      simp only [List.cons_append, setValue]
      rw [ih (by simpa using h)]

theorem lookup_sentinel {ε : Type} (k : Key) (r : CVal) (base pre : List Entry) :
    (MapStack.lookup (pre ++ ⟨sentinelKey, r⟩ :: base) k : Outcome ε _) = MapStack.lookup pre k := by
  by_cases hk : k = sentinelKey
  · simp [MapStack.lookup, find, hk]
  · obtain ⟨h1, h2⟩ := findLoop_sentinel k r base pre
    simp only [MapStack.lookup, find, if_neg hk, h1, Outcome.map_ok]
    cases hf : findLoop k pre with
    | none => rfl
    | some i => simp [List.getElem?_append_left (h2 i hf)]

theorem assign_sentinel {ε : Type} (k : Key) (v r : CVal) (base pre : List Entry) :
    (MapStack.assign (pre ++ ⟨sentinelKey, r⟩ :: base) k v : Outcome ε _) =
      (MapStack.assign pre k v).map (· ++ ⟨sentinelKey, r⟩ :: base) := by
  by_cases hk : k = sentinelKey
  · simp [MapStack.assign, find, hk]
  · obtain ⟨h1, h2⟩ := findLoop_sentinel k r base pre
    simp only [MapStack.assign, find, if_neg hk, h1, Outcome.ok_bind]
    cases hf : findLoop k pre with
    | none => rfl
    | some i => simp [setValue_append v _ pre (h2 i hf)]

theorem popFrame_sentinel (r : CVal) (base pre : List Entry) :
    popFrame (pre ++ ⟨sentinelKey, r⟩ :: base) =
      match popFrame pre with
      | none => some (r, base)
      | some (v, d) => some (v, d ++ ⟨sentinelKey, r⟩ :: base) := by
  induction pre with
  | nil => rfl
  | cons e es ih =>
    simp only [List.cons_append, popFrame]
    split
    · rfl
    · exact ih

/-- The machine with a call in progress, whose frames above the caller's are `pre`. -/
abbrev Vm.inCall (vm : Vm) (pre : List Entry) (r : CVal) (base : List Entry) : Vm :=
  vm.withFrames (pre ++ ⟨sentinelKey, r⟩ :: base)

/-- An instruction other than the matching return does the same whatever the caller's frames are. -/
theorem exec_inCall (vm : Vm) (pre : List Entry) (i : Instr) (h : i = .ret → popFrame pre ≠ none) :
    ∃ (vm' : Vm) (pre' : List Entry) (o : Outcome ExecErr Unit),
      ∀ r base, (vm.inCall pre r base).exec i = (vm'.inCall pre' r base, o) := by
  obtain ⟨is, fr, st, pc, cmp⟩ := vm
  cases i with
  | load k =>
    simp only [Vm.exec, Vm.inCall, Vm.withFrames, lookup_sentinel]
    cases he : MapStack.lookup (ε := ExecErr) pre k with
    | ok o => cases o with
      | none => exact ⟨⟨is, fr, st, pc, cmp⟩, pre, _, fun r base => rfl⟩
      | some v =>
        exact ⟨⟨is, fr, v :: st, pc + 1, cmp⟩, pre, _,
          fun r base => rfl⟩
    | err e => exact ⟨⟨is, fr, st, pc, cmp⟩, pre, _, fun r base => rfl⟩
    | throws => exact ⟨⟨is, fr, st, pc, cmp⟩, pre, _, fun r base => rfl⟩
    | ub => exact ⟨⟨is, fr, st, pc, cmp⟩, pre, _, fun r base => rfl⟩
  | store k =>
    simp only [Vm.exec, Vm.inCall, Vm.withFrames, assign_sentinel]
    cases st with
    | nil => exact ⟨⟨is, fr, [], pc, cmp⟩, pre, _, fun r base => rfl⟩
    | cons v s =>
      cases he : MapStack.assign (ε := ExecErr) pre k v with
      | ok d =>
        simp only [he, Outcome.map]
        exact ⟨⟨is, fr, s, pc + 1, cmp⟩, d, _, fun r base => rfl⟩
      | err e =>
        simp only [he, Outcome.map]
        exact ⟨⟨is, fr, s, pc, cmp⟩, pre, _, fun r base => rfl⟩
      | throws =>
        simp only [he, Outcome.map]
        exact ⟨⟨is, fr, s, pc, cmp⟩, pre, _, fun r base => rfl⟩
      | ub =>
        simp only [he, Outcome.map]
        exact ⟨⟨is, fr, s, pc, cmp⟩, pre, _, fun r base => rfl⟩
  | ret =>
    simp only [Vm.exec, Vm.inCall, Vm.withFrames, popFrame_sentinel]
    cases hp : popFrame pre with
    | none => exact absurd hp (h rfl)
    | some x =>
      obtain ⟨v, d⟩ := x
      exact ⟨⟨is, fr, st, Vm.toSize v.int, cmp⟩, d, _, fun r base => rfl⟩
  | call a =>
    simp only [Vm.exec, Vm.inCall, Vm.withFrames, pushFrame]
    by_cases hc : a > is.length
    · exact ⟨⟨is, fr, st, pc, cmp⟩, pre, _, fun r base => if_pos hc⟩
    · exact ⟨⟨is, fr, st, a, cmp⟩, ⟨sentinelKey, CVal.ofInt (pc + 1)⟩ :: pre, _,
        fun r base => if_neg hc⟩
  | push v =>
    exact ⟨⟨is, fr, v :: st, pc + 1, cmp⟩, pre, _, fun r base => rfl⟩
  | pop =>
    simp only [Vm.exec, Vm.inCall, Vm.withFrames]
    cases st with
    | nil => exact ⟨⟨is, fr, [], pc, cmp⟩, pre, _, fun r base => rfl⟩
    | cons v s => exact ⟨⟨is, fr, s, pc + 1, cmp⟩, pre, _, fun r base => rfl⟩
  | jump o =>
    simp only [Vm.exec, Vm.inCall, Vm.withFrames]
    by_cases hc : (pc : Int) + o + 1 ≥ is.length
    · exact ⟨⟨is, fr, st, pc, cmp⟩, pre, _, fun r base => if_pos hc⟩
    · exact ⟨⟨is, fr, st, Vm.toSize ((pc : Int) + o + 1), cmp⟩, pre, _, fun r base => if_neg hc⟩
  | jumpIf o b =>
    simp only [Vm.exec, Vm.inCall, Vm.withFrames]
    cases st with
    | nil => exact ⟨⟨is, fr, [], pc, cmp⟩, pre, _, fun r base => rfl⟩
    | cons v s =>
      simp only
      by_cases hb : v.type ≠ .bool
      · simp only [if_pos hb]
        exact ⟨⟨is, fr, s, pc, cmp⟩, pre, _, fun r base => rfl⟩
      · simp only [if_neg hb]
        by_cases hc : (pc : Int) + o + 1 ≥ is.length
        · exact ⟨⟨is, fr, s, pc, cmp⟩, pre, _, fun r base => if_pos hc⟩
        · exact ⟨⟨is, fr, s, (Vm.toSize (pc + (if b = decide (v.int ≠ 0) then o else 0) + 1)), cmp⟩, pre, _, fun r base => if_neg hc⟩
  | break_ => exact ⟨⟨is, fr, st, pc, cmp⟩, pre, _, fun r base => rfl⟩
  | continue_ => exact ⟨⟨is, fr, st, pc, cmp⟩, pre, _, fun r base => rfl⟩
  | convert t =>
    simp only [Vm.exec, Vm.inCall, Vm.withFrames]
    cases st with
    | nil => exact ⟨⟨is, fr, [], pc, cmp⟩, pre, _, fun r base => rfl⟩
    | cons v s =>
      simp only
      cases he : evalConversion v t with
      | ok u => exact ⟨⟨is, fr, u :: s, pc + 1, cmp⟩, pre, _, fun r base => rfl⟩
      | err e => exact ⟨⟨is, fr, s, pc, cmp⟩, pre, _, fun r base => rfl⟩
      | throws => exact ⟨⟨is, fr, s, pc, cmp⟩, pre, _, fun r base => rfl⟩
      | ub => exact ⟨⟨is, fr, s, pc, cmp⟩, pre, _, fun r base => rfl⟩
  | unary op =>
    simp only [Vm.exec, Vm.inCall, Vm.withFrames]
    cases st with
    | nil => exact ⟨⟨is, fr, [], pc, cmp⟩, pre, _, fun r base => rfl⟩
    | cons v s =>
      simp only
      cases he : evalUnary op v with
      | ok u => exact ⟨⟨is, fr, u :: s, pc + 1, cmp⟩, pre, _, fun r base => rfl⟩
      | err e => exact ⟨⟨is, fr, s, pc, cmp⟩, pre, _, fun r base => rfl⟩
      | throws => exact ⟨⟨is, fr, s, pc, cmp⟩, pre, _, fun r base => rfl⟩
      | ub => exact ⟨⟨is, fr, s, pc, cmp⟩, pre, _, fun r base => rfl⟩
  | binary op =>
    simp only [Vm.exec, Vm.inCall, Vm.withFrames]
    match st with
    | [] => exact ⟨⟨is, fr, [], pc, cmp⟩, pre, _, fun r base => rfl⟩
    | [z] => exact ⟨⟨is, fr, [z], pc, cmp⟩, pre, _, fun r base => rfl⟩
    | y :: x :: s =>
      simp only
      cases he : evalBinary x op y with
      | ok u => exact ⟨⟨is, fr, u :: s, pc + 1, if is[pc + 1]? = some (.builtin .assert) then some (x, y, op) else cmp⟩, pre, _, fun r base => rfl⟩
      | err e => exact ⟨⟨is, fr, s, pc, cmp⟩, pre, _, fun r base => rfl⟩
      | throws => exact ⟨⟨is, fr, s, pc, cmp⟩, pre, _, fun r base => rfl⟩
      | ub => exact ⟨⟨is, fr, s, pc, cmp⟩, pre, _, fun r base => rfl⟩
  | builtin f =>
    by_cases hc : f.paramTypes.length > st.length
    · exact ⟨⟨is, fr, st, pc, cmp⟩, pre, _, fun r base => if_pos hc⟩
    · cases he : evalBuiltin f (st.take f.paramTypes.length).reverse with
      | ok u =>
        refine ⟨⟨is, fr, u :: st.drop f.paramTypes.length, pc + 1, cmp⟩, pre, .ok (),
          fun r base => (if_neg hc).trans ?_⟩
        simp only [Vm.inCall, Vm.withFrames, he]
      | err e =>
        refine ⟨⟨is, fr, st, pc, cmp⟩, pre, .err (.evaluation e),
          fun r base => (if_neg hc).trans ?_⟩
        simp only [Vm.inCall, Vm.withFrames, he]
      | throws =>
        refine ⟨⟨is, fr, st, pc, cmp⟩, pre, .throws, fun r base => (if_neg hc).trans ?_⟩
        simp only [Vm.inCall, Vm.withFrames, he]
      | ub =>
        refine ⟨⟨is, fr, st, pc, cmp⟩, pre, .ub, fun r base => (if_neg hc).trans ?_⟩
        simp only [Vm.inCall, Vm.withFrames, he]

/-- One cycle during a call: either it is independent of the caller's frames and keeps them below
those of the callee, or it is the matching return. -/
theorem cycle_inCall (vm : Vm) (pre : List Entry) :
    (∃ (vm' : Vm) (pre' : List Entry) (o : Outcome ExecErr Unit),
      ∀ r base, (vm.inCall pre r base).cycle = (vm'.inCall pre' r base, o)) ∨
    (vm.instructions[vm.counter]? = some .ret ∧ popFrame pre = none) := by
  cases hi : vm.instructions[vm.counter]? with
  | none =>
    refine .inl ⟨vm, pre, .throws, fun r base => ?_⟩
    have : (vm.inCall pre r base).instructions[(vm.inCall pre r base).counter]? = none := hi
    simp only [Vm.cycle, this]
  | some i =>
    by_cases hr : i = .ret ∧ popFrame pre = none
    · exact .inr ⟨by rw [hr.1], hr.2⟩
    · obtain ⟨vm', pre', o, h⟩ := exec_inCall vm pre i (fun h1 h2 => hr ⟨h1, h2⟩)
      have hb : ∀ r base, (vm.inCall pre r base).instructions[(vm.inCall pre r base).counter]? =
        some i := fun r base => hi
      cases o with
      | ok u =>
        by_cases hc : vm'.counter = vm.counter
        · refine .inl ⟨vm', pre', .err .infinite_loop, fun r base => ?_⟩
          simp only [Vm.cycle, hb, h]
          exact if_pos hc
        · refine .inl ⟨vm', pre', .ok (), fun r base => ?_⟩
          simp only [Vm.cycle, hb, h]
          exact if_neg hc
      | err e =>
        exact .inl ⟨vm', pre', .err e, fun r base => by simp only [Vm.cycle, hb, h]⟩
      | throws => exact .inl ⟨vm', pre', .throws, fun r base => by simp only [Vm.cycle, hb, h]⟩
      | ub => exact .inl ⟨vm', pre', .ub, fun r base => by simp only [Vm.cycle, hb, h]⟩

theorem steps_succ (vm : Vm) (n : Nat) :
    vm.steps (n + 1) = (vm.steps n).bind fun v =>
      match v.cycle with
      | (v', .ok ()) => some v'
      | _ => none := by
  induction n generalizing vm with
  | zero =>
    simp only [Vm.steps, Option.bind_some]
    rfl
  | succ n ih =>
    rw [Vm.steps]
    conv => rhs; rw [Vm.steps]
    cases hc : vm.cycle with
    | mk v o =>
      cases o with
      | ok u => cases u; exact ih v
      | _ => rfl

/-- The first `n` cycles of a call are the same for all callers. -/
def Uniform (vm : Vm) (pre : List Entry) (n : Nat) (vm' : Vm) (pre' : List Entry) : Prop :=
  ∀ r base, (vm.inCall pre r base).steps n = some (vm'.inCall pre' r base)

theorem steps_inCall (vm : Vm) (pre : List Entry) (n : Nat) :
    (∀ i ≤ n, ∃ vm' pre', Uniform vm pre i vm' pre') ∨
    ∃ j < n, ∃ vm' pre', (∀ i ≤ j, ∃ vm' pre', Uniform vm pre i vm' pre') ∧
      Uniform vm pre j vm' pre' ∧
      ((∃ (vm'' : Vm) (pre'' : List Entry) (o : Outcome ExecErr Unit), o ≠ .ok () ∧
          ∀ r base, (vm'.inCall pre' r base).cycle = (vm''.inCall pre'' r base, o)) ∨
        (vm'.instructions[vm'.counter]? = some .ret ∧ popFrame pre' = none)) := by
  induction n with
  | zero =>
    refine .inl fun i hi => ?_
    obtain rfl : i = 0 := by omega
    exact ⟨vm, pre, fun r base => rfl⟩
  | succ n ih =>
    rcases ih with h | ⟨j, hj, h⟩
    · obtain ⟨vm', pre', hu⟩ := h n (Nat.le_refl n)
      rcases cycle_inCall vm' pre' with ⟨vm'', pre'', o, ho⟩ | hr
      · by_cases hok : o = .ok ()
        · subst hok
          refine .inl fun i hi => ?_
          by_cases hin : i ≤ n
          · exact h i hin
          · obtain rfl : i = n + 1 := by omega
            refine ⟨vm'', pre'', fun r base => ?_⟩
            rw [steps_succ, hu r base, Option.bind_some, ho r base]
        · exact .inr ⟨n, by omega, vm', pre', h, hu, .inl ⟨vm'', pre'', o, hok, ho⟩⟩
      · exact .inr ⟨n, by omega, vm', pre', h, hu, .inr hr⟩
    · exact .inr ⟨j, by omega, h⟩

theorem steps_none {vm : Vm} {j n : Nat} (h : vm.steps j = none) (hj : j ≤ n) :
    vm.steps n = none := by
  induction n with
  | zero => obtain rfl : j = 0 := by omega
            exact h
  | succ n ih =>
    by_cases hjn : j ≤ n
    · rw [steps_succ, ih hjn, Option.bind_none]
    · obtain rfl : j = n + 1 := by omega
      exact h

/-- The matching return. -/
theorem cycle_return {vm : Vm} {pre base : List Entry} {a : Nat}
    (hi : vm.instructions[vm.counter]? = some .ret) (hp : popFrame pre = none) (ha : a < 2 ^ 64) :
    (vm.inCall pre (CVal.ofInt a) base).cycle =
      ({ vm with frames := base, counter := a },
        if a = vm.counter then .err .infinite_loop else .ok ()) := by
  have hb : (vm.inCall pre (CVal.ofInt a) base).instructions[
    (vm.inCall pre (CVal.ofInt a) base).counter]? = some .ret := hi
  have he : (vm.inCall pre (CVal.ofInt a) base).exec .ret =
      ({ vm with frames := base, counter := a }, .ok ()) := by
    simp only [Vm.exec, Vm.inCall, Vm.withFrames, popFrame_sentinel, hp, CVal.ofInt]
    rw [toSize_nat ha]
  simp only [Vm.cycle, hb, he]
  show (if a = vm.counter then _ else _) = _
  split <;> rfl

/-- The call itself. -/
theorem cycle_call {vm : Vm} {a : Nat} (hi : vm.instructions[vm.counter]? = some (.call a))
    {vm' : Vm} (h : vm.steps 1 = some vm') :
    vm' = ({ vm with counter := a } : Vm).inCall [] (CVal.ofInt ((vm.counter + 1 : Nat) : Int))
      vm.frames ∧ ∀ other, (vm.withFrames other).steps 1 =
        some (({ vm with counter := a } : Vm).inCall [] (CVal.ofInt ((vm.counter + 1 : Nat) : Int))
          other) := by
  have he : ∀ d, (vm.withFrames d).cycle =
      if a > vm.instructions.length then (vm.withFrames d, .err .call_out_of_program)
      else (({ vm with counter := a } : Vm).inCall [] (CVal.ofInt ((vm.counter + 1 : Nat) : Int)) d,
        if a = vm.counter then .err .infinite_loop else .ok ()) := by
    intro d
    have hb : (vm.withFrames d).instructions[(vm.withFrames d).counter]? = some (.call a) := hi
    simp only [Vm.cycle, hb, Vm.exec]
    by_cases hc : a > vm.instructions.length
    · rw [if_pos hc, if_pos (show a > (vm.withFrames d).instructions.length from hc)]
    · rw [if_neg hc, if_neg (show ¬ a > (vm.withFrames d).instructions.length from hc)]
      simp only
      by_cases he : a = vm.counter
      · rw [if_pos (show a = (vm.withFrames d).counter from he), if_pos he]
        rfl
      · rw [if_neg (show ¬ a = (vm.withFrames d).counter from he), if_neg he]
        rfl
  have hself : vm = vm.withFrames vm.frames := rfl
  have h1 : ∀ d, (vm.withFrames d).steps 1 =
      match (vm.withFrames d).cycle with
      | (v', .ok ()) => some v'
      | _ => none := fun d => by
    simp only [Vm.steps]
    rfl
  rw [hself, h1, he] at h
  by_cases hc : a > vm.instructions.length
  · rw [if_pos hc] at h; cases h
  · rw [if_neg hc] at h
    by_cases hp : a = vm.counter
    · rw [if_pos hp] at h; cases h
    · rw [if_neg hp] at h
      cases h
      refine ⟨rfl, fun other => ?_⟩
      rw [h1, he, if_neg hc, if_neg hp]

theorem steps_add (vm : Vm) (m n : Nat) : vm.steps (m + n) = (vm.steps m).bind (·.steps n) := by
  induction m generalizing vm with
  | zero => simp [Vm.steps]
  | succ m ih =>
    rw [show m + 1 + n = (m + n) + 1 by omega]
    simp only [Vm.steps]
    split
    · exact ih _
    · rfl

namespace Spec

/-- `vm` has a call in progress that was started in the state `caller`: the caller's frames are below
those of the callee. -/
def InCall (caller vm : Vm) : Prop :=
  ∃ pre, vm.frames = pre ++ ⟨sentinelKey, CVal.ofInt (caller.counter + 1)⟩ :: caller.frames

/-- `vm` is the state after the return to `caller`: the caller's frames are as they were, and
execution continues behind the call. -/
def Returned (caller vm : Vm) : Prop :=
  vm.frames = caller.frames ∧ vm.counter = caller.counter + 1 ∧ vm.instructions = caller.instructions

end Spec

/-- **C27.** After any number of cycles from a call, either the call is still in progress and was all
the time, or there was a first moment when it was not, and this is a return to the caller: all of the
caller's variables have the values they had, and execution continues behind the call. -/
theorem C27_balanced {vm vm' : Vm} {a n : Nat} (hw : vm.Ok)
    (hi : vm.instructions[vm.counter]? = some (.call a)) (h : vm.steps (n + 1) = some vm') :
    (∀ j ≤ n, ∃ v, vm.steps (j + 1) = some v ∧ InCall vm v) ∨
    ∃ m < n, (∀ j ≤ m, ∃ v, vm.steps (j + 1) = some v ∧ InCall vm v) ∧
      ∃ v, vm.steps (m + 2) = some v ∧ Returned vm v := by
  have hlt : vm.counter < vm.instructions.length := by
    obtain ⟨h, -⟩ := List.getElem?_eq_some_iff.1 hi; exact h
  have hsz := hw.size
  have h1 : ∃ v1, vm.steps 1 = some v1 := by
    cases h1 : vm.steps 1 with
    | none => rw [steps_none h1 (by omega)] at h; cases h
    | some v => exact ⟨v, rfl⟩
  obtain ⟨v1, h1⟩ := h1
  obtain ⟨rfl, -⟩ := cycle_call hi h1
  have hadd : ∀ j, vm.steps (j + 1) =
      (({ vm with counter := a } : Vm).inCall [] (CVal.ofInt ((vm.counter + 1 : Nat) : Int))
        vm.frames).steps j := by
    intro j
    rw [show j + 1 = 1 + j by omega, steps_add, h1, Option.bind_some]
  rcases steps_inCall { vm with counter := a } [] n with hu | ⟨j, hj, w, pre, hall, hu, hend⟩
  · refine .inl fun j hjn => ?_
    obtain ⟨w, pre, hu⟩ := hu j hjn
    exact ⟨_, by rw [hadd, hu], pre, rfl⟩
  · rcases hend with ⟨w', pre', o, ho, hcy⟩ | ⟨hr, hp⟩
    · rw [hadd, steps_none (j := j + 1) ?_ (by omega)] at h
      · cases h
      · rw [steps_succ, hu, Option.bind_some, hcy]
        cases o with
        | ok u => exact absurd rfl ho
        | _ => rfl
    · have hcy := cycle_return (base := vm.frames) hr hp (a := vm.counter + 1) (by omega)
      by_cases hloop : vm.counter + 1 = w.counter
      · rw [hadd, steps_none (j := j + 1) ?_ (by omega)] at h
        · cases h
        · rw [steps_succ, hu, Option.bind_some, hcy, if_pos hloop]
      · refine .inr ⟨j, hj, fun i hij => ?_, ?_⟩
        · obtain ⟨w, pre, hu⟩ := hall i hij
          exact ⟨_, by rw [hadd, hu], pre, rfl⟩
        · refine ⟨{ w with frames := vm.frames, counter := vm.counter + 1 }, ?_, rfl, rfl, ?_⟩
          · rw [show j + 2 = (j + 1) + 1 by omega, hadd, steps_succ, hu, Option.bind_some, hcy,
              if_neg hloop]
          · have := steps_instructions (hu (CVal.ofInt ((vm.counter + 1 : Nat) : Int)) vm.frames)
            exact this

/-- **C27, isolation.** As long as a call is in progress, it cannot observe the caller's variables: with
any other variables of the caller the machine goes through the same states (but for the frames of the
caller), and its next cycle has the same result. -/
theorem C27_isolated {vm : Vm} {a n : Nat} (hw : vm.Ok)
    (hi : vm.instructions[vm.counter]? = some (.call a))
    (hin : ∀ j ≤ n, ∃ v, vm.steps (j + 1) = some v ∧ InCall vm v) (other : List Entry) :
    ∃ (v : Vm) (pre : List Entry),
      vm.steps (n + 1) = some (v.inCall pre (CVal.ofInt (vm.counter + 1)) vm.frames) ∧
      (vm.withFrames other).steps (n + 1) =
        some (v.inCall pre (CVal.ofInt (vm.counter + 1)) other) ∧
      (v.inCall pre (CVal.ofInt (vm.counter + 1)) other).cycle.2 =
        (v.inCall pre (CVal.ofInt (vm.counter + 1)) vm.frames).cycle.2 := by
  have hlt : vm.counter < vm.instructions.length := by
    obtain ⟨h, -⟩ := List.getElem?_eq_some_iff.1 hi; exact h
  have hsz := hw.size
  obtain ⟨v1, h1, -⟩ := hin 0 (by omega)
  obtain ⟨rfl, h1'⟩ := cycle_call hi h1
  have hadd : ∀ j, vm.steps (j + 1) =
      (({ vm with counter := a } : Vm).inCall [] (CVal.ofInt ((vm.counter + 1 : Nat) : Int))
        vm.frames).steps j := by
    intro j
    rw [show j + 1 = 1 + j by omega, steps_add, h1, Option.bind_some]
  have hadd' : ∀ j, (vm.withFrames other).steps (j + 1) =
      (({ vm with counter := a } : Vm).inCall [] (CVal.ofInt ((vm.counter + 1 : Nat) : Int))
        other).steps j := by
    intro j
    rw [show j + 1 = 1 + j by omega, steps_add, h1', Option.bind_some]
  rcases steps_inCall { vm with counter := a } [] n with hu | ⟨j, hj, w, pre, hall, hu, hend⟩
  · obtain ⟨v, pre, hu⟩ := hu n (Nat.le_refl n)
    refine ⟨v, pre, by rw [hadd, hu]; rfl, by rw [hadd', hu]; rfl, ?_⟩
    rcases cycle_inCall v pre with ⟨v', pre', o, ho⟩ | ⟨hr, hp⟩
    · rw [ho, ho]
    · have := fun base => cycle_return (base := base) hr hp (a := vm.counter + 1) (by omega)
      simp only [Int.natCast_add, Int.natCast_one] at this
      rw [this, this]
  · obtain ⟨v', hv', hin'⟩ := hin (j + 1) (by omega)
    rw [hadd, steps_succ, hu, Option.bind_some] at hv'
    rcases hend with ⟨w', pre', o, ho, hcy⟩ | ⟨hr, hp⟩
    · rw [hcy] at hv'
      cases o with
      | ok u => exact absurd rfl ho
      | _ => cases hv'
    · rw [cycle_return hr hp (by omega)] at hv'
      obtain ⟨pre', hp'⟩ := hin'
      split at hv'
      · rename_i heq
        simp only [Prod.mk.injEq] at heq
        rw [← heq.1] at hv'
        cases hv'
        have := congrArg List.length hp'
        simp only [List.length_append, List.length_cons] at this
        omega
      · cases hv'

/-- A concrete call: variable 5 of the caller, a callee that stores and returns. -/
def callExample : Vm :=
  ⟨[.call 2, .load 5, .push CVal.tt, .store 5, .ret], [⟨5, CVal.ff⟩], [], 0, none⟩

example : callExample.Ok ∧ callExample.instructions[callExample.counter]? = some (.call 2) ∧
    (callExample.steps 3).isSome ∧
    (callExample.steps 4).map (fun v => (v.frames, v.counter)) = some (callExample.frames, 1) ∧
    (callExample.steps 5).map (fun v => v.stack) = some [CVal.ff] ∧
    ∀ j ≤ 2, ∃ v, callExample.steps (j + 1) = some v ∧ InCall callExample v := by
  refine ⟨⟨by decide, ?_, ?_, ?_⟩, by decide, by decide, by decide, by decide, ?_⟩
  · intro i hi
    simp only [callExample, List.mem_cons, List.not_mem_nil, or_false] at hi
    rcases hi with rfl | rfl | rfl | rfl | rfl
    · trivial
    · exact (by decide : (5 : Nat) ≠ 0)
    · exact ⟨trivial, .inr rfl⟩
    · exact (by decide : (5 : Nat) ≠ 0)
    · trivial
  · intro v hv; cases hv
  · intro i hi
    simp only [callExample, List.mem_cons, List.not_mem_nil, or_false] at hi
    subst hi
    exact ⟨trivial, .inl rfl⟩
  · intro j hj
    have : j = 0 ∨ j = 1 ∨ j = 2 := by omega
    rcases this with rfl | rfl | rfl
    · exact ⟨_, rfl, [], rfl⟩
    · exact ⟨_, rfl, [], rfl⟩
    · exact ⟨_, rfl, [⟨5, CVal.tt⟩], rfl⟩

/-! ### C47 -/

/-- **C47, for an assertion that follows its comparison.** If the instruction executed before a failing
assertion is the operation that computed the asserted value, then the comparison reported with the
error is this operation with its operands, and it is indeed not satisfied. Missing: assertions of
other expressions, see `C47_stale_comparison`. -/
theorem C47_comparison_partial {vm vm' : Vm} {op : ExprType} {e : EvalErr} (hw : vm.Ok)
    (hi : vm.instructions[vm.counter]? = some (.binary op)) (h : vm.steps 1 = some vm')
    (hn : vm.instructions[vm.counter + 1]? = some (.builtin .assert))
    (he : vm'.cycle.2 = .err (.evaluation e)) (hb : e = .assertion_fail) :
    ∃ l r s, vm.stack = r :: l :: s ∧ vm'.comparisonOfError = some (l, r, op) ∧
      evalBinary l op r = .ok CVal.ff := by
  subst hb
  simp only [Vm.steps, Vm.cycle, hi, Vm.exec] at h
  match hs : vm.stack with
  | [] => rw [hs] at h; cases h
  | [_] => rw [hs] at h; cases h
  | y :: x :: s =>
    rw [hs] at h
    simp only at h
    cases hev : evalBinary x op y with
    | ok u =>
      rw [hev] at h
      simp only at h
      rw [if_pos hn, if_neg (by simp)] at h
      cases h
      refine ⟨x, y, s, rfl, ?_, ?_⟩
      · simp only [Vm.comparisonOfError, hn]
        split
        · rfl
        · rename_i hno
          exact (hno _ _ rfl (Prod.ext rfl he)).elim
      · have hwf := C11_binary_wf (hw.stack x (by simp [hs])) (hw.stack y (by simp [hs])) hev
        simp only [Vm.cycle, hn, Vm.exec] at he
        rcases evalBuiltin_one (f := .assert) hwf with ⟨rfl, hb⟩ | ⟨rfl, hb⟩ | ⟨ht, hb⟩
        · simp [Builtin.paramTypes, hb] at he
        · exact hev
        · simp [Builtin.paramTypes, hb] at he
    | err e => rw [hev] at h; cases h
    | throws => rw [hev] at h; cases h
    | ub => rw [hev] at h; cases h

/-- **C47, violated.** The comparison of an earlier assertion, that was satisfied, is reported with a
later failing one: `assert(1 == 1); assert(false);`. -/
theorem C47_stale_comparison :
    let vm : Vm := ⟨[.push (CVal.ofInt 1), .push (CVal.ofInt 1), .binary .equals, .builtin .assert,
      .pop, .push CVal.ff, .builtin .assert], [], [], 0, none⟩
    ∃ vm', vm.steps 6 = some vm' ∧ vm'.cycle.2 = .err (.evaluation .assertion_fail) ∧
      vm'.comparisonOfError = some (CVal.ofInt 1, CVal.ofInt 1, .equals) ∧
      evalBinary (CVal.ofInt 1) .equals (CVal.ofInt 1) = .ok CVal.tt :=
  ⟨_, rfl, by decide, by decide, by decide⟩

/-- A case for `C47_comparison_partial`: `assert(1 == 2)`. -/
example :
    let vm : Vm := ⟨[.binary .equals, .builtin .assert], [], [CVal.ofInt 2, CVal.ofInt 1], 0, none⟩
    ∃ vm', vm.steps 1 = some vm' ∧ vm'.cycle.2 = .err (.evaluation .assertion_fail) ∧
      vm'.comparisonOfError = some (CVal.ofInt 1, CVal.ofInt 2, .equals) :=
  ⟨_, rfl, by decide, by decide⟩

end Bms
