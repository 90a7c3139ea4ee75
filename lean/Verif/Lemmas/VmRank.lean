import Verif.Model.ConstEval
import Verif.Lemmas.Run

/-!
# Code that ends

The machine stops on code in which every position that can be reached has a rank that gets smaller with
every instruction.
-/

namespace Bms

/-- The instruction at position `pc` leads to positions of a smaller rank only. -/
def RankStep (alive : Nat → Prop) (E : Nat → Nat) (pc : Nat) : Instr → Prop
  | .jump o => 0 ≤ o ∧ alive (pc + 1 + o.toNat) ∧ E (pc + 1 + o.toNat) < E pc
  | .jumpIf o _ => 0 ≤ o ∧ (alive (pc + 1 + o.toNat) ∧ E (pc + 1 + o.toNat) < E pc) ∧ alive (pc + 1) ∧ E (pc + 1) < E pc
  | .ret => 0 < E pc
  | .call a => alive a ∧ alive (pc + 1) ∧ E a + E (pc + 1) < E pc
  | .break_ => True
  | .continue_ => True
  | _ => alive (pc + 1) ∧ E (pc + 1) < E pc

/-- Every position that can be reached has a rank that gets smaller with every instruction. -/
structure Ranked (code : List Instr) (alive : Nat → Prop) (E : Nat → Nat) : Prop where
  inside : ∀ pc, alive pc → pc < code.length
  step : ∀ pc ins, alive pc → code[pc]? = some ins → RankStep alive E pc ins

namespace MapStack

/-- The values of the sentinels. -/
def sentinels : List Entry → List CVal
  | [] => []
  | e :: es => if e.key = sentinelKey then e.value :: sentinels es else sentinels es

theorem sentinels_setValue {key : Key} {v : CVal} : (d : List Entry) → (i : Nat) → findLoop key d = some i →
    sentinels (setValue d i v) = sentinels d
  | [], i, h => by cases h
  | e :: es, i, h => by
    simp only [findLoop] at h
    by_cases he : e.key = sentinelKey
    · rw [if_pos he] at h; cases h
    · rw [if_neg he] at h
      by_cases hk : key = e.key
      · rw [if_pos hk] at h
        cases h
        simp [setValue, sentinels, he]
      · rw [if_neg hk] at h
        cases hf : findLoop key es with
        | none => rw [hf] at h; cases h
        | some i' =>
          rw [hf] at h
          cases h
          simp only [setValue, sentinels, if_neg he]
          exact sentinels_setValue es i' hf

theorem sentinels_assign {ε : Type} {d d' : List Entry} {key : Key} {v : CVal} (h : assign (ε := ε) d key v = .ok d') :
    sentinels d' = sentinels d := by
  unfold assign find at h
  by_cases hk : key = sentinelKey
  · rw [if_pos hk] at h; cases h
  · rw [if_neg hk] at h
    simp only [Outcome.ok_bind] at h
    cases hf : findLoop key d with
    | none =>
      rw [hf] at h
      cases h
      simp [sentinels, hk]
    | some i =>
      rw [hf] at h
      cases h
      exact sentinels_setValue d i hf

theorem sentinels_pop : (d : List Entry) → {v : CVal} → {d' : List Entry} → popFrame d = some (v, d') →
    sentinels d = v :: sentinels d'
  | [], _, _, h => by cases h
  | e :: es, v, d', h => by
    simp only [popFrame] at h
    by_cases he : e.key = sentinelKey
    · rw [if_pos he] at h
      cases h
      simp [sentinels, he]
    · rw [if_neg he] at h
      simp only [sentinels, if_neg he]
      exact sentinels_pop es h

end MapStack

open MapStack

section

variable {code : List Instr} {alive : Nat → Prop} {E : Nat → Nat}

/-- The machine is at a position that can be reached, and so are the positions that it returns to. -/
structure AtAlive (code : List Instr) (alive : Nat → Prop) (vm : Vm) : Prop where
  code : vm.instructions = code
  counter : alive vm.counter
  back : ∀ v ∈ sentinels vm.frames, ∃ a, alive a ∧ v.int = (a : Int)

/-- What is left to do. -/
def remaining (E : Nat → Nat) (vm : Vm) : Nat :=
  E vm.counter + ((sentinels vm.frames).map fun v => E (Vm.toSize v.int)).sum

/-- From one position to the next one. -/
theorem atAlive_next {vm vm' : Vm} (h : AtAlive code alive vm) (h1 : vm'.instructions = vm.instructions)
    (h2 : sentinels vm'.frames = sentinels vm.frames) (h3 : alive vm'.counter) (h4 : E vm'.counter < E vm.counter) :
    AtAlive code alive vm' ∧ remaining E vm' < remaining E vm := by
  refine ⟨⟨h1.trans h.code, h3, by rw [h2]; exact h.back⟩, ?_⟩
  unfold remaining
  rw [h2]
  omega

theorem exec_rank (hr : Ranked code alive E) (hlen : code.length < 2 ^ 63) {vm vm' : Vm} (h : AtAlive code alive vm) {ins : Instr}
    (hi : code[vm.counter]? = some ins) (hx : vm.exec ins = (vm', .ok ())) :
    AtAlive code alive vm' ∧ remaining E vm' < remaining E vm := by
  have hs := hr.step _ _ h.counter hi
  have hsmall : ∀ a, alive a → a < 2 ^ 64 := fun a ha => by have := hr.inside a ha; omega
  have htgt : ∀ o : Int, 0 ≤ o → alive (vm.counter + 1 + o.toNat) →
      Vm.toSize (vm.target o) = vm.counter + 1 + o.toNat := by
    intro o ho ha
    have := toSize_nat (hsmall _ ha)
    rw [← this]
    congr 1
    unfold Vm.target
    omega
  cases ins with
  | load k =>
    simp only [Vm.exec] at hx
    cases hl : (lookup vm.frames k : Outcome ExecErr (Option CVal)) with
    | ok o =>
      rw [hl] at hx
      cases o with
      | none => cases hx
      | some v => cases hx; exact atAlive_next h rfl rfl hs.1 hs.2
    | _ => rw [hl] at hx; cases hx
  | store k =>
    simp only [Vm.exec] at hx
    cases hst : vm.stack with
    | nil => rw [hst] at hx; cases hx
    | cons v st =>
      rw [hst] at hx
      simp only at hx
      cases ha : (assign vm.frames k v : Outcome ExecErr (List Entry)) with
      | ok d => rw [ha] at hx; cases hx; exact atAlive_next h rfl (sentinels_assign ha) hs.1 hs.2
      | _ => rw [ha] at hx; cases hx
  | push v => cases hx; exact atAlive_next h rfl rfl hs.1 hs.2
  | pop =>
    simp only [Vm.exec] at hx
    cases hst : vm.stack with
    | nil => rw [hst] at hx; cases hx
    | cons v st => rw [hst] at hx; cases hx; exact atAlive_next h rfl rfl hs.1 hs.2
  | jump o =>
    simp only [Vm.exec] at hx
    by_cases hc : vm.target o ≥ vm.instructions.length
    · rw [if_pos hc] at hx; cases hx
    · rw [if_neg hc] at hx
      cases hx
      have ht := htgt o hs.1 hs.2.1
      exact atAlive_next h rfl rfl (by simpa only [ht] using hs.2.1) (by simpa only [ht] using hs.2.2)
  | jumpIf o b =>
    simp only [Vm.exec] at hx
    cases hst : vm.stack with
    | nil => rw [hst] at hx; cases hx
    | cons v st =>
      rw [hst] at hx
      simp only at hx
      by_cases hb : v.type ≠ .bool
      · rw [if_pos hb] at hx; cases hx
      · rw [if_neg hb] at hx
        by_cases hc : vm.target o ≥ vm.instructions.length
        · rw [if_pos hc] at hx; cases hx
        · rw [if_neg hc] at hx
          cases hx
          obtain ⟨h0, ⟨ha, hb⟩, ha', hb'⟩ := hs
          by_cases hv : b = decide (v.int ≠ 0)
          · have ht := htgt o h0 ha
            exact atAlive_next h rfl rfl (by simpa only [if_pos hv, ht] using ha) (by simpa only [if_pos hv, ht] using hb)
          · have ht := htgt 0 (Int.le_refl _) (by simpa using ha')
            exact atAlive_next h rfl rfl (by simp only [if_neg hv, ht]; simpa using ha')
              (by simp only [if_neg hv, ht]; simpa using hb')
  | break_ => cases hx
  | continue_ => cases hx
  | ret =>
    simp only [Vm.exec] at hx
    cases hp : popFrame vm.frames with
    | none => rw [hp] at hx; cases hx
    | some r =>
      obtain ⟨v, d⟩ := r
      rw [hp] at hx
      cases hx
      have hsp := sentinels_pop _ hp
      obtain ⟨a, ha, hv⟩ := h.back v (by rw [hsp]; simp)
      have ht : Vm.toSize v.int = a := by rw [hv]; exact toSize_nat (hsmall a ha)
      refine ⟨⟨h.code, by simpa only [ht] using ha, fun w hw => h.back w (by rw [hsp]; simp [hw])⟩, ?_⟩
      have h0 : 0 < E vm.counter := hs
      unfold remaining
      rw [hsp]
      simp only [List.map_cons, List.sum_cons]
      omega
  | convert t =>
    simp only [Vm.exec] at hx
    cases hst : vm.stack with
    | nil => rw [hst] at hx; cases hx
    | cons v st =>
      rw [hst] at hx
      simp only at hx
      cases hev : evalConversion v t with
      | ok w => rw [hev] at hx; cases hx; exact atAlive_next h rfl rfl hs.1 hs.2
      | _ => rw [hev] at hx; cases hx
  | unary op =>
    simp only [Vm.exec] at hx
    cases hst : vm.stack with
    | nil => rw [hst] at hx; cases hx
    | cons v st =>
      rw [hst] at hx
      simp only at hx
      cases hev : evalUnary op v with
      | ok w => rw [hev] at hx; cases hx; exact atAlive_next h rfl rfl hs.1 hs.2
      | _ => rw [hev] at hx; cases hx
  | binary op =>
    simp only [Vm.exec] at hx
    cases hst : vm.stack with
    | nil => rw [hst] at hx; cases hx
    | cons v st =>
      cases st with
      | nil => rw [hst] at hx; cases hx
      | cons w st =>
        rw [hst] at hx
        simp only at hx
        cases hev : evalBinary w op v with
        | ok w => rw [hev] at hx; cases hx; exact atAlive_next h rfl rfl hs.1 hs.2
        | _ => rw [hev] at hx; cases hx
  | call a =>
    simp only [Vm.exec] at hx
    by_cases hc : a > vm.instructions.length
    · rw [if_pos hc] at hx; cases hx
    · rw [if_neg hc] at hx
      cases hx
      obtain ⟨ha, hn, hE⟩ := hs
      have hsn : sentinels (pushFrame vm.frames (CVal.ofInt (vm.counter + 1))) = CVal.ofInt (vm.counter + 1) :: sentinels vm.frames := by
        simp [pushFrame, sentinels]
      refine ⟨⟨h.code, ha, fun v hv => ?_⟩, ?_⟩
      · rw [hsn] at hv
        simp only [List.mem_cons] at hv
        rcases hv with rfl | hv
        · exact ⟨vm.counter + 1, hn, by simp [CVal.ofInt]⟩
        · exact h.back v hv
      · have ht : Vm.toSize (CVal.ofInt (vm.counter + 1)).int = vm.counter + 1 := by
          have := toSize_nat (hsmall _ hn)
          simpa [CVal.ofInt] using this
        unfold remaining
        simp only [hsn, List.map_cons, List.sum_cons, ht]
        omega
  | builtin f =>
    simp only [Vm.exec] at hx
    by_cases hc : f.paramTypes.length > vm.stack.length
    · rw [if_pos hc] at hx; cases hx
    · rw [if_neg hc] at hx
      cases hev : evalBuiltin f (vm.stack.take f.paramTypes.length).reverse with
      | ok w => rw [hev] at hx; cases hx; exact atAlive_next h rfl rfl hs.1 hs.2
      | _ => rw [hev] at hx; cases hx

theorem run_rank (hr : Ranked code alive E) (hlen : code.length < 2 ^ 63) : (n : Nat) → {vm : Vm} → AtAlive code alive vm →
    remaining E vm < n → vm.run n ≠ none
  | 0, _, _, hn => absurd hn (Nat.not_lt_zero _)
  | n + 1, vm, h, hn => by
    rw [Vm.run]
    cases hc : vm.cycle with
    | mk vm' r =>
      cases r with
      | ok u =>
        simp only
        unfold Vm.cycle at hc
        rw [h.code] at hc
        cases hi : code[vm.counter]? with
        | none => rw [hi] at hc; cases hc
        | some ins =>
          rw [hi] at hc
          simp only at hc
          cases hx : vm.exec ins with
          | mk vm1 r =>
            rw [hx] at hc
            cases r with
            | ok u' =>
              simp only at hc
              split at hc
              · cases hc
              · cases hc
                obtain ⟨h1, h2⟩ := exec_rank hr hlen h hi hx
                exact run_rank hr hlen n h1 (by omega)
            | _ => cases hc
      | _ => simp

theorem foldl_pushValue : (cs : List CVal) → (vm : Vm) → (cs.foldl Vm.pushValue vm).instructions = vm.instructions ∧
    (cs.foldl Vm.pushValue vm).counter = vm.counter ∧ (cs.foldl Vm.pushValue vm).frames = vm.frames
  | [], _ => ⟨rfl, rfl, rfl⟩
  | c :: cs, vm => foldl_pushValue cs (vm.pushValue c)

/-- Calls in constant expressions end. -/
theorem constantCall_rank (hr : Ranked code alive E) (hlen : code.length < 2 ^ 63) {a : Nat} (ha : alive a) (cs : List CVal) :
    ∃ M r, ∀ n, M ≤ n → constantCall { Vm.initial with instructions := code } a cs n = some r := by
  have hlt := hr.inside a ha
  obtain ⟨h1, h2, h3⟩ := foldl_pushValue cs ({ Vm.initial with instructions := code, counter := a } : Vm)
  have hat : AtAlive code alive (cs.foldl Vm.pushValue ({ Vm.initial with instructions := code, counter := a } : Vm)) := by
    refine ⟨h1, by rw [h2]; exact ha, fun v hv => ?_⟩
    rw [h3] at hv
    simp [Vm.initial, sentinels] at hv
  have hrun := run_rank hr hlen _ hat (Nat.lt_succ_self _)
  generalize hM : remaining E (cs.foldl Vm.pushValue ({ Vm.initial with instructions := code, counter := a } : Vm)) + 1 = M at hrun
  have hM' : (remaining E (cs.foldl Vm.pushValue ({ Vm.initial with instructions := code, counter := a } : Vm))).succ = M := hM
  rw [hM'] at hrun
  cases hx : (cs.foldl Vm.pushValue ({ Vm.initial with instructions := code, counter := a } : Vm)).run M with
  | none => exact absurd hx hrun
  | some r =>
    have hj : ({ Vm.initial with instructions := code } : Vm).reset.jumpTo (ε := ExecErr) a =
        .ok { Vm.initial with instructions := code, counter := a } := by
      simp [Vm.jumpTo, Vm.reset, Vm.initial, hlt]
    have hall : ∀ n, M ≤ n → constantCall { Vm.initial with instructions := code } a cs n =
        constantCall { Vm.initial with instructions := code } a cs M := by
      intro n hn
      unfold constantCall
      rw [hj]
      simp only
      rw [run_mono hx hn, hx]
    cases hc : constantCall { Vm.initial with instructions := code } a cs M with
    | none =>
      unfold constantCall at hc
      rw [hj] at hc
      simp only at hc
      rw [hx] at hc
      obtain ⟨vm, o⟩ := r
      cases o with
      | err e =>
        simp only at hc
        (repeat' split at hc) <;> cases hc
      | _ => cases hc
    | some v => exact ⟨M, v, fun n hn => (hall n hn).trans hc⟩

end

end Bms
