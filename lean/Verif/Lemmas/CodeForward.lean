import Verif.Spec.Finite
import Verif.Lemmas.Codegen
import Verif.Lemmas.Blame
import Verif.Lemmas.VmRank

/-!
# The code of functions without loops only goes forward
-/

namespace Bms

open Spec

/-- The instruction at position `i` leads to positions in `A`, and only calls addresses in `Cal`. -/
def ForwardStep (Cal A : Nat → Prop) (i : Nat) : Instr → Prop
  | .jump o => 0 ≤ o ∧ A (i + 1 + o.toNat)
  | .jumpIf o _ => 0 ≤ o ∧ A (i + 1 + o.toNat) ∧ A (i + 1)
  | .ret => True
  | .call a => Cal a ∧ A (i + 1)
  | .break_ => True
  | .continue_ => True
  | _ => A (i + 1)

theorem ForwardStep.shift {Cal A A' : Nat → Prop} {i : Nat} (k : Nat) (h : ∀ j, A j → A' (k + j)) {ins : Instr}
    (hs : ForwardStep Cal A i ins) : ForwardStep Cal A' (k + i) ins := by
  have e1 : k + i + 1 = k + (i + 1) := by omega
  cases ins with
  | jump o =>
    refine ⟨hs.1, ?_⟩
    rw [e1, Nat.add_assoc]
    exact h _ hs.2
  | jumpIf o b =>
    refine ⟨hs.1, ?_, ?_⟩
    · rw [e1, Nat.add_assoc]
      exact h _ hs.2.1
    · rw [e1]; exact h _ hs.2.2
  | ret => trivial
  | break_ => trivial
  | continue_ => trivial
  | call a => exact ⟨hs.1, by rw [e1]; exact h _ hs.2⟩
  | _ =>
    show A' (k + i + 1)
    rw [e1]
    exact h _ hs

/-- Positions that can be reached from the start of the code; the end is one of them only if `x`. -/
structure ForwardBy (Cal : Nat → Prop) (c : List Instr) (x : Bool) (A : Nat → Prop) : Prop where
  start : A 0
  le : ∀ i, A i → i ≤ c.length
  stop : A c.length → x = true
  step : ∀ i ins, A i → c[i]? = some ins → ForwardStep Cal A i ins

/-- The code only goes forward, and gets to its end only if `x`. -/
def Forward (Cal : Nat → Prop) (c : List Instr) (x : Bool) : Prop := ∃ A, ForwardBy Cal c x A

namespace Forward

variable {Cal : Nat → Prop}

theorem weaken {c : List Instr} {x y : Bool} (h : Forward Cal c x) (hxy : x = true → y = true) : Forward Cal c y := by
  obtain ⟨A, h⟩ := h
  exact ⟨A, h.start, h.le, fun ha => hxy (h.stop ha), h.step⟩

theorem nil : Forward Cal [] true := ⟨fun i => i = 0, rfl, fun i h => by simp [h], fun _ => rfl, fun i ins _ h => by simp at h⟩

theorem one {ins : Instr} (h : ForwardStep Cal (fun i => i ≤ 1) 0 ins) : Forward Cal [ins] true := by
  refine ⟨fun i => i ≤ 1, Nat.zero_le _, fun i h => by simpa using h, fun _ => rfl, fun i ins' _ hi => ?_⟩
  cases i with
  | zero => simp at hi; subst hi; exact h
  | succ i => simp at hi

theorem stop {ins : Instr} (h : ins = .ret ∨ ins = .break_ ∨ ins = .continue_) : Forward Cal [ins] false := by
  refine ⟨fun i => i = 0, rfl, fun i h => by simp [h], fun h => by simp at h, fun i ins' hi hx => ?_⟩
  subst hi
  simp at hx
  subst hx
  rcases h with rfl | rfl | rfl <;> trivial

theorem append {c d : List Instr} {x y : Bool} (hc : Forward Cal c x) (hd : Forward Cal d y) : Forward Cal (c ++ d) (x && y) := by
  obtain ⟨A, hA⟩ := hc
  obtain ⟨B, hB⟩ := hd
  have lift : ∀ j, A j → (j < c.length ∧ A j) ∨ (c.length ≤ j ∧ A c.length ∧ B (j - c.length)) := by
    intro j hj
    rcases Nat.lt_or_ge j c.length with h | h
    · exact .inl ⟨h, hj⟩
    · have : j = c.length := Nat.le_antisymm (hA.le j hj) h
      subst this
      exact .inr ⟨Nat.le_refl _, hj, by simpa using hB.start⟩
  refine ⟨fun i => (i < c.length ∧ A i) ∨ (c.length ≤ i ∧ A c.length ∧ B (i - c.length)), ?_, ?_, ?_, ?_⟩
  · exact lift 0 hA.start
  · rintro i (⟨h, -⟩ | ⟨h, -, h'⟩)
    · simp; omega
    · have := hB.le _ h'
      simp; omega
  · rintro (⟨h, -⟩ | ⟨h, h1, h'⟩)
    · simp at h
      omega
    · simp only [List.length_append, Nat.add_sub_cancel_left] at h'
      rw [hA.stop h1, hB.stop h']
      rfl
  · rintro i ins (⟨h, h'⟩ | ⟨h, h1, h'⟩) hi
    · rw [List.getElem?_append_left h] at hi
      have := (hA.step i ins h' hi).shift (A' := fun i => (i < c.length ∧ A i) ∨ (c.length ≤ i ∧ A c.length ∧ B (i - c.length))) 0
        fun j hj => by rw [Nat.zero_add]; exact lift j hj
      rwa [Nat.zero_add] at this
    · rw [List.getElem?_append_right h] at hi
      have := (hB.step _ ins h' hi).shift (A' := fun i => (i < c.length ∧ A i) ∨ (c.length ≤ i ∧ A c.length ∧ B (i - c.length))) c.length
        fun j hj => .inr ⟨Nat.le_add_right _ _, h1, by simpa using hj⟩
      rwa [Nat.add_sub_cancel' h] at this

/-- One of two branches. -/
theorem branch {l r : List Instr} {x y b : Bool} (hl : Forward Cal l x) (hr : Forward Cal r y) :
    Forward Cal (.jumpIf (l.length + 1) b :: (l ++ .jump r.length :: r)) (x || y) := by
  obtain ⟨A, hA⟩ := hl
  obtain ⟨B, hB⟩ := hr
  let C : Nat → Prop := fun i => i = 0 ∨ (1 ≤ i ∧ A (i - 1)) ∨ (l.length + 2 ≤ i ∧ B (i - (l.length + 2))) ∨
    (i = l.length + r.length + 2 ∧ A l.length)
  have hlen : (Instr.jumpIf (l.length + 1) b :: (l ++ Instr.jump r.length :: r)).length = l.length + r.length + 2 := by
    simp; omega
  have hA' : ∀ j, A j → C (1 + j) := fun j hj => .inr (.inl ⟨by omega, by simpa using hj⟩)
  have hB' : ∀ j, B j → C (l.length + 2 + j) := fun j hj => .inr (.inr (.inl ⟨by omega, by simpa using hj⟩))
  refine ⟨C, .inl rfl, ?_, ?_, ?_⟩
  · rw [hlen]
    rintro i (h | ⟨h, h'⟩ | ⟨h, h'⟩ | ⟨h, -⟩)
    · omega
    · have := hA.le _ h'; omega
    · have := hB.le _ h'; omega
    · omega
  · rw [hlen]
    rintro (h | ⟨h, h'⟩ | ⟨h, h'⟩ | ⟨-, h'⟩)
    · omega
    · have := hA.le _ h'; omega
    · have e : l.length + r.length + 2 - (l.length + 2) = r.length := by omega
      rw [e] at h'
      rw [hB.stop h']
      simp
    · rw [hA.stop h']
      rfl
  · intro i ins hi hx
    have hi0 : i < l.length + r.length + 2 := by
      rw [← hlen]
      exact (List.getElem?_eq_some_iff.1 hx).1
    rcases hi with rfl | ⟨h, h'⟩ | ⟨h, h'⟩ | ⟨h, -⟩
    · simp at hx
      subst hx
      refine ⟨by omega, ?_, ?_⟩
      · have := hB' 0 hB.start
        have e : 0 + 1 + ((l.length : Int) + 1).toNat = l.length + 2 + 0 := by omega
        rw [e]
        exact this
      · exact hA' 0 hA.start
    · obtain ⟨k, rfl⟩ : ∃ k, i = 1 + k := ⟨i - 1, by omega⟩
      rw [Nat.add_sub_cancel_left] at h'
      rw [Nat.add_comm 1 k, List.getElem?_cons_succ] at hx
      rcases Nat.lt_or_ge k l.length with hk | hk
      · rw [List.getElem?_append_left hk] at hx
        exact (hA.step k ins h' hx).shift 1 hA'
      · have : k = l.length := Nat.le_antisymm (hA.le _ h') hk
        subst this
        simp at hx
        subst hx
        refine ⟨by omega, ?_⟩
        have e : 1 + l.length + 1 + (r.length : Int).toNat = l.length + r.length + 2 := by omega
        rw [e]
        exact .inr (.inr (.inr ⟨rfl, h'⟩))
    · obtain ⟨k, rfl⟩ : ∃ k, i = l.length + 2 + k := ⟨i - (l.length + 2), by omega⟩
      rw [Nat.add_sub_cancel_left] at h'
      have e : l.length + 2 + k = (l.length + (k + 1)) + 1 := by omega
      rw [e, List.getElem?_cons_succ, List.getElem?_append_right (by omega), Nat.add_sub_cancel_left, List.getElem?_cons_succ] at hx
      exact (hB.step k ins h' hx).shift (l.length + 2) hB'
    · omega

/-- A branch or nothing. -/
theorem skip {t : List Instr} {x b : Bool} (ht : Forward Cal t x) : Forward Cal (.jumpIf t.length b :: t) true := by
  obtain ⟨A, hA⟩ := ht
  let C : Nat → Prop := fun i => i = 0 ∨ (1 ≤ i ∧ A (i - 1)) ∨ i = t.length + 1
  have hA' : ∀ j, A j → C (1 + j) := fun j hj => .inr (.inl ⟨by omega, by simpa using hj⟩)
  refine ⟨C, .inl rfl, ?_, fun _ => rfl, ?_⟩
  · rintro i (h | ⟨h, h'⟩ | h)
    · omega
    · have := hA.le _ h'; simp; omega
    · simp; omega
  · intro i ins hi hx
    have hi0 : i < t.length + 1 := by
      have := (List.getElem?_eq_some_iff.1 hx).1
      simpa using this
    rcases hi with rfl | ⟨h, h'⟩ | h
    · simp at hx
      subst hx
      refine ⟨by omega, ?_, hA' 0 hA.start⟩
      have e : 0 + 1 + (t.length : Int).toNat = t.length + 1 := by omega
      rw [e]
      exact .inr (.inr rfl)
    · obtain ⟨k, rfl⟩ : ∃ k, i = 1 + k := ⟨i - 1, by omega⟩
      rw [Nat.add_sub_cancel_left] at h'
      rw [Nat.add_comm 1 k, List.getElem?_cons_succ] at hx
      exact (hA.step k ins h' hx).shift 1 hA'
    · omega

end Forward

/-! ## Programs get longer -/

/-- A function that only goes forward and does not get to its end can be added to a program. -/
theorem Ranked.append {code c : List Instr} {alive : Nat → Prop} {E : Nat → Nat} {B : Nat} {Cal : Nat → Prop} (h : Ranked code alive E)
    (hB : ∀ pc, alive pc → E pc ≤ B) (hc : Forward Cal c false) (hcal : ∀ a, Cal a → alive a) :
    ∃ alive' E' B', Ranked (code ++ c) alive' E' ∧ (∀ pc, alive' pc → E' pc ≤ B') ∧ (∀ pc, alive pc → alive' pc) ∧ alive' code.length := by
  obtain ⟨A, hA⟩ := hc
  have hlt : ∀ i, A i → i < c.length := by
    intro i hi
    have := hA.le i hi
    rcases Nat.lt_or_ge i c.length with h | h
    · exact h
    · have e : i = c.length := by omega
      subst e
      cases hA.stop hi
  let alive' : Nat → Prop := fun pc => alive pc ∨ (code.length ≤ pc ∧ A (pc - code.length))
  let E' : Nat → Nat := fun pc => if pc < code.length then E pc else (code.length + c.length - pc) * (B + 1)
  have hold : ∀ pc, alive pc → E' pc = E pc := fun pc ha => if_pos (h.inside pc ha)
  have hnew : ∀ i, E' (code.length + i) = (c.length - i) * (B + 1) := fun i => by
    simp only [E']
    rw [if_neg (by omega)]
    congr 1
    omega
  have hA' : ∀ i, A i → alive' (code.length + i) := fun i hi => .inr ⟨by omega, by simpa using hi⟩
  have hdec : ∀ i j, i < j → A i → A j → alive' (code.length + j) ∧ E' (code.length + j) < E' (code.length + i) := by
    intro i j hij hi hj
    refine ⟨hA' j hj, ?_⟩
    rw [hnew, hnew]
    have := hlt j hj
    exact Nat.mul_lt_mul_of_pos_right (by omega) (by omega)
  refine ⟨alive', E', max B (c.length * (B + 1)), ⟨?_, ?_⟩, ?_, fun pc ha => .inl ha, hA' 0 hA.start⟩
  · rintro pc (ha | ⟨h1, h2⟩)
    · have := h.inside pc ha
      simp; omega
    · have := hlt _ h2
      simp; omega
  · rintro pc ins (ha | ⟨h1, h2⟩) hx
    · rw [List.getElem?_append_left (h.inside pc ha)] at hx
      have hs := h.step pc ins ha hx
      have hup : ∀ q, alive q → E q < E pc → alive' q ∧ E' q < E' pc := fun q hq he => ⟨.inl hq, by rw [hold q hq, hold pc ha]; exact he⟩
      cases ins with
      | jump o => exact ⟨hs.1, hup _ hs.2.1 hs.2.2⟩
      | jumpIf o b => exact ⟨hs.1, hup _ hs.2.1.1 hs.2.1.2, hup _ hs.2.2.1 hs.2.2.2⟩
      | ret =>
        show 0 < E' pc
        rw [hold pc ha]
        exact hs
      | call a => exact ⟨.inl hs.1, .inl hs.2.1, by rw [hold a hs.1, hold _ hs.2.1, hold pc ha]; exact hs.2.2⟩
      | break_ => trivial
      | continue_ => trivial
      | _ => exact hup _ hs.1 hs.2
    · obtain ⟨i, rfl⟩ : ∃ i, pc = code.length + i := ⟨pc - code.length, by omega⟩
      rw [Nat.add_sub_cancel_left] at h2
      rw [List.getElem?_append_right h1, Nat.add_sub_cancel_left] at hx
      have hs := hA.step i ins h2 hx
      have e1 : code.length + i + 1 = code.length + (i + 1) := by omega
      have hi := hlt i h2
      cases ins with
      | jump o =>
        refine ⟨hs.1, ?_⟩
        rw [e1, Nat.add_assoc]
        exact hdec i _ (by omega) h2 hs.2
      | jumpIf o b =>
        refine ⟨hs.1, ?_, ?_⟩
        · rw [e1, Nat.add_assoc]
          exact hdec i _ (by omega) h2 hs.2.1
        · rw [e1]
          exact hdec i _ (by omega) h2 hs.2.2
      | ret =>
        show 0 < E' (code.length + i)
        rw [hnew]
        exact Nat.mul_pos (by omega) (by omega)
      | break_ => trivial
      | continue_ => trivial
      | call a =>
        have ha := hcal a hs.1
        refine ⟨.inl ha, by rw [e1]; exact hA' _ hs.2, ?_⟩
        rw [hold a ha, e1, hnew, hnew]
        have h1 := hB a ha
        have h3 : c.length - i = (c.length - (i + 1)) + 1 := by omega
        rw [h3, Nat.succ_mul]
        omega
      | _ =>
        show alive' (code.length + i + 1) ∧ E' (code.length + i + 1) < E' (code.length + i)
        rw [e1]
        exact hdec i _ (by omega) h2 hs
  · rintro pc (ha | ⟨h1, h2⟩)
    · rw [hold pc ha]
      exact Nat.le_trans (hB pc ha) (Nat.le_max_left _ _)
    · obtain ⟨i, rfl⟩ : ∃ i, pc = code.length + i := ⟨pc - code.length, by omega⟩
      rw [hnew]
      exact Nat.le_trans (Nat.mul_le_mul_right _ (by omega)) (Nat.le_max_right _ _)

/-! ## Code generation -/

section

variable {ds : List ADecl} {N : Nat} {L : Key → Prop} {env : FnEnv} {Cal : Nat → Prop}

open Gen

/-- The code of an expression: it goes forward, and is not much longer than the expression. -/
def ForwardE (Cal : Nat → Prop) (k : Nat) (c : List Instr) : Prop := Forward Cal c true ∧ c.length + 1 ≤ 4 * k

theorem forwardE_one {ins : Instr} {k : Nat} (h : ForwardStep Cal (fun i => i ≤ 1) 0 ins) (hk : 1 ≤ k) : ForwardE Cal k [ins] :=
  ⟨.one h, by simp; omega⟩

theorem forward_folded {cv : Option Value} {o : Outcome GenErr (List Instr)} {k : Nat} {c : List Instr} (hk : 1 ≤ k)
    (ho : ∀ c, o = .ok c → ForwardE Cal k c) (h : foldedC cv o = .ok c) : ForwardE Cal k c := by
  unfold foldedC at h
  split at h
  · cases h
  · cases h; exact forwardE_one (Nat.le_refl _) hk
  · exact ho c h

theorem forward_callInstr (hcal : ∀ j f a, env j = some f → f.address = some a → Cal a) {ref : Option Lookup} {c : List Instr}
    (h : callInstrC env ref = .ok c) : Forward Cal c true ∧ c.length ≤ 1 := by
  unfold callInstrC at h
  split at h
  · split at h
    · next f hf =>
      split at h
      · next a _ ha =>
        cases h
        exact ⟨.one ⟨hcal _ f a hf ha, Nat.le_refl _⟩, by simp⟩
      · cases h
    · cases h
      exact ⟨.nil, by simp⟩
  · cases h
    exact ⟨.one (Nat.le_refl _), by simp⟩
  · cases h

theorem forward_convertArg {ref : Option Lookup} {i : Nat} {e : Expr} {c : List Instr} (h : convertArgC env ref i e = .ok c) :
    Forward Cal c true ∧ c.length ≤ 1 := by
  unfold convertArgC at h
  split at h
  · cases h
  · split at h
    · cases h
      split
      · exact ⟨.one (Nat.le_refl _), by simp⟩
      · exact ⟨.nil, by simp⟩
    · cases h
    · cases h
    · cases h

theorem keysE_pos : (e : AExpr) → 1 ≤ (Inst.keysE e).length
  | .literal .. => by simp [Inst.keysE]
  | .id .. => by simp [Inst.keysE]
  | .conversion .. => by simp [Inst.keysE]
  | .ite .. => by simp [Inst.keysE]
  | .binary .. => by simp [Inst.keysE]
  | .prefix .. => by simp [Inst.keysE]
  | .call .. => by simp [Inst.keysE]

mutual

theorem forwardE (hcal : ∀ j f a, env j = some f → f.address = some a → Cal a) {b : Bool} : (e0 : AExpr) → ∀ e c, SimE ds N L b e0 e →
    exprC env e.erase = .ok c → ForwardE Cal (Inst.keysE e0).length c
  | .literal .., e, c, hs, h => by
    cases hs with | literal =>
    simp only [AExpr.erase, exprC] at h
    exact forward_folded (keysE_pos _) (fun _ h => by cases h) h
  | .id .., e, c, hs, h => by
    cases hs with | @id _ _ _ _ _ _ _ r =>
    simp only [AExpr.erase, exprC] at h
    refine forward_folded (keysE_pos _) (fun c h => ?_) h
    cases ht : (toTarget r : Outcome GenErr Key) with
    | ok k => rw [ht] at h; cases h; exact forwardE_one (Nat.le_refl _) (keysE_pos _)
    | _ => rw [ht] at h; cases h
  | .conversion k0 cv0 e0 t0, e, c, hs, h => by
    cases hs with | conversion _ h1 =>
    simp only [AExpr.erase, exprC] at h
    refine forward_folded (keysE_pos _) (fun c h => ?_) h
    simp only [Outcome.bind_eq_ok] at h
    obtain ⟨c1, hc1, h⟩ := h
    obtain ⟨f1, l1⟩ := forwardE hcal e0 _ c1 h1 hc1
    split at h
    · cases h
      refine ⟨f1.append (.one (Nat.le_refl _)), ?_⟩
      simp [Inst.keysE]
      omega
    · cases h
  | .ite k0 cv0 l0 b0 r0, e, c, hs, h => by
    cases hs with | ite _ h1 h2 h3 =>
    simp only [AExpr.erase, exprC] at h
    refine forward_folded (keysE_pos _) (fun c h => ?_) h
    simp only [Outcome.bind_eq_ok] at h
    obtain ⟨cb, hcb, cl, hcl, cr, hcr, h⟩ := h
    cases h
    obtain ⟨f1, l1⟩ := forwardE hcal b0 _ cb h2 hcb
    obtain ⟨f2, l2⟩ := forwardE hcal l0 _ cl h1 hcl
    obtain ⟨f3, l3⟩ := forwardE hcal r0 _ cr h3 hcr
    refine ⟨f1.append (f2.branch f3), ?_⟩
    simp [iteCode, Inst.keysE]
    omega
  | .binary k0 cv0 op l0 r0, e, c, hs, h => by
    cases hs with | binary _ h1 h2 =>
    simp only [AExpr.erase, exprC] at h
    refine forward_folded (keysE_pos _) (fun c h => ?_) h
    simp only [Outcome.bind_eq_ok] at h
    obtain ⟨cl, hcl, cr, hcr, h⟩ := h
    cases h
    obtain ⟨f2, l2⟩ := forwardE hcal l0 _ cl h1 hcl
    obtain ⟨f3, l3⟩ := forwardE hcal r0 _ cr h2 hcr
    split
    · refine ⟨f2.append (f3.branch (.one (ins := .push (CVal.ofBool (op = .logical_or))) (Nat.le_refl _))), ?_⟩
      simp [shortCode, Inst.keysE]
      omega
    · refine ⟨f2.append (f3.append (.one (Nat.le_refl _))), ?_⟩
      simp [Inst.keysE]
      omega
  | .prefix k0 cv0 op e0, e, c, hs, h => by
    cases hs with | pre _ h1 =>
    simp only [AExpr.erase, exprC] at h
    refine forward_folded (keysE_pos _) (fun c h => ?_) h
    simp only [Outcome.bind_eq_ok] at h
    obtain ⟨c1, hc1, h⟩ := h
    cases h
    obtain ⟨f1, l1⟩ := forwardE hcal e0 _ c1 h1 hc1
    refine ⟨f1.append (.one (Nat.le_refl _)), ?_⟩
    simp [Inst.keysE]
    omega
  | .call k0 cv0 st name r0 args0, e, c, hs, h => by
    cases hs with | call _ h1 h2 =>
    simp only [AExpr.erase, exprC] at h
    split at h
    · cases h
    · cases h
      split
      · exact ⟨.nil, by simp [Inst.keysE]; omega⟩
      · exact forwardE_one (Nat.le_refl _) (keysE_pos _)
    · simp only [Outcome.bind_eq_ok] at h
      obtain ⟨ca, hca, cc, hcc, h⟩ := h
      cases h
      obtain ⟨f1, l1⟩ := forwardEs hcal args0 _ _ _ ca h2 hca
      obtain ⟨f2, l2⟩ := forward_callInstr hcal hcc
      split
      · refine ⟨f1.append (f2.append (.one (Nat.le_refl _))), ?_⟩
        simp [Inst.keysE]
        omega
      · refine ⟨f1.append (f2.append .nil), ?_⟩
        simp [Inst.keysE]
        omega

theorem forwardEs (hcal : ∀ j f a, env j = some f → f.address = some a → Cal a) {b : Bool} : (es0 : List AExpr) → ∀ es r i c,
    SimEs ds N L b es0 es → argsC env r i (eraseAll es) = .ok c → Forward Cal c true ∧ c.length ≤ 4 * (Inst.keysEs es0).length
  | [], es, r, i, c, hs, h => by
    cases hs
    simp only [eraseAll, argsC] at h
    cases h
    exact ⟨.nil, by simp⟩
  | e0 :: es0, es, r, i, c, hs, h => by
    cases hs with | cons h1 h2 =>
    simp only [eraseAll, argsC, Outcome.bind_eq_ok] at h
    obtain ⟨c1, hc1, c2, hc2, c3, hc3, h⟩ := h
    cases h
    obtain ⟨f1, l1⟩ := forwardE hcal e0 _ c1 h1 hc1
    obtain ⟨f2, l2⟩ := forward_convertArg (Cal := Cal) hc2
    obtain ⟨f3, l3⟩ := forwardEs hcal es0 _ _ _ c3 h2 hc3
    refine ⟨f1.append (f2.append f3), ?_⟩
    simp [Inst.keysEs]
    omega

end

/-- The code of a statement: it gets to its end only if the statement does not return. -/
def ForwardS (Cal : Nat → Prop) (k : Nat) (ret : Prop) (c : List Instr) : Prop :=
  (∃ x, Forward Cal c x ∧ (ret → x = false)) ∧ c.length ≤ 4 * k

theorem ForwardE.stmt {k k' : Nat} {c : List Instr} (h : ForwardE Cal k c) (hk : k ≤ k') : ForwardS Cal k' False c :=
  ⟨⟨_, h.1, False.elim⟩, by have := h.2; omega⟩

theorem forward_return {ret : CType} {cv : Value} {e0 e : Option AExpr} {c : List Instr}
    (hcal : ∀ j f a, env j = some f → f.address = some a → Cal a) (hs : SameO (SimE ds N L false) e0 e)
    (h : returnC env ret cv (e.map AExpr.erase) = .ok c) : Forward Cal c false ∧ c.length ≤ 4 * ((Inst.keysO Inst.keysE e0).length + 1) := by
  have hret : Forward Cal [.ret] false := .stop (.inl rfl)
  unfold returnC at h
  split at h
  · cases h
  · split at h
    · cases h
      refine ⟨Forward.append (c := [.push ⟨cv.type, _⟩]) (.one (Nat.le_refl _)) hret, ?_⟩
      simp
      omega
    · cases hs with
      | none => cases h
      | @some e0 e hs =>
        simp only [Option.map_some, Outcome.bind_eq_ok] at h
        obtain ⟨c1, hc1, h⟩ := h
        obtain ⟨f1, l1⟩ := forwardE hcal e0 e c1 hs hc1
        split at h
        · cases h
        · cases h
          split
          · refine ⟨f1.append (Forward.append (c := [.convert ret]) (.one (Nat.le_refl _)) hret), ?_⟩
            simp [Inst.keysO]
            omega
          · refine ⟨f1.append (Forward.append (c := []) .nil hret), ?_⟩
            simp [Inst.keysO]
            omega

mutual

theorem forwardS (hcal : ∀ j f a, env j = some f → f.address = some a → Cal a) {ret : Option CType} : (s0 : AStmt) → ∀ s c,
    SimS ds N L s0 s → LoopFreeS s0 → stmtC env ret s.erase = .ok c → ForwardS Cal (Inst.keysS s0).length (ReturnsS s0) c
  | .const_ .., s, c, hs, hl, h => by
    cases hs with | const_ =>
    simp only [AStmt.erase, stmtC] at h
    split at h <;> cases h
    exact ⟨⟨_, .nil, fun h => by simp [ReturnsS] at h⟩, by simp⟩
  | .let_ _ _ _ ty0 e0, s, c, hs, hl, h => by
    cases hs with | let_ _ _ h1 =>
    simp only [AStmt.erase, stmtC] at h
    split at h
    · cases h
    · cases h1 with
      | none =>
        cases h
        exact ⟨⟨_, .nil, fun h => by simp [ReturnsS] at h⟩, by simp⟩
      | @some e0 e h1 =>
        simp only [Option.map_some, Outcome.bind_eq_ok] at h
        obtain ⟨c1, hc1, h⟩ := h
        cases h
        obtain ⟨f1, l1⟩ := forwardE hcal e0 e c1 h1 hc1
        refine ⟨⟨_, f1.append (.one (Nat.le_refl _)), fun h => by simp [ReturnsS] at h⟩, ?_⟩
        simp [Inst.keysS, Inst.keysO]
        omega
  | .staticAssert .., s, c, hs, hl, h => by
    cases hs with | staticAssert =>
    simp only [AStmt.erase, stmtC] at h
    split at h <;> cases h
    exact ⟨⟨_, .nil, fun h => by simp [ReturnsS] at h⟩, by simp⟩
  | .ifThen _ _ b0 t0, s, c, hs, hl, h => by
    cases hs with | ifThen _ h1 h2 =>
    simp only [LoopFreeS] at hl
    simp only [AStmt.erase, stmtC, Outcome.bind_eq_ok] at h
    obtain ⟨cb, hcb, ct, hct, h⟩ := h
    cases h
    obtain ⟨f1, l1⟩ := forwardE hcal b0 _ cb h1 hcb
    obtain ⟨⟨x, f2, -⟩, l2⟩ := forwardS hcal t0 _ ct h2 hl hct
    refine ⟨⟨_, f1.append f2.skip, fun h => by simp [ReturnsS] at h⟩, ?_⟩
    simp [Inst.keysS]
    omega
  | .ifElse _ _ b0 t0 e0, s, c, hs, hl, h => by
    cases hs with | ifElse _ h1 h2 h3 =>
    simp only [LoopFreeS] at hl
    simp only [AStmt.erase, stmtC, Outcome.bind_eq_ok] at h
    obtain ⟨cb, hcb, ct, hct, ce, hce, h⟩ := h
    cases h
    obtain ⟨f1, l1⟩ := forwardE hcal b0 _ cb h1 hcb
    obtain ⟨⟨x, f2, r2⟩, l2⟩ := forwardS hcal t0 _ ct h2 hl.1 hct
    obtain ⟨⟨y, f3, r3⟩, l3⟩ := forwardS hcal e0 _ ce h3 hl.2 hce
    refine ⟨⟨_, f1.append (f2.branch f3), fun h => ?_⟩, ?_⟩
    · simp only [ReturnsS] at h
      rw [r2 h.1, r3 h.2]
      rfl
    · simp [iteCode, Inst.keysS]
      omega
  | .while_ .., s, c, hs, hl, h => by
    simp only [LoopFreeS] at hl
  | .control _ _ ctl e0, s, c, hs, hl, h => by
    cases hs with | control _ h1 =>
    simp only [AStmt.erase, stmtC] at h
    split at h
    · split at h
      · cases h
        exact ⟨⟨_, .stop (.inr (.inl rfl)), fun _ => rfl⟩, by simp [Inst.keysS]; omega⟩
      · cases h
        exact ⟨⟨_, .stop (.inr (.inr rfl)), fun _ => rfl⟩, by simp [Inst.keysS]; omega⟩
      · obtain ⟨f1, l1⟩ := forward_return hcal h1 h
        exact ⟨⟨_, f1, fun _ => rfl⟩, by simp [Inst.keysS]; omega⟩
    · cases h
  | .assign _ _ _ r0 e0, s, c, hs, hl, h => by
    cases hs with | @assign _ _ _ _ _ _ r _ e _ _ h1 =>
    simp only [AStmt.erase, stmtC] at h
    split at h
    · cases h
    · simp only [Outcome.bind_eq_ok] at h
      obtain ⟨c1, hc1, h⟩ := h
      obtain ⟨f1, l1⟩ := forwardE hcal e0 _ c1 h1 hc1
      cases ht : (toTarget r : Outcome GenErr Key) with
      | ok k =>
        rw [ht] at h
        cases h
        refine ⟨⟨_, f1.append (.one (Nat.le_refl _)), fun h => by simp [ReturnsS] at h⟩, ?_⟩
        simp [Inst.keysS]
        omega
      | _ => rw [ht] at h; cases h
  | .block _ _ ss0, s, c, hs, hl, h => by
    cases hs with | block h1 =>
    simp only [LoopFreeS] at hl
    simp only [AStmt.erase, stmtC] at h
    obtain ⟨⟨x, f1, r1⟩, l1⟩ := forwardSs hcal ss0 _ c h1 hl h
    refine ⟨⟨x, f1, fun h => r1 (by simpa only [ReturnsS] using h)⟩, ?_⟩
    simp [Inst.keysS]
    omega
  | .call e0, s, c, hs, hl, h => by
    cases hs with | call h1 =>
    simp only [AStmt.erase, stmtC] at h
    obtain ⟨f1, l1⟩ := forwardE hcal e0 _ c h1 h
    refine ⟨⟨_, f1, fun h => by simp [ReturnsS] at h⟩, ?_⟩
    simp [Inst.keysS]
    omega

theorem forwardSs (hcal : ∀ j f a, env j = some f → f.address = some a → Cal a) {ret : Option CType} : (ss0 : List AStmt) → ∀ ss c,
    SimSs ds N L ss0 ss → LoopFreeSs ss0 → stmtsC env ret (eraseStmts ss) = .ok c →
    ForwardS Cal (Inst.keysSs ss0).length (ReturnsSs ss0) c
  | [], ss, c, hs, hl, h => by
    cases hs
    simp only [eraseStmts, stmtsC] at h
    cases h
    exact ⟨⟨_, .nil, fun h => by simp [ReturnsSs] at h⟩, by simp⟩
  | s0 :: ss0, ss, c, hs, hl, h => by
    cases hs with | cons h1 h2 =>
    simp only [LoopFreeSs] at hl
    simp only [eraseStmts, stmtsC, Outcome.bind_eq_ok] at h
    obtain ⟨c1, hc1, c2, hc2, h⟩ := h
    cases h
    obtain ⟨⟨x, f1, r1⟩, l1⟩ := forwardS hcal s0 _ c1 h1 hl.1 hc1
    obtain ⟨⟨y, f2, r2⟩, l2⟩ := forwardSs hcal ss0 _ c2 h2 hl.2 hc2
    refine ⟨⟨_, f1.append f2, fun h => ?_⟩, ?_⟩
    · simp only [ReturnsSs] at h
      rcases h with h | h
      · rw [r1 h]; rfl
      · rw [r2 h]; simp
    · simp [Inst.keysSs]
      omega

end

/-- A control statement among the children that is a `return`. -/
theorem returns_of_control : (ss0 ss : List AStmt) → SimSs ds N L ss0 ss →
    .return_ ∈ (eraseStmts ss).filterMap controlOf → ReturnsSs ss0
  | [], ss, hs, h => by
    cases hs
    simp [eraseStmts] at h
  | s0 :: ss0, ss, hs, h => by
    cases hs with | cons h1 h2 =>
    simp only [eraseStmts, List.filterMap_cons] at h
    simp only [ReturnsSs]
    cases h1 with
    | @control k0 k cv0 cv c =>
      simp only [AStmt.erase, controlOf, List.mem_cons] at h
      rcases h with h | h
      · exact .inl (by simp [ReturnsS, ← h])
      · exact .inr (returns_of_control ss0 _ h2 h)
    | _ =>
      simp only [AStmt.erase, controlOf] at h
      exact .inr (returns_of_control ss0 _ h2 h)

theorem forward_stores : (l : List Key) → Forward Cal (l.map Instr.store) true
  | [] => .nil
  | k :: l => Forward.append (c := [.store k]) (.one (Nat.le_refl _)) (forward_stores l)

theorem flatMap_pos : (ps : List AParam) → ps.length ≤ (ps.flatMap fun p => Inst.keysT p.type).length
  | [] => by simp
  | p :: ps => by
    have := flatMap_pos ps
    have h1 : 1 ≤ (Inst.keysT p.type).length := by cases p.type <;> simp [Inst.keysT]
    simp only [List.flatMap_cons, List.length_append, List.length_cons]
    omega

/-- The code of a function. -/
theorem forwardF (hcal : ∀ j f a, env j = some f → f.address = some a → Cal a) {f0 f : AFn} (hs : SimF ds N L f0 f)
    (hl : LoopFreeSs f0.body) (hr : VoidT f0.ret ∨ ReturnsSs f0.body) {c : List Instr} (h : functionC env f.node = .ok c) :
    Forward Cal c false ∧ c.length ≤ 4 * (Inst.keys f0).length := by
  unfold functionC at h
  split at h
  · cases h
  · simp only [Outcome.bind_eq_ok] at h
    obtain ⟨b, hb, e, he, h⟩ := h
    cases h
    obtain ⟨⟨x, f1, r1⟩, l1⟩ := forwardSs hcal f0.body f.body b hs.body hl hb
    have hp : f.params.length ≤ (f0.params.flatMap fun p => Inst.keysT p.type).length := by
      rw [forall₂_length hs.params]
      exact flatMap_pos _
    have hst : Forward Cal (f.node.params.reverse.map Instr.store) true := forward_stores _
    have hlen : (f.node.params.reverse.map Instr.store).length = f.params.length := by simp [AFn.node]
    have hret : Forward Cal [.push CVal.void, .ret] false :=
      Forward.append (c := [.push CVal.void]) (.one (Nat.le_refl _)) (.stop (.inl rfl))
    have hk : (f0.params.flatMap fun p => Inst.keysT p.type).length + (Inst.keysSs f0.body).length + 2 ≤ (Inst.keys f0).length := by
      simp [Inst.keys]
      omega
    have main : ∀ {y : Bool}, Forward Cal e y → (x && y) = false → e.length ≤ 2 →
        Forward Cal (f.node.params.reverse.map Instr.store ++ (b ++ e)) false ∧
          (f.node.params.reverse.map Instr.store ++ (b ++ e)).length ≤ 4 * (Inst.keys f0).length := by
      intro y hy hxy hle
      refine ⟨(hst.append (f1.append hy)).weaken fun h => by simp [hxy] at h, ?_⟩
      rw [List.length_append, List.length_append, hlen]
      omega
    unfold epilogueC at he
    split at he
    · next hv =>
      cases he
      have hr' : ReturnsSs f0.body := by
        rcases hr with hr | hr
        · refine absurd ?_ hv
          have hst := hs.ret
          show f.ret.eraseType = some .void
          generalize f0.ret = t0 at hr hst
          generalize f.ret = t at hst
          cases hst with
          | @base _ _ _ _ bt _ => cases bt <;> simp [VoidT] at hr; rfl
          | uint => simp [VoidT] at hr
        · exact hr
      exact main .nil (by rw [r1 hr']; rfl) (by simp)
    · unfold returnsUnconditionally at he
      cases hfs : (f.node.body.reverse.findSome? controlOf) with
      | none =>
        rw [hfs] at he
        cases he
        exact main hret (by simp) (by simp)
      | some ctl =>
        rw [hfs] at he
        cases ctl with
        | return_ =>
          cases he
          have : ReturnsSs f0.body := by
            refine returns_of_control f0.body f.body hs.body ?_
            obtain ⟨s, hs1, hs2⟩ := List.exists_of_findSome?_eq_some hfs
            exact List.mem_filterMap.2 ⟨s, by simpa [AFn.node] using hs1, hs2⟩
          exact main .nil (by rw [r1 this]; rfl) (by simp)
        | _ => cases he

end

end Bms
