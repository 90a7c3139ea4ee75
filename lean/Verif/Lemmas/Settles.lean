import Verif.Lemmas.BlameFn
import Verif.Lemmas.CodeForward

/-!
# Analyses that end

An analysis with a bound settles if its result is the same for all large bounds, and not that the bound was
reached.
-/

namespace Bms

open Spec

/-- For large bounds, the analysis has a result that does not depend on the bound; if it succeeds, it does so
with `P`. -/
def Settles {α : Type} (P : α → ASt → Prop) (x : Nat → AM α) (s : ASt) : Prop :=
  ∃ M r, r ≠ ARes.timeout ∧ (∀ n, M ≤ n → x n s = r) ∧ ∀ a s', r = .ok a s' → P a s'

namespace Settles

variable {α β : Type} {P : α → ASt → Prop} {Q : β → ASt → Prop} {s : ASt}

theorem bind {x : Nat → AM α} {f : Nat → α → AM β} (hx : Settles P x s)
    (hf : ∀ a s', P a s' → Settles Q (fun n => f n a) s') : Settles Q (fun n => x n >>= f n) s := by
  obtain ⟨M, r, h1, h2, h3⟩ := hx
  have hb : ∀ n, M ≤ n → (x n >>= f n) s = AM.bind (fun _ => r) (f n) s := by
    intro n hn
    show AM.bind (x n) (f n) s = _
    unfold AM.bind
    rw [h2 n hn]
  cases r with
  | ok a s' =>
    obtain ⟨M', r', h1', h2', h3'⟩ := hf a s' (h3 a s' rfl)
    refine ⟨max M M', r', h1', fun n hn => ?_, h3'⟩
    exact (hb n (by omega)).trans (h2' n (by omega))
  | timeout => exact (h1 rfl).elim
  | err e => exact ⟨M, .err e, by simp, fun n hn => hb n hn, fun _ _ h => by cases h⟩
  | throws => exact ⟨M, .throws, by simp, fun n hn => hb n hn, fun _ _ h => by cases h⟩
  | ub => exact ⟨M, .ub, by simp, fun n hn => hb n hn, fun _ _ h => by cases h⟩

theorem mono {P' : α → ASt → Prop} {x : Nat → AM α} (h : Settles P x s) (hp : ∀ a s', P a s' → P' a s') : Settles P' x s := by
  obtain ⟨M, r, h1, h2, h3⟩ := h
  exact ⟨M, r, h1, h2, fun a s' h => hp a s' (h3 a s' h)⟩

/-- What is known about successes is also known about results. -/
theorem with_ {E : AErr → Prop} {P' : α → ASt → Prop} {x : Nat → AM α} (h : Settles P x s) (hb : ∀ n, Bl E P' (x n) s) :
    Settles (fun a s' => P' a s' ∧ P a s') x s := by
  obtain ⟨M, r, h1, h2, h3⟩ := h
  refine ⟨M, r, h1, h2, fun a s' h => ⟨?_, h3 a s' h⟩⟩
  have := hb M
  unfold Bl at this
  rw [h2 M (Nat.le_refl _), h] at this
  exact this

/-- The bound may be one larger. -/
theorem of_succ {x : Nat → AM α} (h : Settles P (fun n => x (n + 1)) s) : Settles P x s := by
  obtain ⟨M, r, h1, h2, h3⟩ := h
  refine ⟨M + 1, r, h1, fun n hn => ?_, h3⟩
  have : x (n - 1 + 1) s = r := h2 (n - 1) (by omega)
  rwa [Nat.sub_add_cancel (by omega)] at this

theorem const {x : AM α} (h : x s ≠ .timeout) : Settles (fun a s' => x s = .ok a s') (fun _ => x) s :=
  ⟨0, x s, h, fun _ _ => rfl, fun _ _ h => h⟩

theorem pure {a : α} (h : P a s) : Settles P (fun _ => (Pure.pure a : AM α)) s :=
  ⟨0, .ok a s, by simp, fun _ _ => rfl, fun _ _ e => by cases e; exact h⟩
theorem throws : Settles P (fun _ => (AM.throws : AM α)) s := ⟨0, .throws, by simp, fun _ _ => rfl, fun _ _ e => by cases e⟩
theorem ub : Settles P (fun _ => (AM.ub : AM α)) s := ⟨0, .ub, by simp, fun _ _ => rfl, fun _ _ e => by cases e⟩
theorem fail {code : ACode} {k : Key} : Settles P (fun _ => (AM.fail code k : AM α)) s :=
  ⟨0, .err ⟨code, k⟩, by simp, fun _ _ => rfl, fun _ _ e => by cases e⟩

theorem ite {c : Prop} [Decidable c] {x y : Nat → AM α} (hx : c → Settles P x s) (hy : ¬ c → Settles P y s) :
    Settles P (fun n => if c then x n else y n) s := by
  by_cases h : c
  · simp only [if_pos h]; exact hx h
  · simp only [if_neg h]; exact hy h

theorem read_bind {f : Nat → ASt → AM β} (h : Settles Q (fun n => f n s) s) : Settles Q (fun n => AM.read >>= f n) s := h
theorem modify_bind {g : ASt → ASt} {f : Nat → Unit → AM β} (h : Settles Q (fun n => f n ()) (g s)) :
    Settles Q (fun n => AM.modify g >>= f n) s := h
theorem modify {P : Unit → ASt → Prop} {f : ASt → ASt} (h : P () (f s)) : Settles P (fun _ => AM.modify f) s :=
  ⟨0, .ok () (f s), by simp, fun _ _ => rfl, fun _ _ e => by cases e; exact h⟩

theorem value_bind {o : Option α} {f : Nat → α → AM β} (h : ∀ a, o = some a → Settles Q (fun n => f n a) s) :
    Settles Q (fun n => AM.value o >>= f n) s := by
  cases o with
  | none => exact throws
  | some a => exact h a rfl

theorem deref_bind {o : Option α} {f : Nat → α → AM β} (h : ∀ a, o = some a → Settles Q (fun n => f n a) s) :
    Settles Q (fun n => AM.deref o >>= f n) s := by
  cases o with
  | none => exact ub
  | some a => exact h a rfl

theorem assert_bind {b : Bool} {f : Nat → Unit → AM β} (h : b = true → Settles Q (fun n => f n ()) s) :
    Settles Q (fun n => AM.assert b >>= f n) s := by
  cases b with
  | true => exact h rfl
  | false => exact throws

theorem assert {P : Unit → ASt → Prop} {b : Bool} (h : P () s) : Settles P (fun _ => AM.assert b) s := by
  cases b with
  | true => exact pure h
  | false => exact throws

theorem lift_bind {ε : Type} {g : ε → AErr} {o : Outcome ε α} {f : Nat → α → AM β} (h : ∀ a, o = .ok a → Settles Q (fun n => f n a) s) :
    Settles Q (fun n => AM.lift g o >>= f n) s := by
  cases o with
  | ok a => exact h a rfl
  | err e => exact ⟨0, .err (g e), by simp, fun _ _ => rfl, fun _ _ e => by cases e⟩
  | throws => exact throws
  | ub => exact ub

theorem get_bind {o : Outcome AErr α} {f : Nat → α → AM β} (h : ∀ a, o = .ok a → Settles Q (fun n => f n a) s) :
    Settles Q (fun n => AM.get o >>= f n) s := lift_bind h

theorem checked_bind {o : Outcome CheckErr α} {k : Key} {f : Nat → α → AM β} (h : ∀ a, o = .ok a → Settles Q (fun n => f n a) s) :
    Settles Q (fun n => Ana.checked k o >>= f n) s := lift_bind h

theorem fold_bind {o : Outcome EvalErr Value} {t : CType} {b : Bool} {k : Key} {f : Nat → Value → AM β}
    (h : ∀ v, Settles Q (fun n => f n v) s) : Settles Q (fun n => Bms.foldResult o t b k >>= f n) s := by
  cases o with
  | ok a => exact h a
  | err e =>
    cases b with
    | false => exact h _
    | true => exact fail
  | throws => exact throws
  | ub => exact ub

theorem updateFn_bind {k : Key} {g : AFn → AFn} {h : Nat → Unit → AM β}
    (hx : ∀ f, s.fns k = some f → Settles Q (fun n => h n ()) (s.setFn k (g f))) : Settles Q (fun n => Ana.updateFn k g >>= h n) s := by
  unfold Ana.updateFn
  simp only [bind_assoc]
  exact .read_bind (.value_bind fun f hf => .modify_bind (hx f hf))

end Settles

/-! ## The state -/

/-- The address of a function. -/
def addressAt (s : ASt) (k : Key) : Option Nat := (s.fns k).bind AFn.address

/-- The functions of a program. -/
def fnsOf : List ADecl → List AFn
  | [] => []
  | .function f :: ds => f :: fnsOf ds
  | _ :: ds => fnsOf ds

theorem mem_fnsOf {f : AFn} : (ds : List ADecl) → (f ∈ fnsOf ds ↔ .function f ∈ ds)
  | [] => by simp [fnsOf]
  | .function g :: ds => by simp [fnsOf, mem_fnsOf ds]
  | .const_ .. :: ds => by simp [fnsOf, mem_fnsOf ds]
  | .staticAssert .. :: ds => by simp [fnsOf, mem_fnsOf ds]

/-- A bound for the code of those functions that have an address. -/
def codeSize (ds : List ADecl) (s : ASt) : Nat :=
  ((fnsOf ds).map fun f => if addressAt s f.k = none then 0 else 4 * (Inst.keys f).length).sum

theorem codeSize_le (s : ASt) : (ds : List ADecl) → codeSize ds s ≤ 4 * (ds.flatMap nodeKeys).length
  | [] => by simp [codeSize, fnsOf]
  | .function f :: ds => by
    have := codeSize_le s ds
    unfold codeSize at this ⊢
    simp only [fnsOf, List.map_cons, List.sum_cons, List.flatMap_cons, List.length_append, nodeKeys]
    split <;> omega
  | .const_ .. :: ds => by
    have := codeSize_le s ds
    unfold codeSize at this ⊢
    simp only [fnsOf, List.flatMap_cons, List.length_append]
    omega
  | .staticAssert .. :: ds => by
    have := codeSize_le s ds
    unfold codeSize at this ⊢
    simp only [fnsOf, List.flatMap_cons, List.length_append]
    omega

theorem sum_more {α : Type} {g g' : α → Nat} {d : Nat} {y : α} : (l : List α) → (∀ x ∈ l, g x ≤ g' x) → y ∈ l → g y + d ≤ g' y →
    (l.map g).sum + d ≤ (l.map g').sum
  | [], _, hy, _ => by cases hy
  | x :: l, h, hy, hd => by
    simp only [List.map_cons, List.sum_cons]
    have hx := h x (by simp)
    have hall : ∀ (l : List α), (∀ x ∈ l, g x ≤ g' x) → (l.map g).sum ≤ (l.map g').sum := by
      intro l
      induction l with
      | nil => simp
      | cons a l ih =>
        intro h
        have := ih fun x hx => h x (by simp [hx])
        have := h a (by simp)
        simp only [List.map_cons, List.sum_cons]
        omega
    rcases List.mem_cons.1 hy with rfl | hy
    · have := hall l fun x hx => h x (by simp [hx])
      omega
    · have := sum_more l (fun x hx => h x (by simp [hx])) hy hd
      omega

/-- What is known about a function. -/
structure FnGood (ds : List ADecl) (N next : Nat) (j : Key) (f : AFn) : Prop where
  level : f.address ≠ none → f.level = .forConst
  inst : N ≤ j → ∀ f0, .function f0 ∈ ds → f0.k = j % N → f0.generic = true
  instances : ∀ i ∈ f.instances, N ≤ i.key
  fresh : j < next

/-- What is known about a state: the code ends, wherever a call may lead. -/
structure Good (ds : List ADecl) (N : Nat) (s : ASt) : Prop where
  ranked : ∃ alive E B, Ranked s.code alive E ∧ (∀ pc, alive pc → E pc ≤ B) ∧ ∀ j a, addressAt s j = some a → alive a
  size : s.code.length ≤ codeSize ds s
  fns : ∀ j f, s.fns j = some f → FnGood ds N s.next j f

/-- The functions that are being analyzed are the same, and the functions in `K` have the same addresses. -/
def Keep (K : Key → Prop) (s s' : ASt) : Prop := s'.stack = s.stack ∧ ∀ j, K j → addressAt s' j = addressAt s j

section

variable {ds : List ADecl} {N : Nat} {s s' : ASt} {K : Key → Prop}

theorem Keep.refl (s : ASt) : Keep K s s := ⟨rfl, fun _ _ => rfl⟩
theorem Keep.trans {a b c : ASt} (h1 : Keep K a b) (h2 : Keep K b c) : Keep K a c :=
  ⟨h2.1.trans h1.1, fun j hj => (h2.2 j hj).trans (h1.2 j hj)⟩

theorem Good.same (h : Good ds N s) (hc : s'.code = s.code) (ha : ∀ j, addressAt s' j = addressAt s j)
    (hf : ∀ j f, s'.fns j = some f → FnGood ds N s'.next j f) : Good ds N s' := by
  obtain ⟨alive, E, B, h1, h2, h3⟩ := h.ranked
  refine ⟨⟨alive, E, B, by rw [hc]; exact h1, h2, fun j a hj => h3 j a (by rw [← ha]; exact hj)⟩, ?_, hf⟩
  rw [hc]
  unfold codeSize
  simp only [ha]
  exact h.size

theorem addressAt_setFn {k : Key} {f f' : AFn} (hf : s.fns k = some f) (ha : f'.address = f.address) (j : Key) :
    addressAt (s.setFn k f') j = addressAt s j := by
  unfold addressAt ASt.setFn
  simp only
  by_cases h : j = k
  · rw [if_pos h, h, hf]
    exact ha
  · rw [if_neg h]

/-- A function is written, with the same address. -/
theorem Good.setFn (h : Good ds N s) {k : Key} {f f' : AFn} (hf : s.fns k = some f) (ha : f'.address = f.address)
    (hl : f'.address ≠ none → f'.level = .forConst) (hi : ∀ i ∈ f'.instances, N ≤ i.key) :
    Good ds N (s.setFn k f') := by
  refine h.same rfl (addressAt_setFn hf ha) fun j g hj => ?_
  simp only [ASt.setFn] at hj
  by_cases he : j = k
  · rw [if_pos he] at hj
    cases hj
    have h0 := h.fns k f hf
    subst he
    exact ⟨hl, h0.inst, hi, h0.fresh⟩
  · rw [if_neg he] at hj
    exact h.fns j g hj

theorem keep_setFn {k : Key} {f f' : AFn} (hf : s.fns k = some f) (ha : f'.address = f.address) : Keep K s (s.setFn k f') :=
  ⟨rfl, fun j _ => addressAt_setFn hf ha j⟩

theorem Good.setDecl (h : Good ds N s) {k : Key} {d : Decl} : Good ds N (s.setDecl k d) :=
  h.same rfl (fun _ => rfl) h.fns

theorem keep_setDecl {k : Key} {d : Decl} : Keep K s (s.setDecl k d) := ⟨rfl, fun _ _ => rfl⟩

theorem Good.stack (h : Good ds N s) (l : List Key) : Good ds N { s with stack := l } :=
  h.same rfl (fun _ => rfl) h.fns

/-- The code of a function is added. -/
theorem Good.load (hg : BGiven ds N) (h : Good ds N s) (hb : BInv ds N s) {k : Key} {f f' f0 : AFn} (hf : s.fns k = some f)
    (hf0 : FnBl ds N (Live s) k f f0) (hk : k = f0.k) (hnone : f.address = none) (hloop : LoopFreeSs f0.body)
    (hret : VoidT f0.ret ∨ ReturnsSs f0.body) {code : List Instr} {a : Nat} (hl : loadFunction s.env f.node s.code = .ok (code, a))
    (h1 : f'.address = some a) (h2 : f'.level = .forConst) (h3 : ∀ i ∈ f'.instances, N ≤ i.key) :
    Good ds N (({ s with code := code } : ASt).setFn k f') := by
  have hld : ∃ c, Gen.functionC s.env f.node = .ok c ∧ code = s.code ++ c ∧ a = s.code.length := by
    unfold loadFunction at hl
    obtain ⟨j, hj, hjc⟩ := Gen.function_comp s.env f.node s.code
    rw [hj] at hl
    cases hc : Gen.functionC s.env f.node with
    | ok c =>
      rw [hc] at hl
      simp only [Outcome.map_ok, Outcome.ok.injEq, Prod.mk.injEq] at hl
      exact ⟨c, rfl, by rw [← hl.1, hjc c hc], hl.2.symm⟩
    | err e => rw [hc] at hl; cases hl
    | throws => rw [hc] at hl; cases hl
    | ub => rw [hc] at hl; cases hl
  obtain ⟨c, hc, rfl, rfl⟩ := hld
  obtain ⟨hfw, hlen⟩ := forwardF (Cal := fun a => ∃ j, addressAt s j = some a) (fun j i a hj ha => by
    simp only [ASt.env] at hj
    cases hfn : s.fns j with
    | none => rw [hfn] at hj; cases hj
    | some g =>
      rw [hfn] at hj
      cases hj
      exact ⟨j, by unfold addressAt; rw [hfn]; exact ha⟩) hf0.sim hloop hret hc
  obtain ⟨alive, E, B, r1, r2, r3⟩ := h.ranked
  obtain ⟨alive', E', B', q1, q2, q3, q4⟩ := r1.append r2 hfw fun a ⟨j, hj⟩ => r3 j a hj
  have hadr : ∀ j, addressAt (({ s with code := s.code ++ c } : ASt).setFn k f') j = if j = k then some s.code.length else addressAt s j := by
    intro j
    unfold addressAt ASt.setFn
    simp only
    by_cases he : j = k
    · rw [if_pos he, if_pos he]
      exact h1
    · rw [if_neg he, if_neg he]
  have hnone' : addressAt s k = none := by unfold addressAt; rw [hf]; exact hnone
  refine ⟨⟨alive', E', B', q1, q2, fun j a hj => ?_⟩, ?_, fun j g hj => ?_⟩
  · rw [hadr] at hj
    by_cases he : j = k
    · rw [if_pos he] at hj
      cases hj
      exact q4
    · rw [if_neg he] at hj
      exact q3 a (r3 j a hj)
  · show (s.code ++ c).length ≤ _
    rw [List.length_append]
    refine Nat.le_trans (Nat.add_le_add h.size hlen) ?_
    refine sum_more _ (fun g hgm => ?_) ((mem_fnsOf ds).2 hf0.mem) ?_
    · simp only [hadr]
      by_cases he : g.k = k
      · rw [he, if_pos hnone']
        exact Nat.zero_le _
      · rw [if_neg he]
        exact Nat.le_refl _
    · simp only [hadr]
      rw [← hk, if_pos hnone', if_pos rfl]
      simp
  · simp only [ASt.setFn] at hj
    by_cases he : j = k
    · rw [if_pos he] at hj
      cases hj
      have h0 := h.fns k f hf
      subst he
      exact ⟨fun _ => h2, h0.inst, h3, h0.fresh⟩
    · rw [if_neg he] at hj
      exact h.fns j g hj

end

end Bms
