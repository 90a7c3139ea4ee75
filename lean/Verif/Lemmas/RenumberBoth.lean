import Verif.Lemmas.RenumberAna
import Verif.Lemmas.RenumberNew

/-!
# Other addresses of nodes: a renumbering for two programs
-/

namespace Bms

open Spec

namespace Renumber

/-- The numbers below a bound that are not listed. -/
def others (n : Nat) (l : List Nat) : List Nat := (List.range n).filter fun k => decide (k ∉ l)

theorem others_perm {n : Nat} {l : List Nat} (hl : l.Nodup) (hn : ∀ k ∈ l, k < n) : (l ++ others n l).Perm (List.range n) := by
  refine (List.perm_ext_iff_of_nodup ?_ List.nodup_range).mpr fun k => ?_
  · refine List.nodup_append.mpr ⟨hl, List.nodup_range.filter _, ?_⟩
    intro a ha b hb e
    subst e
    simp only [others, List.mem_filter, decide_eq_true_eq] at hb
    exact hb.2 ha
  · simp only [List.mem_append, others, List.mem_filter, List.mem_range, decide_eq_true_eq]
    constructor
    · rintro (h | h)
      · exact hn k h
      · exact h.1
    · intro h
      by_cases hk : k ∈ l
      · exact .inl hk
      · exact .inr ⟨h, hk⟩

/-- Two numberings with different addresses can be translated, such that the addresses of copies correspond. -/
theorem exists_shift {as bs : List Key} {n m : Nat} (hl : as.length = bs.length) (ha : as.Nodup) (hb : bs.Nodup)
    (han : ∀ k ∈ as, k < n ∧ k ≠ 0) (hbm : ∀ k ∈ bs, k < m ∧ k ≠ 0) (h0 : 0 < n) (hnm : n ≤ m) :
    ∃ τ : Key → Key, Ren τ ∧ as.map τ = bs ∧ ∀ k, τ (k + n) = τ k + m := by
  have ha0 : ((0 : Nat) :: as).Nodup := List.nodup_cons.mpr ⟨fun h => (han 0 h).2 rfl, ha⟩
  have hb0 : ((0 : Nat) :: bs).Nodup := List.nodup_cons.mpr ⟨fun h => (hbm 0 h).2 rfl, hb⟩
  have pa := others_perm (n := n) ha0 fun k h => by
    rcases List.mem_cons.mp h with rfl | h
    · exact h0
    · exact (han k h).1
  have pb := others_perm (n := m) hb0 fun k h => by
    rcases List.mem_cons.mp h with rfl | h
    · exact Nat.lt_of_lt_of_le h0 hnm
    · exact (hbm k h).1
  have la := pa.length_eq
  have lb := pb.length_eq
  simp only [List.length_append, List.length_cons, List.length_range] at la lb
  generalize hca : others n ((0 : Nat) :: as) = ca at *
  generalize hcb : others m ((0 : Nat) :: bs) = cb at *
  have lt : (cb.take ca.length).length = ca.length := by
    rw [List.length_take]
    omega
  have hsub : (((0 : Nat) :: bs) ++ cb.take ca.length).Sublist (((0 : Nat) :: bs) ++ cb) :=
    (List.Sublist.refl _).append (List.take_sublist _ _)
  have hlen : (((0 : Nat) :: as) ++ ca).length = (((0 : Nat) :: bs) ++ cb.take ca.length).length := by
    simp only [List.length_append, List.length_cons, lt, hl]
  have hna : (((0 : Nat) :: as) ++ ca).Nodup := pa.nodup_iff.mpr List.nodup_range
  have hnb : (((0 : Nat) :: bs) ++ cb.take ca.length).Nodup := (pb.nodup_iff.mpr List.nodup_range).sublist hsub
  have hma : ∀ k : Nat, k < n → k ∈ ((0 : Nat) :: as) ++ ca := fun k h => pa.mem_iff.mpr (List.mem_range.mpr h)
  have hmb : ∀ k : Nat, k ∈ ((0 : Nat) :: bs) ++ cb.take ca.length → k < m := fun k h =>
    List.mem_range.mp (pb.mem_iff.mp (hsub.mem h))
  generalize hA : ((0 : Nat) :: as) ++ ca = A at *
  generalize hB : ((0 : Nat) :: bs) ++ cb.take ca.length = B at *
  have hlt : ∀ k : Nat, place A B 0 (k % n) < m := fun k => hmb _ (place_mem hlen (hma _ (Nat.mod_lt _ h0)))
  have hmap := place_map (m := 0) hlen hna
  rw [← hA, ← hB, List.map_append] at hmap
  have hmap2 := (List.append_inj hmap (by simp only [List.length_map, List.length_cons, hl])).1
  simp only [List.map_cons, List.cons.injEq] at hmap2
  rw [hA, hB] at hmap2
  have hm0 : 0 < m := Nat.lt_of_lt_of_le h0 hnm
  refine ⟨fun k => (place A B 0 (k % n) + m * (k / n) : Nat), ⟨fun a b e => ?_, ?_⟩, ?_, fun k => ?_⟩
  · have e' : place A B 0 (a % n) + m * (a / n) = place A B 0 (b % n) + m * (b / n) := e
    have h1 : a / n = b / n := by
      have := congrArg (· / m) e'
      simp only [Nat.add_mul_div_left _ _ hm0, Nat.div_eq_of_lt (hlt _), Nat.zero_add] at this
      exact this
    rw [h1] at e'
    have h2 := place_inj hlen hnb (hma _ (Nat.mod_lt a h0)) (hma _ (Nat.mod_lt b h0)) (Nat.add_right_cancel e')
    rw [← Nat.mod_add_div a n, ← Nat.mod_add_div b n, h2, h1]
  · show place A B 0 (0 % n) + m * (0 / n) = 0
    rw [Nat.zero_mod, Nat.zero_div, Nat.mul_zero, Nat.add_zero]
    exact hmap2.1
  · refine Eq.trans (List.map_congr_left fun k hk => ?_) hmap2.2
    have := (han k hk).1
    show place A B 0 (k % n) + m * (k / n) = place A B 0 k
    rw [Nat.mod_eq_of_lt this, Nat.div_eq_of_lt this, Nat.mul_zero, Nat.add_zero]
  · show place A B 0 ((k + n) % n) + m * ((k + n) / n) = place A B 0 (k % n) + m * (k / n) + m
    rw [Nat.add_mod_right, Nat.add_div_right _ h0, Nat.mul_succ, Nat.add_assoc]

end Renumber

end Bms
