import Verif.Spec.DocDump
import Verif.Lemmas.DocErrors
import Verif.Lemmas.BmdTree

/-!
The nodes of a document lie in each other.
-/

namespace Bms.Bmd

open Spec (Ident)

theorem coversAll_iff {lo hi : Nat} {ns : List Node} : CoversAll lo hi ns ↔ ∀ n ∈ ns, Covers lo hi n := by
  induction ns with
  | nil => simp [CoversAll]
  | cons n ns ih => simp [CoversAll, ih]

/-- A node that covers something, in a range. -/
def CoversSome (lo hi : Nat) (n : Node) : Prop := Covers lo hi n ∧ n.start < n.stop

theorem covers_in {lo hi lo' hi' : Nat} {n : Node} (h : CoversSome lo hi n) (hs : SpanIn lo' hi' n) :
    CoversSome lo' hi' n := by
  obtain ⟨h, hlt⟩ := h
  obtain ⟨h1, h2⟩ := hs
  refine ⟨?_, hlt⟩
  cases n <;> simp only [Covers, Node.start, Node.stop] at *
  · exact ⟨h1, by omega, h2, h.2.2.2⟩
  · exact ⟨h1, by omega, h2, h.2.2.2⟩
  · exact ⟨h1, by omega, h2⟩

theorem covers_span {lo hi : Nat} {n : Node} (h : Covers lo hi n) : SpanIn lo hi n := by
  cases n <;> simp only [Covers, SpanIn, Node.start, Node.stop] at *
  · exact ⟨h.1, h.2.2.1⟩
  · exact ⟨h.1, h.2.2.1⟩
  · exact ⟨h.1, h.2.2⟩

theorem valueIn_mono {lo hi lo' hi' : Nat} {v : Value} (h : ValueIn lo hi v) (h1 : lo' ≤ lo) (h2 : hi ≤ hi') :
    ValueIn lo' hi' v := ⟨Nat.le_trans h1 h.1, h.2.1, Nat.le_trans h.2.2 h2⟩

theorem value_covers {v : Value} {p : Position} {t : List Char} (h : ValueIs v p t) :
    ValueIn p.start (p.start + t.length) v := by
  cases h with
  | ident h =>
    obtain ⟨c, u, rfl, -⟩ := ident_char h
    exact ⟨Nat.le_refl _, by simp [Value.start, Value.stop], Nat.le_refl _⟩
  | number h =>
    obtain ⟨c, u, rfl, -⟩ := literal_char h
    exact ⟨Nat.le_refl _, by simp [Value.start, Value.stop], Nat.le_refl _⟩

theorem args_cover {seen args p t} (h : ArgsIs seen args p t) :
    ∀ a ∈ args, ValueIn p.start (p.start + t.length) a.2 := by
  induction h with
  | @last seen name v p b1 b2 b3 b4 t _ _ _ _ _ hv _ =>
    intro a ha
    rw [List.mem_singleton.1 ha]
    have := value_covers hv
    rw [after_start] at this
    exact valueIn_mono this (by omega) (by simp only [List.length_append, List.length_cons]; omega)
  | @more seen name v p b1 b2 b3 b4 t args u _ _ _ _ _ hv _ _ ih =>
    intro a ha
    rcases List.mem_cons.1 ha with rfl | ha
    · have := value_covers hv
      rw [after_start] at this
      exact valueIn_mono this (by omega) (by simp only [List.length_append, List.length_cons]; omega)
    · have := ih a ha
      rw [after_start] at this
      exact valueIn_mono this (by omega)
        (by simp only [List.length_append, List.length_cons, List.length_nil]; omega)

theorem arguments_cover {args p t} (h : ArgumentsIs args p t) :
    ∀ a ∈ args, ValueIn p.start (p.start + t.length) a.2 := by
  cases h with
  | none => simp
  | some h =>
    intro a ha
    have := args_cover h a ha
    rw [after_start] at this
    exact valueIn_mono this (by omega) (by simp only [List.length_cons, List.length_nil]; omega)

/-- There are nodes in a paragraph. -/
def Group.Filled : Group → Prop
  | .paragraph ns => ns ≠ []
  | .single _ => True

theorem paragraphs_filled (nodes : List (Node × Bool)) : ∀ g ∈ paragraphs nodes, g.Filled := by
  induction nodes with
  | nil => intro g hg; cases hg
  | cons n ns ih =>
    obtain ⟨n, b⟩ := n
    unfold paragraphs
    by_cases hs : standsAlone n = true
    · rw [if_pos hs]
      intro g hg
      rcases List.mem_cons.1 hg with rfl | hg
      · trivial
      · exact ih g hg
    · rw [if_neg hs]
      by_cases hb : b = true
      · rw [if_pos hb]
        intro g hg
        rcases List.mem_cons.1 hg with rfl | hg
        · simp [Group.Filled]
        · exact ih g hg
      · rw [if_neg hb]
        intro g hg
        unfold joinFront at hg
        split at hg
        · rename_i h
          rcases List.mem_cons.1 hg with rfl | hg
          · simp [Group.Filled]
          · exact ih g (by rw [h]; exact List.mem_cons_of_mem _ hg)
        · rcases List.mem_cons.1 hg with rfl | hg
          · simp [Group.Filled]
          · exact ih g hg

theorem shows_covers {lo hi gs ns} (h : Shows lo hi gs ns) (hf : ∀ g ∈ gs, g.Filled)
    (hg : ∀ g ∈ gs, ∀ m ∈ g.nodes, CoversSome lo hi m) : CoversAll lo hi ns := by
  induction h with
  | nil => exact trivial
  | single _ _ ih =>
    exact ⟨(hg _ (List.mem_cons_self ..) _ (by simp [Group.nodes])).1,
      ih (fun g h => hf g (by simp [h])) fun g h => hg g (by simp [h])⟩
  | @paragraph nodes p len gs ns hs hi' _ ih =>
    refine ⟨?_, ih (fun g h => hf g (by simp [h])) fun g h => hg g (by simp [h])⟩
    have hn : nodes ≠ [] := hf _ (List.mem_cons_self ..)
    have hc : ∀ m ∈ nodes, CoversSome p.start (p.start + len) m :=
      fun m hm => covers_in (hg _ (List.mem_cons_self ..) m hm) (hi' m hm)
    have h1 := hs.1
    have h2 := hs.2
    simp only [Node.start, Node.stop] at h1 h2
    obtain ⟨m, hm⟩ := List.exists_mem_of_ne_nil _ hn
    have h3 := hc m hm
    have h4 := (hi' m hm).1
    have h5 := (hi' m hm).2
    have h6 := h3.2
    unfold Covers
    exact ⟨h1, by omega, h2, coversAll_iff.2 fun m hm => (hc m hm).1⟩

theorem covers_map {lo hi : Nat} {nodes : List (Node × Bool)}
    (h : ∀ n ∈ nodes, CoversSome lo hi n.1) : CoversAll lo hi (nodes.map Prod.fst) := by
  rw [coversAll_iff]
  intro n hn
  obtain ⟨m, hm, rfl⟩ := List.mem_map.1 hn
  exact (h m hm).1

theorem coversSome_mono {lo hi lo' hi' : Nat} {n : Node} (h : CoversSome lo hi n) (h1 : lo' ≤ lo)
    (h2 : hi ≤ hi') : CoversSome lo' hi' n := by
  have := covers_span h.1
  exact covers_in h ⟨Nat.le_trans h1 this.1, Nat.le_trans this.2 h2⟩

theorem block_mono {lo hi lo' hi' : Nat} {b : Option Node} (h : CoversBlock lo hi b) (h1 : lo' ≤ lo)
    (h2 : hi ≤ hi') : CoversBlock lo' hi' b := by
  cases b with
  | none => trivial
  | some n =>
    cases n <;> simp only [CoversBlock, Covers] at *
    · exact ⟨by omega, by omega, by omega, h.2.2.2⟩
    · exact ⟨by omega, by omega, by omega, h.2.2.2⟩
    · omega

/-- Nodes in this range that cover something. -/
def SeriesCovers (lo hi : Nat) (nodes : List (Node × Bool)) : Prop := ∀ n ∈ nodes, CoversSome lo hi n.1

theorem series_covers {ctx nodes p t} (h : Series ctx nodes p t) :
    SeriesCovers p.start (p.start + t.length) nodes := by
  refine Series.rec (motive_1 := fun n p t _ _ => CoversSome p.start (p.start + t.length) n)
    (motive_2 := fun ctx nodes p t _ => SeriesCovers p.start (p.start + t.length) nodes)
    (motive_3 := fun ctx b p t _ => CoversBlock p.start (p.start + t.length) b)
    ?_ ?_ ?_ ?_ ?_ ?_ ?_ ?_ ?_ ?_ ?_ h
  · intro p t r ht
    have := List.length_pos_iff.2 ht.nonempty
    unfold CoversSome Covers Node.start Node.stop
    exact ⟨⟨Nat.le_refl _, by omega, Nat.le_refl _⟩, by simpa using this⟩
  · intro p name type args a block b r h1 h2 h3 h4 h5 h6 h7 ih
    have hl : 0 < ('\\' :: name ++ a ++ b).length := by simp
    unfold CoversSome Covers Node.start Node.stop
    refine ⟨⟨Nat.le_refl _, by omega, Nat.le_refl _, ?_, ?_⟩, by simpa using hl⟩
    · intro x hx
      have := arguments_cover h3 x hx
      rw [after_start] at this
      exact valueIn_mono this (by omega) (by simp only [List.length_append, List.length_cons]; omega)
    · rw [after_start] at ih
      exact block_mono ih (by omega) (by simp only [List.length_append, List.length_cons]; omega)
  · intro _ _ n hn; cases hn
  · intro ctx node broken rest p t b u h1 h2 h3 h4 h5 ih1 ih2 n hn
    rcases List.mem_cons.1 hn with rfl | hn
    · exact coversSome_mono ih1 (Nat.le_refl _) (by simp only [List.length_append]; omega)
    · have := ih2 n hn
      rw [after_start] at this
      exact coversSome_mono this (by omega) (by simp only [List.length_append]; omega)
  · intros; exact trivial
  · intro p t h1 h2
    unfold CoversBlock Covers
    rw [after_start]
    simp only [List.length_append, List.length_cons, List.length_nil]
    omega
  · intro p b t h1 h2 h3 h4
    unfold CoversBlock Covers
    rw [after_start]
    simp only [List.length_append, List.length_cons, List.length_nil]
    omega
  · intros; exact trivial
  · intro p b t nodes h1 h2 h3 h4 h5 h6 ih
    unfold CoversBlock Covers
    refine ⟨?_, ?_, ?_, covers_map ih⟩ <;> rw [after_start] <;>
      simp only [List.length_append, List.length_cons, List.length_nil] <;> omega
  · intro p b t broken nodes elements h1 h2 h3 h4 h5 h6 ih
    unfold CoversBlock Covers
    refine ⟨?_, ?_, ?_, shows_covers h6 (paragraphs_filled nodes) (paragraphs_nodes ih)⟩ <;> rw [after_start] <;>
      simp only [List.length_append, List.length_cons, List.length_nil] <;> omega
  · intro type p b t broken nodes h1 h2 h3 h4 h5 h6 ih
    unfold CoversBlock Covers
    refine ⟨?_, ?_, ?_, covers_map fun n hn => coversSome_mono (ih n hn) ?_ ?_⟩ <;>
      simp only [after_start, List.length_append, List.length_cons, List.length_nil] <;> omega

theorem document_covers {root source} (h : DocumentIs root source) : CoversBlock 0 source.length root := by
  cases h with
  | empty _ => exact trivial
  | @content b broken t nodes elements _ _ h3 h4 h5 =>
    have hl := List.length_pos_iff.2 h3
    unfold CoversBlock Covers
    refine ⟨Nat.zero_le _, ?_, ?_, shows_covers h5 (paragraphs_filled nodes) (paragraphs_nodes (series_covers h4))⟩ <;>
      rw [after_start] <;> simp only [List.length_append] <;> omega

end Bms.Bmd
