import Verif.Lemmas.DocHtmlDoc

/-!
# Conversion of documents: what the parser returns
-/

namespace Bms.Bmd

open Spec HtmlWriter

theorem value_sane {v : Value} {p t} (h : ValueIs v p t) : ∀ q x, v = .ident q x → Ident x := by
  cases h with
  | ident h => rintro q x ⟨⟩; exact h
  | number _ => rintro q x ⟨⟩

theorem args_sane {seen args p t} (h : ArgsIs seen args p t) : SaneArgs args := by
  induction h with
  | last _ h2 _ _ _ h6 _ =>
    intro a ha
    rw [List.mem_singleton] at ha
    subst ha
    exact ⟨h2, value_sane h6⟩
  | more _ h2 _ _ _ h6 _ _ ih =>
    intro a ha
    rcases List.mem_cons.mp ha with rfl | ha
    · exact ⟨h2, value_sane h6⟩
    · exact ih a ha

theorem arguments_sane {args p t} (h : ArgumentsIs args p t) : SaneArgs args := by
  cases h with
  | none => intro a ha; cases ha
  | some h => exact args_sane h

/-- A node that is a text or a directive with a block as it has to be. -/
def SaneSelf : Node → Prop
  | .text .. => True
  | .directive _ _ type name args block => SaneHead type name args ∧ SaneBlock (contentTypeOf type) block
  | .list .. => False

theorem saneNodes_of {ctx : ContentType} (hc : ctx = .span ∨ ctx = .list ∨ ctx = .meta_)
    {nodes : List (Node × Bool)} (h : ∀ n ∈ nodes, SaneSelf n.1 ∧ Allowed ctx n.1) :
    SaneNodes ctx (nodes.map Prod.fst) := by
  induction nodes with
  | nil => exact trivial
  | cons n ns ih =>
    refine ⟨?_, ih (fun m hm => h m (by simp [hm]))⟩
    obtain ⟨h1, h2⟩ := h n (by simp)
    obtain ⟨n, b⟩ := n
    cases n with
    | list p len cs => exact h2
    | text p len s =>
      simp only [Allowed] at h2
      rcases h2 with rfl | rfl
      · exact rfl
      · simp at hc
    | directive p len type name args block =>
      refine ⟨?_, h1.1, h1.2⟩
      simp only [Allowed] at h2
      rcases hc with rfl | rfl | rfl
      · simpa [contentAllows] using h2
      · simpa [contentAllows] using h2
      · simpa [contentAllows] using h2

/-- A group as it has to be. -/
def SaneGroup : Group → Prop
  | .paragraph nodes => nodes ≠ [] ∧ SaneNodes .span nodes
  | .single n => SaneTop n

theorem joinFront_sane {n : Node} {gs : List Group} (hn : SaneNode .span n) (h : ∀ g ∈ gs, SaneGroup g) :
    ∀ g ∈ joinFront n gs, SaneGroup g := by
  have single : SaneGroup (.paragraph [n]) := ⟨by simp, hn, trivial⟩
  unfold joinFront
  split
  · rename_i nodes gs
    intro g hg
    rcases List.mem_cons.mp hg with rfl | hg
    · exact ⟨by simp, hn, (h _ (List.mem_cons_self ..)).2⟩
    · exact h g (by simp [hg])
  · intro g hg
    rcases List.mem_cons.mp hg with rfl | hg
    · exact single
    · exact h g hg

theorem paragraphs_sane {nodes : List (Node × Bool)} (h : ∀ n ∈ nodes, SaneSelf n.1 ∧ Allowed .block n.1) :
    ∀ g ∈ paragraphs nodes, SaneGroup g := by
  induction nodes with
  | nil => intro g hg; cases hg
  | cons n ns ih =>
    obtain ⟨n, b⟩ := n
    have ih := ih (fun m hm => h m (by simp [hm]))
    obtain ⟨h1, h2⟩ := h (n, b) (by simp)
    unfold paragraphs
    by_cases hs : standsAlone n = true
    · rw [if_pos hs]
      intro g hg
      rcases List.mem_cons.mp hg with rfl | hg
      · cases n with
        | list p len cs => simp [standsAlone] at hs
        | text p len s => simp [standsAlone] at hs
        | directive p len type name args block =>
          exact ⟨by simpa [standsAlone] using hs, h1.1, h1.2⟩
      · exact ih g hg
    · rw [if_neg hs]
      have hn : SaneNode .span n := by
        cases n with
        | list p len cs => exact h2
        | text p len s => exact rfl
        | directive p len type name args block =>
          refine ⟨?_, h1.1, h1.2⟩
          simp only [Allowed, contentAllows, Bool.or_eq_true, decide_eq_true_eq] at h2
          simp only [standsAlone, decide_eq_true_eq] at hs
          rcases h2 with h2 | h2
          · simpa using h2
          · exact absurd h2 hs
      by_cases hb : b = true
      · rw [if_pos hb]
        intro g hg
        rcases List.mem_cons.mp hg with rfl | hg
        · exact ⟨by simp, hn, trivial⟩
        · exact ih g hg
      · rw [if_neg hb]
        exact joinFront_sane hn ih

theorem shows_sane {lo hi gs ns} (h : Shows lo hi gs ns) (hg : ∀ g ∈ gs, SaneGroup g) : SaneTops ns := by
  induction h with
  | nil => exact trivial
  | single _ _ ih => exact ⟨hg _ (List.mem_cons_self ..), ih (fun g h => hg g (by simp [h]))⟩
  | paragraph _ _ _ ih => exact ⟨hg _ (List.mem_cons_self ..), ih (fun g h => hg g (by simp [h]))⟩

theorem series_sane {ctx nodes p t} (h : Series ctx nodes p t) :
    ∀ n ∈ nodes, SaneSelf n.1 ∧ Allowed ctx n.1 := by
  refine Series.rec (motive_1 := fun n _ _ _ _ => SaneSelf n)
    (motive_2 := fun ctx nodes _ _ _ => ∀ n ∈ nodes, SaneSelf n.1 ∧ Allowed ctx n.1)
    (motive_3 := fun ctx b _ _ _ => SaneBlock ctx b)
    ?_ ?_ ?_ ?_ ?_ ?_ ?_ ?_ ?_ ?_ ?_ h
  · intros; exact trivial
  · intro _ _ _ _ _ _ _ _ _ h2 h3 _ _ _ _ ih
    exact ⟨⟨h2, arguments_sane h3⟩, ih⟩
  · intro _ _ n hn; cases hn
  · intro _ _ _ _ _ _ _ _ _ h2 _ _ _ ih1 ih2 n hn
    rcases List.mem_cons.mp hn with rfl | hn
    · exact ⟨ih1, h2⟩
    · exact ih2 n hn
  · intros; exact trivial
  · intros; exact .inl rfl
  · intros; exact .inr rfl
  · intros; exact trivial
  · intro _ _ _ _ _ _ _ _ _ _ ih
    exact .inl ⟨.inl rfl, saneNodes_of (.inl rfl) ih⟩
  · intro _ _ _ _ _ _ _ _ _ _ _ h6 ih
    exact .inr ⟨rfl, shows_sane h6 (paragraphs_sane ih)⟩
  · intro _ _ _ _ _ _ h1 _ _ _ _ _ ih
    exact .inl ⟨.inr h1, saneNodes_of (.inr h1) ih⟩

/-- What the parser returns is as it has to be. -/
theorem document_sane {root source} (h : DocumentIs root source) : SaneRoot root := by
  cases h with
  | empty _ => exact trivial
  | content _ _ _ h4 h5 => exact shows_sane h5 (paragraphs_sane (series_sane h4))

end Bms.Bmd
