import Verif.Lemmas.DocHtmlCode

/-!
# Conversion of documents: the text of code
-/

namespace Bms.Bmd

open Spec

/-- White space without trailing spaces is line ends and then spaces. -/
theorem gap_shape {gap : List Char} (hw : ∀ c ∈ gap, c = ' ' ∨ c = '\n') (h : ¬ [' ', '\n'] <:+: gap) :
    ∃ k m, gap = List.replicate k '\n' ++ List.replicate m ' ' := by
  induction gap with
  | nil => exact ⟨0, 0, rfl⟩
  | cons c gap ih =>
    obtain ⟨k, m, e⟩ := ih (fun d hd => hw d (List.mem_cons_of_mem _ hd))
      (fun hi => h (hi.trans (List.suffix_cons c gap).isInfix))
    rcases hw c (List.mem_cons_self ..) with rfl | rfl
    · cases k with
      | zero => exact ⟨0, m + 1, by rw [e]; rfl⟩
      | succ k =>
        exfalso
        apply h
        rw [e]
        exact ⟨[], List.replicate k '\n' ++ List.replicate m ' ', rfl⟩
    · exact ⟨k + 1, m, by rw [e]; rfl⟩

theorem foldl_newlines (k : Nat) (p : Position) :
    (List.replicate (k + 1) '\n').foldl Position.advance p = ⟨p.line + (k + 1), 0, p.start + (k + 1)⟩ := by
  induction k generalizing p with
  | zero => rfl
  | succ k ih =>
    rw [List.replicate_succ, List.foldl_cons, ih]
    simp only [Position.advance]
    simp
    omega

theorem foldl_spaces (m : Nat) (p : Position) :
    (List.replicate m ' ').foldl Position.advance p = p.toRight m :=
  by
  have := foldl_advance_plain p (seg := List.replicate m ' ') (by
    intro c hc
    rw [List.eq_of_mem_replicate hc]
    decide)
  simpa using this

/-- The white space that is shown is the white space between the tokens. -/
theorem codeGap_text {a b : Token} {gap : List Char} (hw : ∀ c ∈ gap, c = ' ' ∨ c = '\n')
    (h : ¬ [' ', '\n'] <:+: gap) (hp : b.pos = gap.foldl Position.advance (a.pos.toRight a.length)) :
    codeGap a b = gap := by
  obtain ⟨k, m, rfl⟩ := gap_shape hw h
  rw [List.foldl_append, foldl_spaces] at hp
  unfold codeGap
  rw [hp]
  cases k with
  | zero =>
    simp only [List.replicate_zero, List.foldl_nil, Position.toRight, ne_eq, not_true_eq_false, if_false,
      List.nil_append]
    rw [Nat.add_sub_cancel_left]
  | succ k =>
    rw [foldl_newlines]
    have e : a.pos.line ≠ a.pos.line + (k + 1) := by omega
    simp only [Position.toRight, ne_eq, if_pos e, Nat.add_sub_cancel_left, Nat.zero_add]

/-- The position behind a token within a line. -/
theorem positionAfter_line {src : List Char} {t : Token} {next : Position} (h1 : '\t' ∉ src) (h2 : '\r' ∉ src)
    (h3 : '\n' ∉ textOf src t) (h : positionAfter src t.pos t.length t.type = .ok next) :
    next = t.pos.toRight t.length := by
  rcases positionAfter_cases src t.pos t.length t.type with ⟨-, h'⟩ | ⟨-, hlt, h'⟩ | ⟨_, _, h'⟩
  · rw [h] at h'; cases h'; rfl
  · rw [h] at h'; cases h'
    have := foldl_advance_plain t.pos (seg := textOf src t) (by
      intro c hc hs
      have hm : c ∈ src := List.mem_of_mem_drop (List.mem_of_mem_take hc)
      rcases hs with rfl | rfl | rfl
      · exact h1 hm
      · exact h2 hm
      · exact h3 hc)
    unfold textOf at this
    rw [this, List.length_take, List.length_drop, Nat.min_eq_left (by omega)]
  · rw [h] at h'; cases h'

theorem not_infix_drop {x s a b c : List Char} {n : Nat} (h : ¬ x <:+: s) (hd : s.drop n = a ++ b ++ c) :
    ¬ x <:+: b := by
  intro hi
  apply h
  refine hi.trans ?_
  refine List.IsInfix.trans ⟨a, c, hd.symm⟩ (List.drop_suffix n s).isInfix

/-- From the first token to the end of the last one, the text of the items is the code. -/
theorem steps_text {src : List Char} {p q : Position} {ts : List Token} (h : Steps src p ts q)
    (ht : Tidy src ts) {t : Token} {us : List Token} (hts : ts = t :: us) :
    src.drop t.pos.start = itemsText (codeItems src ts) ++ src.drop q.start := by
  induction h generalizing t us with
  | nil => cases hts
  | @cons p t next ts q _ h1 h2 h3 ih =>
    cases hts
    have hn := positionAfter_line ht.noTab ht.noReturn (ht.oneLine t (List.mem_cons_self ..)) h2
    have hsplit : src.drop t.pos.start = textOf src t ++ src.drop next.start := by
      rw [hn]
      unfold textOf Position.toRight
      rw [← List.drop_drop, List.take_append_drop]
    cases h3 with
    | nil =>
      rw [hsplit]
      simp [codeItems, itemsText, itemText]
    | @cons p t' next' ts' q _ h4 h5 h6 =>
      obtain ⟨hlt, gap, c, cs, hq, hm⟩ := nextToken_some h4
      have e1 : src.drop next.start = gap ++ src.drop t'.pos.start := by rw [hq.split, hq.rest]
      have e2 : codeGap t t' = gap := by
        refine codeGap_text ?_ ?_ (by rw [hq.pos, hn])
        · intro d hd
          have hmem : d ∈ src := List.mem_of_mem_drop (i := next.start) (by rw [hq.split]; simp [hd])
          rcases hq.white d hd with h | rfl | rfl | h
          · exact .inl h
          · exact absurd hmem ht.noTab
          · exact absurd hmem ht.noReturn
          · exact .inr h
        · exact not_infix_drop (a := []) ht.noTrailing hq.split
      have ih := ih ⟨ht.noTab, ht.noReturn, ht.noTrailing,
        fun u hu => ht.oneLine u (List.mem_cons_of_mem _ hu)⟩ rfl
      rw [hsplit, e1, ih]
      have e3 : itemsText (codeItems src (t :: t' :: ts')) =
          textOf src t ++ (codeGap t t' ++ itemsText (codeItems src (t' :: ts'))) := by
        simp [codeItems, itemsText, itemText]
      rw [e3, e2]
      simp only [List.append_assoc]

/-- The text of tidy code is the code, apart from white space at the ends. -/
theorem tidy_text {code : List Char} {ts : List Token} (h : programTokens code = some ts) (ht : Tidy code ts) :
    ∃ a b, (∀ c ∈ a, White c) ∧ (∀ c ∈ b, White c) ∧ code = a ++ itemsText (codeItems code ts) ++ b := by
  have h : tokenize code = some (ts, .ok ()) := by
    unfold programTokens at h
    split at h
    · rename_i h'; rw [h']; cases h; rfl
    · cases h
  obtain ⟨us, last, q, h1, h2, h3⟩ := loop_run h
  have hl : last = [] := by cases h2 <;> rfl
  rw [hl] at h3
  simp only [List.nil_append, List.append_nil] at h3
  rw [h3] at ht ⊢
  have hrest : q.start ≤ code.length ∧ ∀ c ∈ code.drop q.start, White c := by
    cases h2 with
    | done he => rw [he]; simp
    | white hlt hw => exact ⟨Nat.le_of_lt hlt, hw⟩
  cases us with
  | nil =>
    cases h1
    exact ⟨code, [], hrest.2, by simp, by simp [codeItems, itemsText]⟩
  | cons t us =>
    have h' := steps_text h1 ht rfl
    cases h1 with
    | cons _ h4 _ _ =>
      obtain ⟨-, gap, c, cs, hq, -⟩ := nextToken_some h4
      refine ⟨gap, code.drop q.start, hq.white, hrest.2, ?_⟩
      have := hq.split
      rw [← hq.rest, h'] at this
      simpa using this

end Bms.Bmd
