import Verif.Spec.Diagnostics
import Verif.Lemmas.Positions
import Verif.Props.ToString

/-!
# Lines and reports
-/

namespace Bms.Diag

open Spec

theorem seen_append (a b : Out) : seen (a ++ b) = seen a ++ seen b := by
  induction a with
  | nil => rfl
  | cons p a ih => cases p <;> simp [seen, ih]

theorem seen_color (colors : Bool) (c : List Char) : seen (color colors (.ansi c)) = [] := by
  cases colors <;> rfl

/-! ## Numbers -/

theorem decimalDigit_eq {n : Nat} (h : n < 10) : decimalDigit n = Nat.digitChar n := by
  have : n = 0 ∨ n = 1 ∨ n = 2 ∨ n = 3 ∨ n = 4 ∨ n = 5 ∨ n = 6 ∨ n = 7 ∨ n = 8 ∨ n = 9 := by omega
  rcases this with rfl | rfl | rfl | rfl | rfl | rfl | rfl | rfl | rfl | rfl <;> decide

theorem stdToString_decimal (n : Nat) : stdToString n = decimal n := by
  unfold decimal
  induction n using Nat.strongRecOn with
  | ind n ih =>
    by_cases h : n < 10
    · rw [stdToString_small h, Nat.toDigits_of_lt_base h, decimalDigit_eq h]
    · rw [stdToString_big h, Nat.toDigits_of_base_le (by omega) (by omega), ih _ (by omega),
        decimalDigit_eq (Nat.mod_lt _ (by omega))]

/-! ## Lines -/

theorem rfindNewline_none {s : List Char} {n : Nat} (h : ∀ i, i < n → s[i]? ≠ some '\n') :
    rfindNewline s n = none := by
  induction n with
  | zero => rfl
  | succ n ih =>
    rw [rfindNewline, if_neg (h n (by omega)), ih fun i hi => h i (by omega)]

theorem rfindNewline_some {s : List Char} {n b : Nat} (hb : b < n) (hs : s[b]? = some '\n')
    (h : ∀ i, b < i → i < n → s[i]? ≠ some '\n') : rfindNewline s n = some b := by
  induction n with
  | zero => omega
  | succ n ih =>
    rw [rfindNewline]
    by_cases hn : b = n
    · rw [← hn, if_pos hs]
    · rw [if_neg (h n (by omega) (by omega)), ih (by omega) fun i h1 h2 => h i h1 (by omega)]

theorem findNewline_eq {s l r : List Char} {i : Nat} (hs : s.drop i = l ++ r) (hl : '\n' ∉ l)
    (hr : r = [] ∨ r.head? = some '\n') :
    findNewline s i = if r = [] then none else some (i + l.length) := by
  unfold findNewline
  rw [hs, List.findIdx?_append]
  have h1 : l.findIdx? (fun x => decide (x = '\n')) = none := by
    rw [List.findIdx?_eq_none_iff]
    intro x hx
    simp only [decide_eq_false_iff_not]
    rintro rfl
    exact hl hx
  rw [h1]
  cases r with
  | nil => rfl
  | cons c r =>
    have : c = '\n' := by simpa using hr
    subst this
    simp [List.findIdx?_cons, Nat.add_comm]

/-- The line that contains a character that is not a line feed. -/
theorem findLine_eq {source before line after : List Char} {index offset : Nat}
    (h : LineAt source before line after index offset) (ho : offset < line.length) :
    findLine source index = .ok line := by
  obtain ⟨h1, h2, h3, h4, h5, -⟩ := h
  have hlen := congrArg List.length h1
  simp only [List.length_append] at hlen
  rw [findLine, if_pos (by omega)]
  have hline : ∀ i, before.length ≤ i → i < before.length + line.length →
      source[i]? ≠ some '\n' := by
    intro i hi hi' he
    rw [h1, List.append_assoc, List.getElem?_append_right hi,
      List.getElem?_append_left (by omega)] at he
    exact h4 (List.mem_of_getElem? he)
  have hbegin : ((rfindNewline source (index + 1)).map (· + 1)).getD 0 = before.length := by
    rcases h2 with rfl | h2
    · rw [rfindNewline_none (fun i hi => hline i (by simp) (by simp at *; omega))]; rfl
    · have hne : 0 < before.length := by
        cases before with
        | nil => simp at h2
        | cons => simp
      rw [rfindNewline_some (b := before.length - 1) (by omega) ?_
        (fun i hi hi' => hline i (by omega) (by omega))]
      · simp only [Option.map_some, Option.getD_some]; omega
      · rw [h1, List.append_assoc, List.getElem?_append_left (by omega),
          ← List.getLast?_eq_getElem?, h2]
  have hend : min ((findNewline source (index + 1)).getD source.length) source.length =
      before.length + line.length := by
    have hd : source.drop (index + 1) = line.drop (offset + 1) ++ after := by
      rw [h1, List.append_assoc, h5, Nat.add_assoc, List.drop_append, List.drop_of_length_le (by omega),
        List.nil_append, Nat.add_sub_cancel_left, List.drop_append_of_le_length (by omega)]
    rw [findNewline_eq hd (fun hm => h4 (List.mem_of_mem_drop hm)) h3]
    by_cases ha : after = []
    · rw [if_pos ha]
      simp only [ha, List.length_nil, Nat.add_zero] at hlen
      simp only [Option.getD_none]
      omega
    · rw [if_neg ha]
      simp only [List.length_drop, Option.getD_some]
      omega
  simp only [hbegin, hend]
  rw [h1, List.append_assoc, List.drop_left, Nat.add_sub_cancel_left, List.take_left]

/-- At a line feed, it is the line behind it. -/
theorem findLine_newline {before line after : List Char} (hl : '\n' ∉ line)
    (ha : after = [] ∨ after.head? = some '\n') :
    findLine (before ++ '\n' :: line ++ after) before.length = .ok line := by
  have hlen : (before ++ '\n' :: line ++ after).length = before.length + 1 + line.length + after.length := by
    simp; omega
  rw [findLine, if_pos (by omega)]
  rw [rfindNewline_some (b := before.length) (by omega) (by simp) (fun i h1 h2 => by omega)]
  have hd : (before ++ '\n' :: line ++ after).drop (before.length + 1) = line ++ after := by
    rw [List.append_assoc, List.drop_append]
    simp
  rw [findNewline_eq hd hl ha]
  have hend : min ((if after = [] then none else some (before.length + 1 + line.length)).getD
      (before ++ '\n' :: line ++ after).length) (before ++ '\n' :: line ++ after).length =
      before.length + 1 + line.length := by
    by_cases h : after = []
    · rw [if_pos h]
      simp only [h, List.length_nil, Nat.add_zero, Option.getD_none] at hlen ⊢
      omega
    · rw [if_neg h]; simp only [Option.getD_some]; omega
  simp only [hend, hd, Option.map_some, Option.getD_some]
  rw [Nat.add_sub_cancel_left, List.take_left]

/-- Every index in the source is in exactly one line. -/
theorem lineAt_exists (a b : List Char) :
    ∃ before line after offset, LineAt (a ++ b) before line after a.length offset ∧
      a = before ++ line.take offset ∧ b = line.drop offset ++ after := by
  have hb : ∃ l r, b = l ++ r ∧ '\n' ∉ l ∧ (r = [] ∨ r.head? = some '\n') := by
    induction b with
    | nil => exact ⟨[], [], rfl, by simp, .inl rfl⟩
    | cons c b ih =>
      by_cases hc : c = '\n'
      · exact ⟨[], c :: b, rfl, by simp, .inr (by simp [hc])⟩
      · obtain ⟨l, r, h1, h2, h3⟩ := ih
        refine ⟨c :: l, r, by simp [h1], ?_, h3⟩
        simp only [List.mem_cons, not_or]
        exact ⟨fun h => hc h.symm, h2⟩
  have ha : ∃ l r, a = l ++ r ∧ '\n' ∉ r ∧ (l = [] ∨ l.getLast? = some '\n') := by
    clear hb
    induction a with
    | nil => exact ⟨[], [], rfl, by simp, .inl rfl⟩
    | cons c a ih =>
      obtain ⟨l, r, h1, h2, h3⟩ := ih
      by_cases hl : l = []
      · subst hl
        by_cases hc : c = '\n'
        · exact ⟨[c], r, by simp [h1], h2, .inr (by simp [hc])⟩
        · refine ⟨[], c :: r, by simp [h1], ?_, .inl rfl⟩
          simp only [List.mem_cons, not_or]
          exact ⟨fun h => hc h.symm, h2⟩
      · refine ⟨c :: l, r, by simp [h1], h2, .inr ?_⟩
        have h3 := h3.resolve_left hl
        cases l with
        | nil => exact absurd rfl hl
        | cons d l => simpa [List.getLast?_cons_cons] using h3
  obtain ⟨l1, r1, ha1, ha2, ha3⟩ := ha
  obtain ⟨l2, r2, hb1, hb2, hb3⟩ := hb
  refine ⟨l1, r1 ++ l2, r2, r1.length, ⟨by simp [ha1, hb1], ha3, hb3, ?_, by simp [ha1], by simp⟩,
    by simp [ha1], by simp [hb1]⟩
  simp only [List.mem_append, not_or]
  exact ⟨ha2, hb2⟩

/-- It is only in one line. -/
theorem lineAt_unique {source before line after before' line' after' : List Char}
    {index offset offset' : Nat} (h : LineAt source before line after index offset)
    (h' : LineAt source before' line' after' index offset') :
    before = before' ∧ line = line' ∧ after = after' ∧ offset = offset' := by
  have key : ∀ {before line after before' line' after' : List Char} {offset offset' : Nat},
      LineAt source before line after index offset →
      LineAt source before' line' after' index offset' → before.length < before'.length → False := by
    intro before line after before' line' after' offset offset' h h' hlt
    have hne : before' ≠ [] := by rintro rfl; simp at hlt
    have h2 := h'.first.resolve_left hne
    rw [List.getLast?_eq_getElem?] at h2
    have h3 : source[before'.length - 1]? = some '\n' := by
      rw [h'.split, List.append_assoc, List.getElem?_append_left (by omega), h2]
    have hi := h.index
    have hi' := h'.index
    have ho := h.offset
    rw [h.split, List.append_assoc, List.getElem?_append_right (by omega),
      List.getElem?_append_left (by omega)] at h3
    exact h.single (List.mem_of_getElem? h3)
  have hlen : before.length = before'.length := by
    rcases Nat.lt_trichotomy before.length before'.length with hl | hl | hl
    · exact (key h h' hl).elim
    · exact hl
    · exact (key h' h hl).elim
  have hs := h.split.symm.trans h'.split
  rw [List.append_assoc, List.append_assoc] at hs
  obtain ⟨rfl, hs'⟩ := List.append_inj hs hlen
  clear hs
  have hoff : offset = offset' := by have := h.index; have := h'.index; omega
  subst hoff
  have key2 : ∀ {line after line' after' : List Char}, line ++ after = line' ++ after' →
      '\n' ∉ line' → (after = [] ∨ after.head? = some '\n') → line'.length ≤ line.length := by
    intro line after line' after' hs hn ha
    rcases ha with rfl | ha
    · have := congrArg List.length hs
      simp at this; omega
    · refine Nat.le_of_not_lt fun hlt => ?_
      cases after with
      | nil => simp at ha
      | cons c after =>
        have : c = '\n' := by simpa using ha
        subst this
        have h1 := congrArg (fun l => l[line.length]?) hs
        simp only [List.getElem?_append_right (Nat.le_refl _), Nat.sub_self,
          List.getElem?_cons_zero] at h1
        rw [List.getElem?_append_left (by omega)] at h1
        exact hn (List.mem_of_getElem? h1.symm)
  have hl : line.length = line'.length :=
    Nat.le_antisymm (key2 hs'.symm h.single h'.last) (key2 hs' h'.single h.last)
  obtain ⟨rfl, rfl⟩ := List.append_inj hs' hl
  exact ⟨rfl, rfl, rfl, rfl⟩

/-- The position of a character in the source, in terms of its line. -/
theorem position_in_line {source before line after : List Char} {index offset : Nat}
    (h : LineAt source before line after index offset) :
    positionAfterText (source.take index) =
      ⟨before.count '\n', columnAfter (line.take offset), index⟩ := by
  have ht : source.take index = before ++ line.take offset := by
    rw [h.split, h.index, List.append_assoc, List.take_append, List.take_of_length_le (by omega),
      Nat.add_sub_cancel_left, List.take_append_of_le_length h.offset]
  have hn : '\n' ∉ line.take offset := fun hm => h.single (List.mem_of_mem_take hm)
  rw [ht, positionAfterText]
  congr 1
  · rw [List.count_append, List.count_eq_zero.2 hn, Nat.add_zero]
  · unfold columnAfter
    rw [List.reverse_append]
    congr 2
    rcases h.first with h1 | h1
    · rw [h1]; simp
    · obtain ⟨b, hb⟩ : ∃ b, before = b ++ ['\n'] := by
        refine ⟨before.dropLast, ?_⟩
        have : before ≠ [] := by rintro rfl; simp at h1
        rw [List.getLast?_eq_some_getLast this, Option.some.injEq] at h1
        rw [← h1, List.dropLast_concat_getLast this]
      rw [hb, List.reverse_append]
      generalize (line.take offset).reverse = r
      induction r with
      | nil => simp
      | cons c r ih =>
        simp only [List.cons_append, List.takeWhile_cons]
        by_cases hc : decide (c ≠ '\n' ∧ c ≠ '\r') = true
        · rw [if_pos hc, if_pos hc, ih]
        · rw [if_neg hc, if_neg hc]
  · simp only [List.length_append, List.length_take, h.index]
    have := h.offset
    omega

/-- Without tabs and carriage returns, columns count characters. -/
theorem columnAfter_plain {s : List Char} (h : ∀ c ∈ s, ¬ Special c) : columnAfter s = s.length := by
  unfold columnAfter
  have h1 : s.reverse.takeWhile (fun c => decide (c ≠ '\n' ∧ c ≠ '\r')) = s.reverse := by
    have hall : ∀ {l : List Char} {p : Char → Bool}, (∀ c ∈ l, p c = true) → l.takeWhile p = l := by
      intro l p hp
      induction l with
      | nil => rfl
      | cons c l ih =>
        rw [List.takeWhile_cons, if_pos (hp c (by simp)), ih fun d hd => hp d (by simp [hd])]
    apply hall
    intro c hc
    have := h c (List.mem_reverse.1 hc)
    simp only [Special, not_or] at this
    simp [this]
  rw [h1]
  have h2 : s.reverse.map (fun c => if c = '\t' then 4 else 1) = s.reverse.map fun _ => 1 := by
    apply List.map_congr_left
    intro c hc
    have := h c (List.mem_reverse.1 hc)
    simp only [Special, not_or] at this
    rw [if_neg this.1]
  rw [h2, ← List.length_reverse]
  generalize s.reverse = r
  clear h h1 h2
  induction r with
  | nil => rfl
  | cons c r ih => simp only [List.map_cons, List.sum_cons, List.length_cons, ih]; omega

/-! ## Reports -/

theorem seen_position (file : List Char) (pos : Position) (colors : Bool) :
    seen (printFilePosition file pos colors) = place file (pos.line + 1) (pos.column + 1) := by
  unfold printFilePosition
  simp only [seen_append, ansiBlack, ansiReset, seen_color, seen, lit, stdToString_decimal, place]
  simp

theorem affectedLine_eq {source line : List Char} {pos : Position} (colors : Bool)
    (h : findLine source pos.start = .ok line) :
    ∃ out, printAffectedLine source pos colors = .ok out ∧
      seen out = quotation (pos.line + 1) line pos.column := by
  refine ⟨_, by rw [printAffectedLine, h]; rfl, ?_⟩
  simp only [seen_append, ansiHYellow, ansiHGreen, ansiReset, seen_color, seen, lit, stdToString_decimal,
    quotation, padLeft]
  simp [List.replicate_succ]

end Bms.Diag
