import Verif.Model.CodeString

/-!
# Property C39: code strings
-/

namespace Bms

/-- The spans are in order, do not overlap, are not empty and lie inside the text. -/
structure Spec.SpansOk (s : CodeString) : Prop where
  ordered : s.spans.Pairwise fun a b => a.start + a.length ≤ b.start
  inside : ∀ a ∈ s.spans, 0 < a.length ∧ a.start + a.length ≤ s.text.length

namespace CodeString

/-- `s'` continues `s`: text and spans of `s` are still there, new spans begin behind them. -/
structure Extends (s s' : CodeString) (t : List Char) (sp : List CodeSpan) : Prop where
  text : s'.text = s.text ++ t
  spans : s'.spans = s.spans ++ sp
  ordered : sp.Pairwise fun a b => a.start + a.length ≤ b.start
  inside : ∀ a ∈ sp, s.text.length ≤ a.start ∧ 0 < a.length ∧ a.start + a.length ≤ s'.text.length

theorem Extends.refl (s : CodeString) : Extends s s [] [] :=
  ⟨by simp, by simp, .nil, by simp⟩

theorem Extends.trans {a b c : CodeString} {t u sp sq} (h1 : Extends a b t sp)
    (h2 : Extends b c u sq) : Extends a c (t ++ u) (sp ++ sq) := by
  have l1 : b.text.length = a.text.length + t.length := by rw [h1.text]; simp
  have l2 : c.text.length = b.text.length + u.length := by rw [h2.text]; simp
  refine ⟨by rw [h2.text, h1.text, List.append_assoc], by rw [h2.spans, h1.spans, List.append_assoc],
    ?_, ?_⟩
  · rw [List.pairwise_append]
    refine ⟨h1.ordered, h2.ordered, fun x hx y hy => ?_⟩
    have := h1.inside x hx
    have := h2.inside y hy
    omega
  · intro x hx
    rcases List.mem_append.mp hx with hx | hx
    · have := h1.inside x hx
      omega
    · have := h2.inside x hx
      omega

theorem Extends.resize {s s' : CodeString} {t sp} (h : Extends s s' t sp) :
    s'.resize s.getLength = s := by
  unfold CodeString.resize getLength resizeList
  rw [h.text, h.spans]
  simp

theorem edit_extends (s : CodeString) (e : Edit) :
    ∃ t sp, Extends s (s.edit e).1 t sp := by
  induction e generalizing s with
  | skip => exact ⟨_, _, .refl s⟩
  | seq a b iha ihb =>
    obtain ⟨t, sp, h⟩ := iha s
    unfold edit
    cases he : s.edit a with
    | mk s' ok =>
      rw [he] at h
      cases ok with
      | false => exact ⟨t, sp, h⟩
      | true =>
        obtain ⟨u, sq, h2⟩ := ihb s'
        exact ⟨_, _, h.trans h2⟩
  | text t => exact ⟨t, [], rfl, by simp [edit, appendText], .nil, by simp⟩
  | char c => exact ⟨[c], [], rfl, by simp [edit, appendChar], .nil, by simp⟩
  | fill n c => exact ⟨List.replicate n c, [], rfl, by simp [edit, appendFill], .nil, by simp⟩
  | span t type =>
    unfold edit appendSpan
    cases t with
    | nil => exact ⟨_, _, .refl s⟩
    | cons c t =>
      refine ⟨c :: t, [⟨s.text.length, (c :: t).length, type⟩], rfl, rfl, by simp, ?_⟩
      simp
  | charSpan c type =>
    refine ⟨[c], [⟨s.text.length, 1, type⟩], rfl, rfl, by simp, ?_⟩
    simp [edit, appendCharSpan]
  | attempt body commit ih =>
    obtain ⟨t, sp, h⟩ := ih s
    unfold edit
    cases he : s.edit body with
    | mk s' ok =>
      rw [he] at h
      have hr : s'.resize s.getLength = s := h.resize
      cases ok with
      | false =>
        dsimp only
        rw [hr]
        exact ⟨_, _, .refl s⟩
      | true =>
        cases commit with
        | true => exact ⟨t, sp, h⟩
        | false =>
          dsimp only
          rw [if_neg (by decide), hr]
          exact ⟨_, _, .refl s⟩

end CodeString

open CodeString

/-- **C39.** Whatever is appended, and however attempts are nested, committed, given up or left by
an exception, the spans stay in order, disjoint, non-empty and inside the text; the old text and
the old spans stay unchanged in front. -/
theorem C39_spans (s : CodeString) (e : Edit) (h : Spec.SpansOk s) :
    Spec.SpansOk (s.edit e).1 ∧ s.text <+: (s.edit e).1.text ∧ s.spans <+: (s.edit e).1.spans := by
  obtain ⟨t, sp, hx⟩ := edit_extends s e
  refine ⟨⟨?_, ?_⟩, ⟨t, hx.text.symm⟩, ⟨sp, hx.spans.symm⟩⟩
  · rw [hx.spans, List.pairwise_append]
    refine ⟨h.ordered, hx.ordered, fun a ha b hb => ?_⟩
    have := h.inside a ha
    have := hx.inside b hb
    omega
  · intro a ha
    rw [hx.spans] at ha
    rcases List.mem_append.mp ha with ha | ha
    · have := h.inside a ha
      rw [hx.text, List.length_append]
      omega
    · have := hx.inside a ha
      omega

/-- **C39, rollback.** An attempt that is given up, or left by an exception, restores text and spans
exactly. -/
theorem C39_rollback (s : CodeString) (body : Edit) (commit : Bool)
    (h : commit = false ∨ (s.edit body).2 = false) :
    (s.edit (.attempt body commit)).1 = s := by
  obtain ⟨t, sp, hx⟩ := edit_extends s body
  rw [edit]
  cases he : s.edit body with
  | mk s' ok =>
    rw [he] at hx h
    have hr : s'.resize s.getLength = s := hx.resize
    cases ok with
    | false => exact hr
    | true =>
      rcases h with h | h
      · dsimp only
        rw [h, if_neg (by decide)]
        exact hr
      · cases h

/-- **C39, commit.** A committed attempt that ends regularly is the same as its body. -/
theorem C39_commit (s : CodeString) (body : Edit) (h : (s.edit body).2 = true) :
    s.edit (.attempt body true) = s.edit body := by
  rw [edit]
  cases he : s.edit body with
  | mk s' ok =>
    rw [he] at h
    cases h
    rfl

/-- **C39, contents of spans.** Appending a typed text adds one span, which denotes this text and
has this type; it throws exactly for the empty text. -/
theorem C39_span_text (s : CodeString) (t : List Char) (type : SpanType) :
    ((s.edit (.span t type)).2 = true ↔ t ≠ []) ∧
    (t ≠ [] → ∃ sp, (s.edit (.span t type)).1.spans = s.spans ++ [sp] ∧ sp.type = type ∧
      ((s.edit (.span t type)).1.text.drop sp.start).take sp.length = t) := by
  cases t with
  | nil => exact ⟨by simp [edit, appendSpan], fun h => absurd rfl h⟩
  | cons c t =>
    refine ⟨by simp [edit, appendSpan], fun _ => ⟨_, rfl, rfl, ?_⟩⟩
    simp [edit, appendSpan]

example : Spec.SpansOk ⟨[], []⟩ ∧
    (⟨[], []⟩ : CodeString).edit
      (.seq (.span "let".toList .keyword) (.seq (.char ' ') (.seq
        (.attempt (.seq (.span "x".toList .identifier) (.attempt (.text " = ".toList) true)) false)
        (.attempt (.seq (.span "y".toList .identifier) (.charSpan ';' .punctuation)) true)))) =
    (⟨"let y;".toList, [⟨0, 3, .keyword⟩, ⟨4, 1, .identifier⟩, ⟨5, 1, .punctuation⟩]⟩, true) := by
  exact ⟨⟨.nil, by simp⟩, by decide⟩

/-- **C39, violation for arbitrary lengths.** `resize` is public and also accepts lengths that were
not obtained from the string: cutting only the text leaves spans outside the text. -/
theorem C39_resize_violation :
    let s : CodeString := ⟨"let".toList, [⟨0, 3, .keyword⟩]⟩
    Spec.SpansOk s ∧ ¬ Spec.SpansOk (s.resize ⟨0, 1⟩) := by
  refine ⟨⟨by simp, by simp⟩, fun h => ?_⟩
  have := h.inside ⟨0, 3, .keyword⟩ (by decide)
  revert this
  decide

end Bms
