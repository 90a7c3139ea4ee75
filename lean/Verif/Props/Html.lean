import Verif.Lemmas.Html

/-!
# Properties C37, C38, C49 and C50: HTML output
-/

namespace Bms

open Spec HtmlWriter

/-! ## C37: text contains no markup -/

/-- **C37, markup.** Whatever text is written in whatever style, the output is extended by
characters other than `<` and `>`. -/
theorem C37_no_markup {w w' : HtmlWriter} {s : List Char} {style : Style} {n : Nat}
    (h : w.writeInnerText s style = .ok (w', n)) :
    ∃ t, w'.text = w.text ++ t ∧ '<' ∉ t ∧ '>' ∉ t := by
  obtain ⟨ts, st, -, -, -, rfl, h3⟩ := writeInnerText_ok h
  have key : ∀ c ∈ ts.flatMap Prod.snd, c ≠ '<' ∧ c ≠ '>' := by
    split at h3
    · rw [h3.1]; exact escape_plain s
    · exact wrapped_plain h3
  exact ⟨ts.flatMap Prod.snd, by simp, fun hm => (key _ hm).1 rfl, fun hm => (key _ hm).2 rfl⟩

/-- **C37, what is written.** Text can be written whenever the writer is between tags.
Preformatted text is written as its escaped form and nothing else; text in the other styles is
written line by line, every line escaped and possibly indented, and the number of lines is
returned. -/
theorem C37_text {w : HtmlWriter} (s : List Char) (style : Style)
    (hw : w.state = .normal ∨ w.state = .new_line) :
    ∃ w' n t, w.writeInnerText s style = .ok (w', n) ∧ w'.text = w.text ++ t ∧
      (style = .pre → t = escape s ∧ n = 1) ∧ (style ≠ .pre → Wrapped s n t) := by
  obtain ⟨ts, st, n, -, -, h1, h2⟩ := writeInnerText_add w s style hw
  refine ⟨_, n, ts.flatMap Prod.snd, h1, by simp, fun hp => ?_, fun hp => ?_⟩
  · rwa [if_pos hp] at h2
  · rwa [if_neg hp] at h2

theorem escape_prefix {a b : Char} (ha : a ≠ '&' ∧ a ≠ '<' ∧ a ≠ '>')
    (hb : b ≠ '&' ∧ b ≠ '<' ∧ b ≠ '>') {s : List Char}
    (h : [a, b, ';'] <+: escape s) : [a, b, ';'] <+: s := by
  have step : ∀ {c : Char} {t s : List Char}, c ≠ '&' → (c :: t) <+: escape s →
      ∃ s', s = c :: s' ∧ t <+: escape s' := by
    intro c t s hc hp
    cases s with
    | nil => exact absurd hp (by simp [escape])
    | cons d s' =>
      simp only [escape, List.flatMap_cons] at hp
      unfold escapeChar at hp
      split at hp
      · rw [List.cons_append, List.cons_prefix_cons] at hp
        exact absurd hp.1 hc
      · split at hp
        · rw [List.cons_append, List.cons_prefix_cons] at hp
          exact absurd hp.1 hc
        · simp only [List.cons_append, List.nil_append, List.cons_prefix_cons] at hp
          exact ⟨s', by rw [hp.1], hp.2⟩
  obtain ⟨s1, rfl, h1⟩ := step ha.1 h
  obtain ⟨s2, rfl, h2⟩ := step hb.1 h1
  obtain ⟨s3, rfl, -⟩ := step (by decide) h2
  simp

/-- **C37, reading back.** Unescaping the output restores every text that does not itself contain
one of the two entities. -/
theorem C37_read_back (s : List Char) (h1 : ¬ "&lt;".toList <:+: s) (h2 : ¬ "&gt;".toList <:+: s) :
    unescape (escape s) = s := by
  induction s with
  | nil => rfl
  | cons c s ih =>
    have ih := ih (fun h => h1 (h.trans (List.suffix_cons c s).isInfix))
      (fun h => h2 (h.trans (List.suffix_cons c s).isInfix))
    have hs : escape (c :: s) = escapeChar c ++ escape s := by simp [escape]
    rw [hs]
    unfold escapeChar
    split
    · next hc => subst hc; simp [unescape, ih]
    · split
      · next hc => subst hc; simp [unescape, ih]
      · next n1 n2 =>
        show unescape (c :: escape s) = c :: s
        rw [unescape, ih]
        · rintro t rfl ht
          refine h1 (List.IsPrefix.isInfix ?_)
          have : ['l', 't', ';'] <+: s :=
            escape_prefix (by decide) (by decide) ⟨t, by rw [ht]; rfl⟩
          obtain ⟨u, rfl⟩ := this
          exact ⟨u, rfl⟩
        · rintro t rfl ht
          refine h2 (List.IsPrefix.isInfix ?_)
          have : ['g', 't', ';'] <+: s :=
            escape_prefix (by decide) (by decide) ⟨t, by rw [ht]; rfl⟩
          obtain ⟨u, rfl⟩ := this
          exact ⟨u, rfl⟩

/-- **C37, the exception is real.** Since `&` is not escaped, the texts `<` and `&lt;` give
the same output. -/
theorem C37_ampersand (w : HtmlWriter) (hw : w.state = .normal ∨ w.state = .new_line) :
    ∃ w₁ w₂, w.writeInnerText "<".toList .pre = .ok (w₁, 1) ∧
      w.writeInnerText "&lt;".toList .pre = .ok (w₂, 1) ∧ w₁.text = w₂.text := by
  obtain ⟨w₁, n₁, t₁, h1, h2, h3, -⟩ := C37_text "<".toList .pre hw
  obtain ⟨w₂, n₂, t₂, g1, g2, g3, -⟩ := C37_text "&lt;".toList .pre hw
  obtain ⟨rfl, rfl⟩ := h3 rfl
  obtain ⟨rfl, rfl⟩ := g3 rfl
  exact ⟨w₁, w₂, h1, g1, by rw [h2, g2]; rfl⟩

example : let w : HtmlWriter := ⟨[], 4, .normal, 1, 1⟩
    (w.writeInnerText "a < b && c > d".toList .pre).map (fun r => String.ofList r.1.text) =
      .ok "a &lt; b && c &gt; d" ∧
    (w.writeInnerText "x<y\n\nz".toList .block).map (fun r => (String.ofList r.1.text, r.2)) =
      .ok ("\n    x&lt;y\n    \n    z", 3) ∧
    ¬ "&lt;".toList <:+: "a < b && c > d".toList := by
  refine ⟨by decide, by decide, ?_⟩
  rw [← findSub_none (by decide)]
  decide

/-! ## C38: nesting -/

/-- Calls that open a tag. -/
def HtmlCall.Opens : HtmlCall → Tag → Prop
  | .start t, u => t = u
  | .startAttrs t _, u => t = u
  | _, _ => False

/-- Calls that neither open nor close a tag, and that are allowed between tags. -/
def HtmlCall.Flat : HtmlCall → Prop
  | .start _ | .startAttrs _ _ | .close _ | .preamble => False
  | _ => True

/-- Sequences of calls as the writer's documentation demands them
(src/bmd/html/html_writer.hpp:113-115): every tag is closed with the same arguments. -/
inductive Nested : List HtmlCall → Prop
  | nil : Nested []
  | flat {c cs} : c.Flat → Nested cs → Nested (c :: cs)
  | tag {o t xs ys} : HtmlCall.Opens o t → Nested xs → Nested ys →
      Nested (o :: (xs ++ .close t :: ys))

/-- The attribute values of a call have no double quote and no white space other than spaces. -/
def HtmlCall.Plain : HtmlCall → Prop
  | .emptyAttrs _ as | .startAttrs _ as => ∀ a ∈ as, PlainValue a.2
  | _ => True

theorem execAll_append (w : HtmlWriter) (a b : List HtmlCall) :
    w.execAll (a ++ b) = (w.execAll a >>= fun w => w.execAll b) := by
  induction a generalizing w with
  | nil => rfl
  | cons c cs ih =>
    simp only [List.cons_append, execAll]
    cases w.exec c with
    | ok w1 => exact ih w1
    | _ => rfl

theorem exec_ready {w w' : HtmlWriter} {c : HtmlCall} (h : w.exec c = .ok w') : w'.Ready := by
  cases c with
  | preamble => obtain ⟨-, rfl⟩ := writePreamble_ok h; exact .inr rfl
  | text s style =>
    obtain ⟨n, h⟩ := exec_text_ok h
    obtain ⟨ts, st, -, -, hs, rfl, -⟩ := writeInnerText_ok h
    exact hs
  | whitespace c n => obtain ⟨-, -, rfl⟩ := writeWhitespace_ok h; exact .inl rfl
  | comment s style =>
    obtain ⟨ts, st, x, y, -, -, hs, -, -, -, rfl⟩ := writeCommentTag_ok h; exact hs
  | empty tag =>
    obtain ⟨ts, st, x, y, -, -, hs, -, -, -, rfl⟩ := writeEmptyTag_ok h; exact hs
  | emptyAttrs tag as =>
    obtain ⟨ts, st, x, y, -, -, -, hs, -, -, -, rfl⟩ := emptyAttrs_ok h; exact hs
  | start tag =>
    obtain ⟨ts, st, x, y, -, -, hs, -, -, -, rfl⟩ := beginTag_ok h
    unfold deeper; split <;> exact hs
  | startAttrs tag as =>
    obtain ⟨ts, x, -, -, -, -, -, -, rfl⟩ := startAttrs_ok h; exact .inl rfl
  | close tag =>
    obtain ⟨ts, st, x, y, -, -, -, hs, -, -, -, rfl⟩ := endTag_ok h
    unfold shallower; split <;> exact hs

/-- Calls that write no opening or closing tag extend the output by well-nested HTML. -/
theorem exec_flat {w w' : HtmlWriter} {c : HtmlCall} (hc : c.Flat) (hp : c.Plain)
    (h : w.exec c = .ok w') :
    ∃ t, Content t ∧ w'.text = w.text ++ t ∧ w'.depth = w.depth ∧
      w'.indentDepth = w.indentDepth := by
  cases c with
  | preamble => cases hc
  | start => cases hc
  | startAttrs => cases hc
  | close => cases hc
  | text s style =>
    obtain ⟨n, h⟩ := exec_text_ok h
    obtain ⟨t, h1, h2, h3⟩ := C37_no_markup h
    obtain ⟨ts, st, -, -, -, h4, -⟩ := writeInnerText_ok h
    exact ⟨t, content_chars fun c hc => ⟨fun e => h2 (e ▸ hc), fun e => h3 (e ▸ hc)⟩, h1,
      by rw [h4]; rfl, by rw [h4]; rfl⟩
  | whitespace c n =>
    obtain ⟨-, h1, rfl⟩ := writeWhitespace_ok h
    refine ⟨List.replicate n c, content_chars fun d hd => ?_, by simp, rfl, rfl⟩
    rw [List.eq_of_mem_replicate hd]
    constructor <;> (rintro rfl; revert h1; decide)
  | comment s style =>
    obtain ⟨ts, st, x, y, -, h1, -, hx, hy, ht, rfl⟩ := writeCommentTag_ok h
    exact ⟨_, ((Blanks.content hx).append (.comment h1)).append (Blanks.content hy), by simp [ht],
      rfl, rfl⟩
  | empty tag =>
    obtain ⟨ts, st, x, y, -, h1, -, hx, hy, ht, rfl⟩ := writeEmptyTag_ok h
    have := Content.empty h1 AttrText.nil
    rw [List.append_nil] at this
    exact ⟨_, ((Blanks.content hx).append this).append (Blanks.content hy), by simp [ht], rfl, rfl⟩
  | emptyAttrs tag as =>
    obtain ⟨ts, st, x, y, -, h1, h2, -, hx, hy, ht, rfl⟩ := emptyAttrs_ok h
    exact ⟨_, ((Blanks.content hx).append (.empty h1 (attrText_spec h2 hp))).append
      (Blanks.content hy), by simp [ht], rfl, rfl⟩

theorem exec_open {w w' : HtmlWriter} {c : HtmlCall} {tag : Tag} (hc : c.Opens tag) (hp : c.Plain)
    (h : w.exec c = .ok w') :
    ∃ x y as t, Blanks x ∧ Blanks y ∧ Name tag.id ∧ AttrText as t ∧
      w'.text = w.text ++ (x ++ ('<' :: (tag.id ++ t ++ '>' :: y))) ∧
      w'.depth = w.depth + 1 ∧
      w'.indentDepth = if tag.style = .block then (w.indentDepth + 1) % 2 ^ 64
        else w.indentDepth := by
  cases c with
  | start t =>
    cases hc
    obtain ⟨ts, st, x, y, -, h1, -, hx, hy, ht, rfl⟩ := beginTag_ok h
    refine ⟨x, y, [], [], hx, hy, h1, .nil, ?_, rfl, ?_⟩
    · simp only [List.append_nil]
      unfold deeper
      split <;> simp [HtmlWriter.text, add, ht]
    · unfold deeper
      split <;> rfl
  | startAttrs t as =>
    cases hc
    obtain ⟨ts, x, -, h1, h2, hb, hx, ht, rfl⟩ := startAttrs_ok h
    refine ⟨x, [], as, _, hx, fun _ h => (nomatch h), h1, attrText_spec h2 hp, ?_, rfl, ?_⟩
    · simp [HtmlWriter.text, add, ht]
    · rw [if_neg (by rintro e; rw [e] at hb; cases hb)]; rfl
  | _ => cases hc

theorem exec_close {w w' : HtmlWriter} {tag : Tag} (h : w.exec (.close tag) = .ok w') :
    ∃ x y, Blanks x ∧ Blanks y ∧ w.depth ≠ 0 ∧
      w'.text = w.text ++ (x ++ (['<', '/'] ++ tag.id ++ ['>']) ++ y) ∧
      w'.depth = w.depth - 1 ∧
      w'.indentDepth = if tag.style = .block then (w.indentDepth + (2 ^ 64 - 1)) % 2 ^ 64
        else w.indentDepth := by
  obtain ⟨ts, st, x, y, -, h1, hd, -, hx, hy, ht, rfl⟩ := endTag_ok h
  refine ⟨x, y, hx, hy, hd, ?_, rfl, ?_⟩
  · unfold shallower
    split <;> simp [HtmlWriter.text, add, ht]
  · unfold shallower
    split <;> rfl

/-- **C38, nesting.** Calls that close every tag they open, in the right order and with the
same arguments, extend the output by well-nested HTML and restore nesting depth and indentation,
provided that attribute values are plain (see C49 for what happens otherwise). -/
theorem C38_nested {w w' : HtmlWriter} {cs : List HtmlCall} (hn : Nested cs)
    (hp : ∀ c ∈ cs, c.Plain) (hi : w.indentDepth < 2 ^ 64) (h : w.execAll cs = .ok w') :
    ∃ t, Content t ∧ w'.text = w.text ++ t ∧ w'.depth = w.depth ∧
      w'.indentDepth = w.indentDepth := by
  induction hn generalizing w w' with
  | nil => cases h; exact ⟨[], .nil, by simp, rfl, rfl⟩
  | flat hc _ ih =>
    obtain ⟨w1, h1, h2⟩ := Outcome.bind_eq_ok.mp h
    obtain ⟨t, a1, a2, a3, a4⟩ := exec_flat hc (hp _ (by simp)) h1
    obtain ⟨t', b1, b2, b3, b4⟩ := ih (fun c hc => hp c (by simp [hc])) (by omega) h2
    exact ⟨t ++ t', a1.append b1, by rw [b2, a2, List.append_assoc], by omega, by omega⟩
  | @tag o tag xs ys ho _ _ ihx ihy =>
    obtain ⟨w1, h1, h2⟩ := Outcome.bind_eq_ok.mp h
    rw [execAll_append] at h2
    obtain ⟨w2, h2, h3⟩ := Outcome.bind_eq_ok.mp h2
    obtain ⟨w3, h3, h4⟩ := Outcome.bind_eq_ok.mp h3
    obtain ⟨x, y, as, t, hx, hy, hn, ha, a1, a2, a3⟩ := exec_open ho (hp _ (by simp)) h1
    obtain ⟨u, b1, b2, b3, b4⟩ := ihx (fun c hc => hp c (by simp [hc]))
      (by rw [a3]; split <;> omega) h2
    obtain ⟨x', y', hx', hy', -, c1, c2, c3⟩ := exec_close h3
    have hd3 : w3.indentDepth = w.indentDepth := by
      rw [c3, b4, a3]
      split <;> omega
    obtain ⟨v, d1, d2, d3, d4⟩ := ihy (fun c hc => hp c (by simp [hc])) (by omega) h4
    have e := Content.element hn ha
      (((Blanks.content hy).append b1).append (Blanks.content hx'))
    refine ⟨x ++ _ ++ y' ++ v, (((Blanks.content hx).append e).append (Blanks.content hy')).append
      d1, ?_, by omega, by omega⟩
    rw [d2, c1, b2, a1]
    simp

/-- The number of tags that a sequence of calls opens. -/
def opened (cs : List HtmlCall) : Nat :=
  cs.countP fun | .start _ | .startAttrs _ _ => true | _ => false

/-- The number of tags that a sequence of calls closes. -/
def closed (cs : List HtmlCall) : Nat :=
  cs.countP fun | .close _ => true | _ => false

/-- **C38, depth.** For every sequence of calls that the writer lets through, in whatever order
and with whatever arguments, the nesting depth is the number of opened minus the number of closed
tags. -/
theorem C38_depth {w w' : HtmlWriter} {cs : List HtmlCall} (h : w.execAll cs = .ok w') :
    w'.depth + closed cs = w.depth + opened cs := by
  induction cs generalizing w with
  | nil => cases h; rfl
  | cons c cs ih =>
    obtain ⟨w1, h1, h2⟩ := Outcome.bind_eq_ok.mp h
    have ih := ih h2
    simp only [opened, closed, List.countP_cons] at ih ⊢
    cases c with
    | preamble => obtain ⟨-, rfl⟩ := writePreamble_ok h1; simpa [add] using ih
    | text s style =>
      obtain ⟨n, h1⟩ := exec_text_ok h1
      obtain ⟨ts, st, -, -, -, rfl, -⟩ := writeInnerText_ok h1
      simpa [add] using ih
    | whitespace c n => obtain ⟨-, -, rfl⟩ := writeWhitespace_ok h1; simpa [add] using ih
    | comment s style =>
      obtain ⟨ts, st, x, y, -, -, -, -, -, -, rfl⟩ := writeCommentTag_ok h1
      simpa [add] using ih
    | empty tag =>
      obtain ⟨ts, st, x, y, -, -, -, -, -, -, rfl⟩ := writeEmptyTag_ok h1
      simpa [add] using ih
    | emptyAttrs tag as =>
      obtain ⟨ts, st, x, y, -, -, -, -, -, -, -, rfl⟩ := emptyAttrs_ok h1
      simpa [add] using ih
    | start tag =>
      obtain ⟨ts, st, x, y, -, -, -, -, -, -, rfl⟩ := beginTag_ok h1
      simp only [if_true, Bool.false_eq_true, if_false] at ih ⊢
      omega
    | startAttrs tag as =>
      obtain ⟨ts, x, -, -, -, -, -, -, rfl⟩ := startAttrs_ok h1
      simp only [if_true, Bool.false_eq_true, if_false] at ih ⊢
      omega
    | close tag =>
      obtain ⟨ts, st, x, y, -, -, hd, -, -, -, -, rfl⟩ := endTag_ok h1
      simp only [if_true, Bool.false_eq_true, if_false] at ih ⊢
      omega

/-- **C38, too many closing tags.** From a fresh writer, a sequence of calls that at some point
closes more tags than it has opened is not let through. -/
theorem C38_excess {n : Nat} {w' : HtmlWriter} {cs ds : List HtmlCall}
    (h : (create n).execAll (cs ++ ds) = .ok w') : closed cs ≤ opened cs := by
  rw [execAll_append] at h
  obtain ⟨w1, h1, -⟩ := Outcome.bind_eq_ok.mp h
  have := C38_depth h1
  simp only [create] at this
  omega

/-- **C38, `is_done`, partial.** After complete calls, `is_done` is true only if as many tags have
been closed as opened.  Missing: while attributes are being written the answer is wrong, see
`C38_is_done_attributes`. -/
theorem C38_is_done_partial {n : Nat} {w' : HtmlWriter} {cs : List HtmlCall}
    (h : (create n).execAll cs = .ok w') (hd : w'.isDone = true) : opened cs = closed cs := by
  have h1 := C38_depth h
  simp only [isDone, Bool.and_eq_true, decide_eq_true_eq] at hd
  simp only [create] at h1
  omega

/-- **C38, violation.** After the preamble and `<p`, without `>`, the document counts as
complete, although the documentation rules out false positives
(src/bmd/html/html_writer.hpp:138-143). -/
theorem C38_is_done_attributes :
    (((create 4).writePreamble >>= fun w =>
      w.beginTagWithAttributes ⟨"p".toList, .in_line⟩).map fun w =>
        (String.ofList w.text, w.isDone)) = .ok ("<!DOCTYPE html>\n<p", true) := by
  decide

/-- **C38, violation.** The same for a writer to which nothing has been written, not even the
preamble. -/
theorem C38_is_done_initial : (create 4).isDone = true ∧ (create 4).text = [] := by decide

/-- A call whose arguments meet the documented requirements, with one more: a tag with attributes
and contents must not have a block-like style, see `C38_block_attributes`. -/
def HtmlCall.Valid : HtmlCall → Prop
  | .preamble => False
  | .text _ _ => True
  | .whitespace c _ => c = ' ' ∨ c = '\n' ∨ c = '\t' ∨ c = '\r'
  | .comment s _ => ¬ "-->".toList <:+: s
  | .empty t | .start t | .close t => Name t.id
  | .emptyAttrs t as => Name t.id ∧ ∀ a ∈ as, Name a.1
  | .startAttrs t as => Name t.id ∧ (∀ a ∈ as, Name a.1) ∧ t.style ≠ .flat ∧ t.style ≠ .block

theorem writeAttributes_valid {w : HtmlWriter} {as : List (List Char × List Char)}
    (hw : w.state = .attributes) (hn : ∀ a ∈ as, Name a.1) :
    ∃ w', w.writeAttributes as = .ok w' := by
  induction as generalizing w with
  | nil => exact ⟨w, rfl⟩
  | cons a as ih =>
    obtain ⟨k, v⟩ := a
    have hk := (html_identifier k).mpr (hn _ List.mem_cons_self)
    have : ∃ w1, w.writeAttribute k v = .ok w1 := by
      unfold writeAttribute
      rw [hk, hw]
      simp only [decide_true, Outcome.assert_true, Outcome.ok_bind]
      split
      · exact ⟨_, rfl⟩
      · split <;> exact ⟨_, rfl⟩
    obtain ⟨w1, h1⟩ := this
    obtain ⟨ts, -, -, -, h2⟩ := writeAttribute_ok h1
    obtain ⟨w2, h3⟩ := ih (w := w1) (by rw [h2]; rfl) (fun a ha => hn a (by simp [ha]))
    exact ⟨w2, by rw [writeAttributes, h1]; exact h3⟩

theorem beginTagWithAttributes_valid {w : HtmlWriter} {t : Tag} (hw : w.Ready) (hn : Name t.id) :
    ∃ w', w.beginTagWithAttributes t = .ok w' ∧ w'.state = .attributes := by
  unfold beginTagWithAttributes
  rw [checkTag_ok (u := ()).mpr ⟨hw, hn⟩, Outcome.ok_bind]
  obtain ⟨ws, -, h⟩ := indent_add w t.style hw.ne
  rw [h]
  exact ⟨_, rfl, rfl⟩

theorem exec_valid {w : HtmlWriter} {c : HtmlCall} (hw : w.Ready) (hv : c.Valid)
    (hd : (∃ t, c = .close t) → w.depth ≠ 0) : ∃ w', w.exec c = .ok w' := by
  cases c with
  | preamble => cases hv
  | text s style =>
    obtain ⟨ts, st, n, -, -, h, -⟩ := writeInnerText_add w s style hw
    exact ⟨_, by rw [exec, h]; rfl⟩
  | whitespace c n =>
    refine ⟨w.add [(.whitespace, List.replicate n c)] .normal, ?_⟩
    have : isSpace c = true := by
      have hv : c = ' ' ∨ c = '\n' ∨ c = '\t' ∨ c = '\r' := hv
      simpa [isSpace, or_assoc] using hv
    show w.writeWhitespace c n = _
    unfold writeWhitespace
    rw [this]
    rcases hw with h | h <;> simp [h, add, write, writeN]
  | comment s style =>
    show ∃ w', w.writeCommentTag s style = .ok w'
    unfold writeCommentTag
    have : findSub "-->".toList s = none := (findSub_none (by simp)).mpr hv
    obtain ⟨ts, st, x, y, -, -, -, -, he⟩ := tag_add hw.ne style
      (.tag_bracket, "<!--".toList) (.comment, s) (.tag_bracket, "-->".toList)
    refine ⟨w.add ts st, ?_⟩
    rw [this, ← he]
    simp [hw.ne]
  | empty t =>
    show ∃ w', w.writeEmptyTag t = .ok w'
    unfold writeEmptyTag
    rw [checkTag_ok (u := ()).mpr ⟨hw, hv⟩, Outcome.ok_bind]
    obtain ⟨ts, st, x, y, -, -, -, -, he⟩ := tag_add hw.ne t.style
      (.tag_bracket, ['<']) (.tag_identifier, t.id) (.tag_bracket, "/>".toList)
    exact ⟨_, he⟩
  | start t =>
    show ∃ w', w.beginTag t = .ok w'
    unfold beginTag
    rw [checkTag_ok (u := ()).mpr ⟨hw, hv⟩, Outcome.ok_bind]
    obtain ⟨ts, st, x, y, -, -, -, -, he⟩ := tag_add hw.ne t.style
      (.tag_bracket, ['<']) (.tag_identifier, t.id) (.tag_bracket, ['>'])
    obtain ⟨w1, h1, h2⟩ := Outcome.bind_eq_ok.mp he
    rw [h1, Outcome.ok_bind, h2]
    exact ⟨_, rfl⟩
  | close t =>
    show ∃ w', w.endTag t = .ok w'
    unfold endTag
    rw [checkTag_ok (u := ()).mpr ⟨hw, hv⟩, Outcome.ok_bind]
    have hd : w.depth ≠ 0 := hd ⟨t, rfl⟩
    have hst : (shallower t.style w).state = w.state := by unfold shallower; split <;> rfl
    obtain ⟨ts, st, x, y, -, -, -, -, he⟩ := tag_add (w := shallower t.style w)
      (by rw [hst]; exact hw.ne) t.style
      (.tag_bracket, "</".toList) (.tag_identifier, t.id) (.tag_bracket, ['>'])
    obtain ⟨w1, h1, h2⟩ := Outcome.bind_eq_ok.mp he
    simp only [hd, ne_eq, not_false_eq_true, decide_true, Outcome.assert_true, Outcome.ok_bind]
    rw [h1, Outcome.ok_bind, h2]
    exact ⟨_, rfl⟩
  | emptyAttrs t as =>
    obtain ⟨w1, h1, s1⟩ := beginTagWithAttributes_valid hw hv.1
    obtain ⟨w2, h2⟩ := writeAttributes_valid s1 hv.2
    obtain ⟨ts, -, -, h3⟩ := writeAttributes_ok h2 s1
    have s2 : w2.state = .attributes := by rw [h3]; rfl
    obtain ⟨ws, st, -, hs, h4⟩ := breakIf_add
      { w2.write "/>".toList .tag_bracket with state := .normal } t.style rfl
    simp only [exec, h1, h2, Outcome.ok_bind, endEmptyTagAttributes, s2, decide_true,
      Outcome.assert_true, h4, dropAttributes, add]
    rcases hs with rfl | rfl <;> exact ⟨_, rfl⟩
  | startAttrs t as =>
    obtain ⟨w1, h1, s1⟩ := beginTagWithAttributes_valid hw hv.1
    obtain ⟨w2, h2⟩ := writeAttributes_valid s1 hv.2.1
    obtain ⟨ts, -, -, h3⟩ := writeAttributes_ok h2 s1
    have s2 : w2.state = .attributes := by rw [h3]; rfl
    have hb : t.style.isBlockLike = false := by
      simp [Style.isBlockLike, hv.2.2.1, hv.2.2.2]
    simp only [exec, h1, h2, Outcome.ok_bind, endAttributes, s2, decide_true, Outcome.assert_true, hb,
      Bool.false_eq_true, if_false, dropAttributes]
    exact ⟨_, rfl⟩

theorem nested_depth {w w' : HtmlWriter} {cs : List HtmlCall} (hn : Nested cs)
    (h : w.execAll cs = .ok w') : w'.depth = w.depth := by
  have key : opened cs = closed cs := by
    clear h
    induction hn with
    | nil => rfl
    | @flat c cs hc _ ih =>
      simp only [opened, closed, List.countP_cons] at ih ⊢
      cases c <;> first | exact ih | cases hc
    | @tag o t xs ys ho _ _ ihx ihy =>
      simp only [opened, closed, List.countP_cons, List.countP_append] at ihx ihy ⊢
      cases o with
      | start _ =>
        simp only [if_true, Bool.false_eq_true, if_false]
        omega
      | startAttrs _ _ =>
        simp only [if_true, Bool.false_eq_true, if_false]
        omega
      | _ => cases ho
  have := C38_depth h
  omega

/-- **C38, accepted calls, partial.** Properly nested calls with valid arguments are let through.
Missing: block-like tags that have attributes and contents, which the documentation allows. -/
theorem C38_accepts_partial {w : HtmlWriter} {cs : List HtmlCall} (hn : Nested cs)
    (hv : ∀ c ∈ cs, c.Valid) (hw : w.state = .normal ∨ w.state = .new_line) :
    ∃ w', w.execAll cs = .ok w' := by
  have hw : w.Ready := hw
  suffices h : ∃ w', w.execAll cs = .ok w' ∧ w'.Ready from ⟨h.choose, h.choose_spec.1⟩
  induction hn generalizing w with
  | nil => exact ⟨w, rfl, hw⟩
  | @flat c cs hc _ ih =>
    obtain ⟨w1, h1⟩ := exec_valid hw (hv c (by simp))
      (by rintro ⟨t, rfl⟩; cases hc)
    obtain ⟨w2, h2, r2⟩ := ih (fun c hc => hv c (by simp [hc])) (exec_ready h1) (exec_ready h1)
    exact ⟨w2, by rw [execAll, h1]; exact h2, r2⟩
  | @tag o t xs ys ho hx _ ihx ihy =>
    obtain ⟨w1, h1⟩ := exec_valid hw (hv o (by simp))
      (by rintro ⟨t, rfl⟩; cases ho)
    obtain ⟨w2, h2, r2⟩ := ihx (fun c hc => hv c (by simp [hc])) (exec_ready h1) (exec_ready h1)
    have hd : w2.depth ≠ 0 := by
      have e := nested_depth hx h2
      have f := C38_depth (cs := [o]) (w := w) (w' := w1) (by rw [execAll, h1]; rfl)
      have : opened [o] = 1 ∧ closed [o] = 0 := by
        cases o <;> first | exact ⟨rfl, rfl⟩ | cases ho
      omega
    obtain ⟨w3, h3⟩ := exec_valid r2 (hv (.close t) (by simp)) (fun _ => hd)
    obtain ⟨w4, h4, r4⟩ := ihy (fun c hc => hv c (by simp [hc])) (exec_ready h3) (exec_ready h3)
    refine ⟨w4, ?_, r4⟩
    rw [execAll, h1, Outcome.ok_bind, execAll_append, h2, Outcome.ok_bind, execAll, h3]
    exact h4

/-- **C38, violation.** An opening tag with attributes always throws if the style is block-like
(`flat` or `block`), whatever the writer's state and the attributes. -/
theorem C38_block_attributes (w : HtmlWriter) (t : Tag) (as : List (List Char × List Char))
    (h : t.style = .flat ∨ t.style = .block) (w' : HtmlWriter) :
    w.exec (.startAttrs t as) ≠ .ok w' := by
  intro he
  obtain ⟨-, -, -, -, -, hb, -⟩ := startAttrs_ok he
  rcases h with h | h <;> (rw [h] at hb; cases hb)

example : (create 4).execAll [.preamble, .startAttrs ⟨"div".toList, .block⟩ []] = .throws ∧
    ((create 4).execAll [.preamble, .startAttrs ⟨"div".toList, .in_line⟩ []]).map
      (fun w => String.ofList w.text) = .ok "<!DOCTYPE html>\n<div>" := by
  decide

/-- **C38, documents.** The preamble followed by properly nested calls yields the document type and
well-nested HTML; afterwards `is_done` holds exactly at the start of a new line. -/
theorem C38_document {n : Nat} {w' : HtmlWriter} {cs : List HtmlCall} (hn : Nested cs)
    (hp : ∀ c ∈ cs, c.Plain) (h : (create n).execAll (.preamble :: cs) = .ok w') :
    (∃ t, Content t ∧ w'.text = "<!DOCTYPE html>\n".toList ++ t) ∧
    w'.depth = 0 ∧ w'.indentDepth = 0 ∧ (w'.isDone = true ↔ w'.state = .new_line) := by
  obtain ⟨w1, h1, h2⟩ := Outcome.bind_eq_ok.mp h
  have hr : w'.Ready := by
    clear hn hp h
    obtain ⟨-, h1'⟩ := writePreamble_ok h1
    have r1 : w1.Ready := by rw [h1']; exact .inr rfl
    clear h1 h1'
    induction cs generalizing w1 with
    | nil => cases h2; exact r1
    | cons c cs ih =>
      obtain ⟨w2, h3, h4⟩ := Outcome.bind_eq_ok.mp h2
      exact ih _ h4 (exec_ready h3)
  obtain ⟨-, rfl⟩ := writePreamble_ok h1
  obtain ⟨t, a1, a2, a3, a4⟩ := C38_nested hn hp (by simp [add, create]) h2
  refine ⟨⟨t, a1, by rw [a2]; simp [create, HtmlWriter.text, add]⟩, a3, a4, ?_⟩
  have a3 : w'.depth = 0 := a3
  have a4 : w'.indentDepth = 0 := a4
  unfold isDone
  rw [a3, a4]
  rcases hr with e | e <;> simp [e]

/-- A document with nested tags, attributes, text and a comment. -/
def sampleCalls : List HtmlCall :=
  [.start ⟨"html".toList, .flat⟩,
    .start ⟨"body".toList, .block⟩,
      .comment " a comment ".toList .block,
      .startAttrs ⟨"a".toList, .in_line⟩ [("href".toList, "x/y".toList), ("id".toList, "z".toList)],
        .text "1 < 2".toList .in_line,
      .close ⟨"a".toList, .in_line⟩,
      .whitespace ' ' 2,
      .empty ⟨"br".toList, .in_line⟩,
    .close ⟨"body".toList, .block⟩,
  .close ⟨"html".toList, .flat⟩]

example : Nested sampleCalls ∧ (∀ c ∈ sampleCalls, c.Plain) ∧
    ((create 2).execAll (.preamble :: sampleCalls)).map (fun w => (String.ofList w.text, w.isDone)) =
      .ok ("<!DOCTYPE html>\n<html>\n<body>\n  <!-- a comment -->\n  <a href=\"x/y\" id=z>1 &lt; 2</a>  <br/>\n</body>\n</html>\n", true) := by
  refine ⟨?_, ?_, by decide +kernel⟩
  · refine .tag (o := .start _) (ys := []) (xs := [_, _, _, _, _, _, _, _]) rfl ?_ .nil
    refine .tag (o := .start _) (ys := []) (xs := [_, _, _, _, _, _]) rfl ?_ .nil
    refine .flat trivial (.tag (o := .startAttrs _ _) (xs := [_]) rfl (.flat trivial .nil) ?_)
    exact .flat trivial (.flat trivial .nil)
  · intro c hc
    simp only [sampleCalls, List.mem_cons, List.not_mem_nil, or_false] at hc
    rcases hc with rfl | rfl | rfl | rfl | rfl | rfl | rfl | rfl | rfl | rfl <;>
      first | trivial | skip
    intro a ha
    simp only [List.mem_cons, List.not_mem_nil, or_false] at ha
    rcases ha with rfl | rfl <;> (unfold PlainValue; decide)

/-! ## C50: preamble -/

/-- **C50.** In whatever order the writer is called, the document type is written at most once, and
if it is written then nothing else is in front of it. -/
theorem C50_preamble {n : Nat} {w' : HtmlWriter} {cs : List HtmlCall}
    (h : (create n).execAll cs = .ok w') :
    cs.count .preamble ≤ 1 ∧ (HtmlCall.preamble ∈ cs → cs.head? = some .preamble) ∧
    (HtmlCall.preamble ∈ cs → "<!DOCTYPE html>\n".toList <+: w'.text) := by
  have later : ∀ {cs : List HtmlCall} {w : HtmlWriter}, w.Ready → w.execAll cs = .ok w' →
      HtmlCall.preamble ∉ cs ∧ w.text <+: w'.text := by
    intro cs
    induction cs with
    | nil => intro w hw h; cases h; simp
    | cons c cs ih =>
      intro w hw h
      obtain ⟨w1, h1, h2⟩ := Outcome.bind_eq_ok.mp h
      obtain ⟨i1, i2⟩ := ih (exec_ready h1) h2
      have hc : c ≠ .preamble := by
        rintro rfl
        obtain ⟨e, -⟩ := writePreamble_ok h1
        rcases hw with f | f <;> (rw [e] at f; cases f)
      refine ⟨by simp only [List.mem_cons, not_or]; exact ⟨fun e => hc e.symm, i1⟩, ?_⟩
      refine List.IsPrefix.trans ?_ i2
      have out : ∀ ts st, w.text <+: (w.add ts st).text := by intro ts st; simp
      cases c with
      | preamble => exact absurd rfl hc
      | text s style =>
        obtain ⟨n, h1⟩ := exec_text_ok h1
        obtain ⟨ts, st, -, -, -, rfl, -⟩ := writeInnerText_ok h1
        exact out _ _
      | whitespace c n => obtain ⟨-, -, rfl⟩ := writeWhitespace_ok h1; exact out _ _
      | comment s style =>
        obtain ⟨ts, st, x, y, -, -, -, -, -, -, rfl⟩ := writeCommentTag_ok h1; exact out _ _
      | empty tag =>
        obtain ⟨ts, st, x, y, -, -, -, -, -, -, rfl⟩ := writeEmptyTag_ok h1; exact out _ _
      | emptyAttrs tag as =>
        obtain ⟨ts, st, x, y, -, -, -, -, -, -, -, rfl⟩ := emptyAttrs_ok h1; exact out _ _
      | start tag =>
        obtain ⟨ts, st, x, y, -, -, -, -, -, -, rfl⟩ := beginTag_ok h1
        unfold deeper; split <;> exact out ts st
      | startAttrs tag as =>
        obtain ⟨ts, x, -, -, -, -, -, -, rfl⟩ := startAttrs_ok h1; exact out ts .normal
      | close tag =>
        obtain ⟨ts, st, x, y, -, -, -, -, -, -, -, rfl⟩ := endTag_ok h1
        unfold shallower; split <;> exact out ts st
  cases cs with
  | nil => simp
  | cons c cs =>
    obtain ⟨w1, h1, h2⟩ := Outcome.bind_eq_ok.mp h
    obtain ⟨l1, l2⟩ := later (exec_ready h1) h2
    have hc : cs.count .preamble = 0 := List.count_eq_zero.mpr l1
    refine ⟨?_, ?_, ?_⟩
    · rw [List.count_cons]
      split <;> omega
    · intro hm
      rcases List.mem_cons.mp hm with e | e
      · rw [← e]; rfl
      · exact absurd e l1
    · intro hm
      rcases List.mem_cons.mp hm with e | e
      · subst e
        obtain ⟨-, rfl⟩ := writePreamble_ok h1
        exact l2
      · exact absurd e l1

example : (create 2).execAll [.comment [] .flat, .preamble] = .throws ∧
    ((create 2).execAll [.preamble, .text "a".toList .pre]).map (fun w => String.ofList w.text) =
      .ok "<!DOCTYPE html>\na" := by
  decide

/-- **C50, violation.** A writer that has only written a comment counts as done, although it never
wrote the document type. -/
theorem C50_done_without_preamble :
    ((create 2).execAll [.comment "x".toList .flat]).map
      (fun w => (String.ofList w.text, w.isDone)) = .ok ("\n<!--x-->\n", true) := by
  decide

/-! ## C49: attributes can be read back -/

theorem nameChar_plain {c : Char} (h : NameChar c) :
    ¬ HtmlSpace c ∧ c ≠ '/' ∧ c ≠ '>' ∧ c ≠ '=' := by
  revert h
  refine char_forall (P := fun c => NameChar c → ¬ HtmlSpace c ∧ c ≠ '/' ∧ c ≠ '>' ∧ c ≠ '=')
    (by decide +kernel) ?_ c
  intro c hc h
  have := (html_name_char c).mpr h
  have h : c ∈ htmlIdentifierCharacters := by simpa using this
  have : ∀ d ∈ htmlIdentifierCharacters, d.toNat < 128 := by decide +kernel
  have := this c h
  omega

theorem read_key {as : List (List Char × List Char)} {k : List Char} (k0 s : List Char)
    (hk : ∀ c ∈ k, NameChar c) :
    readAttrs as (.key k0) (k ++ s) = readAttrs as (.key (k0 ++ k)) s := by
  induction k generalizing k0 with
  | nil => simp
  | cons c cs ih =>
    obtain ⟨h1, h2, h3, h4⟩ := nameChar_plain (hk c (by simp))
    rw [List.cons_append, readAttrs, if_neg h1, if_neg h2, if_neg h3, if_neg h4,
      ih _ (fun c hc => hk c (by simp [hc]))]
    simp

theorem read_double {as : List (List Char × List Char)} {k v : List Char} (v0 s : List Char)
    (hv : '"' ∉ v) :
    readAttrs as (.double k v0) (v ++ s) = readAttrs as (.double k (v0 ++ v)) s := by
  induction v generalizing v0 with
  | nil => simp
  | cons c cs ih =>
    simp only [List.mem_cons, not_or] at hv
    rw [List.cons_append, readAttrs, if_neg (fun e => hv.1 e.symm), ih _ hv.2]
    simp

theorem read_unquoted {as : List (List Char × List Char)} {k v : List Char} (v0 s : List Char)
    (hv : ∀ c ∈ v, ¬ HtmlSpace c ∧ c ≠ '>') :
    readAttrs as (.unquoted k v0) (v ++ s) = readAttrs as (.unquoted k (v0 ++ v)) s := by
  induction v generalizing v0 with
  | nil => simp
  | cons c cs ih =>
    obtain ⟨h1, h2⟩ := hv c (by simp)
    rw [List.cons_append, readAttrs, if_neg h1, if_neg h2, ih _ (fun c hc => hv c (by simp [hc]))]
    simp

/-- Where the reader is after an attribute with the given value. -/
def stateAfter (k v : List Char) : AttrState :=
  if v.isEmpty then .key k else if requiresQuotes v then .afterValue else .unquoted k v

/-- The attributes the reader has collected after an attribute. -/
def collected (as : List (List Char × List Char)) (k v : List Char) :
    List (List Char × List Char) :=
  if v.isEmpty then as else if requiresQuotes v then as ++ [(k, v)] else as

theorem unquoted_chars {v : List Char} (hp : PlainValue v) (hq : requiresQuotes v = false) :
    ∀ c ∈ v, ¬ HtmlSpace c ∧ c ≠ '"' ∧ c ≠ '\'' ∧ c ≠ '>' := by
  intro d hd
  obtain ⟨a1, a2, a3, a4, a5⟩ := hp d hd
  unfold requiresQuotes at hq
  rw [List.any_eq_false] at hq
  have h4 := hq d hd
  simp at h4
  obtain ⟨b1, b2, b3, b4, b5, b6, b7, b8⟩ := h4
  refine ⟨?_, b1, b3, b7⟩
  rintro (h | h | h | h | h) <;> contradiction

theorem read_attr {as : List (List Char × List Char)} {k v : List Char} (s : List Char)
    (hk : Name k) (hv : PlainValue v) :
    readAttrs as .before (attrText k v ++ s) = readAttrs (collected as k v) (stateAfter k v) s := by
  cases k with
  | nil => cases hk
  | cons c cs =>
    obtain ⟨h1, h2, h3, h4⟩ := nameChar_plain (hk.2 c (by simp))
    have key : ∀ t, readAttrs as .before (' ' :: (c :: cs ++ t)) =
        readAttrs as (.key (c :: cs)) t := by
      intro t
      rw [readAttrs, if_pos (by decide), List.cons_append, readAttrs, if_neg h1, if_neg h2,
        if_neg h3, read_key _ _ (fun d hd => hk.2 d (by simp [hd]))]
      rfl
    unfold attrText
    rw [List.cons_append, List.append_assoc, key]
    cases v with
    | nil => simp [collected, stateAfter]
    | cons d ds =>
      simp only [List.isEmpty_cons, Bool.false_eq_true, if_false, collected, stateAfter,
        List.cons_append]
      rw [readAttrs, if_neg (by decide), if_neg (by decide), if_neg (by decide), if_pos rfl]
      cases hq : requiresQuotes (d :: ds)
      · obtain ⟨g1, g2, g3, g4⟩ := unquoted_chars hv hq d (by simp)
        simp only [Bool.false_eq_true, if_false, List.cons_append]
        rw [readAttrs, if_neg g1, if_neg g2, if_neg g3, if_neg g4,
          read_unquoted _ _ (fun e he => by
            have := unquoted_chars hv hq e (by simp [he])
            exact ⟨this.1, this.2.2.2⟩)]
        rfl
      · simp only [if_true, List.cons_append, List.append_assoc]
        rw [readAttrs, if_neg (by decide), if_pos rfl, ← List.cons_append,
          read_double _ _ (fun hm => (hv _ hm).1 rfl)]
        simp [readAttrs]

theorem read_next {as : List (List Char × List Char)} {k v : List Char} (s : List Char)
    {a : List Char × List Char} (ha : Name a.1) :
    readAttrs (collected as k v) (stateAfter k v) (attrText a.1 a.2 ++ s) =
      readAttrs (as ++ [(k, v)]) .before (attrText a.1 a.2 ++ s) := by
  obtain ⟨k', v'⟩ := a
  cases k' with
  | nil => cases ha
  | cons c cs =>
    obtain ⟨h1, h2, h3, h4⟩ := nameChar_plain (ha.2 c (by simp))
    simp only [attrText, List.cons_append]
    generalize (cs ++ _) ++ s = t
    have sp : HtmlSpace ' ' := by decide
    cases v with
    | nil =>
      simp only [collected, stateAfter, List.isEmpty_nil, if_true]
      simp only [readAttrs, if_pos sp, if_neg h1, if_neg h2, if_neg h3, if_neg h4]
    | cons d ds =>
      simp only [collected, stateAfter, List.isEmpty_cons, Bool.false_eq_true, if_false]
      cases requiresQuotes (d :: ds) <;>
        simp only [readAttrs, if_pos sp, Bool.false_eq_true, if_false, if_true]

theorem read_all {as bs : List (List Char × List Char)} {k v : List Char} (s : List Char)
    (hn : ∀ a ∈ (k, v) :: bs, Name a.1) (hv : ∀ a ∈ (k, v) :: bs, PlainValue a.2) :
    ∃ cs kl vl, as ++ (k, v) :: bs = cs ++ [(kl, vl)] ∧
      readAttrs as .before (((k, v) :: bs).flatMap (fun a => attrText a.1 a.2) ++ s) =
        readAttrs (collected cs kl vl) (stateAfter kl vl) s := by
  induction bs generalizing as k v with
  | nil =>
    refine ⟨as, k, v, rfl, ?_⟩
    simpa using read_attr s (hn _ List.mem_cons_self) (hv _ List.mem_cons_self)
  | cons b bs ih =>
    obtain ⟨k', v'⟩ := b
    obtain ⟨cs, kl, vl, h1, h2⟩ := ih (as := as ++ [(k, v)]) (k := k') (v := v')
      (fun a ha => hn a (List.mem_cons_of_mem _ ha)) (fun a ha => hv a (List.mem_cons_of_mem _ ha))
    refine ⟨cs, kl, vl, by rw [← h1]; simp, ?_⟩
    rw [← h2, List.flatMap_cons, List.append_assoc,
      read_attr _ (hn _ List.mem_cons_self) (hv _ List.mem_cons_self), List.flatMap_cons,
      List.append_assoc, read_next (a := (k', v')) _ (hn _ (by simp))]

theorem read_end (as : List (List Char × List Char)) (k v s : List Char) :
    readAttrs (collected as k v) (stateAfter k v) ('>' :: s) = some (as ++ [(k, v)], false, s) := by
  have sp : ¬ HtmlSpace '>' := by decide
  have sl : '>' ≠ '/' := by decide
  cases v with
  | nil =>
    simp only [collected, stateAfter, List.isEmpty_nil, if_true]
    simp only [readAttrs, if_neg sp, if_neg sl, if_true]
  | cons d ds =>
    simp only [collected, stateAfter, List.isEmpty_cons, Bool.false_eq_true, if_false]
    cases requiresQuotes (d :: ds) <;>
      simp only [readAttrs, if_neg sp, if_neg sl, Bool.false_eq_true, if_false, if_true]

theorem read_end_empty (as : List (List Char × List Char)) (k v s : List Char)
    (h : v = [] ∨ requiresQuotes v = true) :
    readAttrs (collected as k v) (stateAfter k v) ('/' :: '>' :: s) =
      some (as ++ [(k, v)], true, s) := by
  have sp : ¬ HtmlSpace '/' := by decide
  cases v with
  | nil =>
    simp only [collected, stateAfter, List.isEmpty_nil, if_true]
    simp only [readAttrs, if_neg sp, if_true]
  | cons d ds =>
    rcases h with h | h
    · cases h
    simp only [collected, stateAfter, List.isEmpty_cons, Bool.false_eq_true, if_false, h]
    simp only [readAttrs, if_neg sp, if_true]

/-- **C49, partial: opening tags.** A browser that reads an opening tag written with attributes
finds exactly these attributes, in order, and the end of the tag.  Missing: values that contain a
double quote, a tab or a line end, see `C49_quote` and `C49_tab`. -/
theorem C49_read_back_partial {w w' : HtmlWriter} {tag : Tag}
    {as : List (List Char × List Char)} (hv : ∀ a ∈ as, PlainValue a.2)
    (h : w.exec (.startAttrs tag as) = .ok w') :
    ∃ x t, Blanks x ∧ w'.text = w.text ++ x ++ '<' :: tag.id ++ t ∧
      ∀ s, readAttrs [] .before (t ++ s) = some (as, false, s) := by
  obtain ⟨ts, x, -, -, hn, -, hx, ht, rfl⟩ := startAttrs_ok h
  refine ⟨x, as.flatMap (fun a => attrText a.1 a.2) ++ ['>'], hx, ?_, fun s => ?_⟩
  · show (w.add ts .normal).text = _
    rw [text_add, ht]; simp
  · cases as with
    | nil =>
      show readAttrs [] .before ('>' :: s) = some ([], false, s)
      rw [readAttrs, if_neg (by decide), if_neg (by decide), if_pos rfl]
    | cons a as =>
      obtain ⟨k, v⟩ := a
      obtain ⟨cs, kl, vl, h1, h2⟩ := read_all (as := []) ('>' :: s) hn hv
      rw [List.append_assoc]
      refine Eq.trans h2 ?_
      rw [read_end, ← h1]; rfl

/-- **C49, partial: empty tags.** The same for tags that end with `/>`, if the last value is empty
or in quotes.  Missing: other last values, see `C49_slash`. -/
theorem C49_read_back_empty_partial {w w' : HtmlWriter} {tag : Tag}
    {as : List (List Char × List Char)} (hv : ∀ a ∈ as, PlainValue a.2)
    (hl : ∀ a, as.getLast? = some a → a.2 = [] ∨ ' ' ∈ a.2 ∨ '/' ∈ a.2)
    (h : w.exec (.emptyAttrs tag as) = .ok w') :
    ∃ x y t, Blanks x ∧ Blanks y ∧ w'.text = w.text ++ x ++ '<' :: tag.id ++ t ++ y ∧
      ∀ s, readAttrs [] .before (t ++ s) = some (as, true, s) := by
  obtain ⟨ts, st, x, y, -, -, hn, -, hx, hy, ht, rfl⟩ := emptyAttrs_ok h
  refine ⟨x, y, as.flatMap (fun a => attrText a.1 a.2) ++ ['/', '>'], hx, hy, ?_, fun s => ?_⟩
  · rw [text_add, ht]; simp
  · cases as with
    | nil =>
      show readAttrs [] .before ('/' :: '>' :: s) = some ([], true, s)
      rw [readAttrs, if_neg (by decide), if_pos rfl, readAttrs, if_pos rfl]
    | cons a as =>
      obtain ⟨k, v⟩ := a
      obtain ⟨cs, kl, vl, h1, h2⟩ := read_all (as := []) ('/' :: '>' :: s) hn hv
      rw [List.append_assoc]
      refine Eq.trans h2 ?_
      have h1 : (k, v) :: as = cs ++ [(kl, vl)] := h1
      have hl := hl (kl, vl) (by rw [h1]; simp)
      rw [read_end_empty, ← h1]
      rcases hl with hl | hl | hl
      · exact .inl hl
      · exact .inr (List.any_eq_true.mpr ⟨' ', hl, by decide⟩)
      · exact .inr (List.any_eq_true.mpr ⟨'/', hl, by decide⟩)

/-- The attributes that a browser reads in a text that begins with `<p`. -/
def attributesOf (text : List Char) :
    Option (List (List Char × List Char) × Bool × List Char) :=
  readAttrs [] .before (text.drop 2)

/-- **C49, violation.** A double quote in a value ends the value: the attribute `title` with value
`a"b` is read as `title` with value `a` and a second attribute `b"`. -/
theorem C49_quote :
    ((⟨[], 0, .normal, 0, 0⟩ : HtmlWriter).exec (.startAttrs ⟨"p".toList, .in_line⟩
      [("title".toList, "a\"b".toList)])).map (fun w => attributesOf w.text) =
    .ok (some ([("title".toList, "a".toList), ("b\"".toList, [])], false, [])) := by
  decide +kernel

/-- **C49, violation.** A value with a tab is not quoted and ends at the tab. -/
theorem C49_tab :
    ((⟨[], 0, .normal, 0, 0⟩ : HtmlWriter).exec (.startAttrs ⟨"p".toList, .in_line⟩
      [("title".toList, "a\tb".toList)])).map (fun w => attributesOf w.text) =
    .ok (some ([("title".toList, "a".toList), ("b".toList, [])], false, [])) := by
  decide +kernel

/-- **C49, violation.** An unquoted value in front of `/>` absorbs the slash. -/
theorem C49_slash :
    ((⟨[], 0, .normal, 0, 0⟩ : HtmlWriter).exec (.emptyAttrs ⟨"p".toList, .in_line⟩
      [("id".toList, "x".toList)])).map (fun w => attributesOf w.text) =
    .ok (some ([("id".toList, "x/".toList)], false, [])) := by
  decide +kernel

example : ((⟨[], 0, .normal, 0, 0⟩ : HtmlWriter).exec (.emptyAttrs ⟨"p".toList, .in_line⟩
      [("id".toList, "x".toList), ("hidden".toList, []), ("title".toList, "a <b> c".toList)])).map
        (fun w => attributesOf w.text) =
    .ok (some ([("id".toList, "x".toList), ("hidden".toList, []),
      ("title".toList, "a <b> c".toList)], true, [])) := by
  decide +kernel

end Bms
