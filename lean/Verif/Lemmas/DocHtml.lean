import Verif.Spec.DocHtml
import Verif.Props.Html
import Verif.Props.Tokens

/-!
# Conversion of documents: what one call writes, and how conversions compose
-/

namespace Bms.Bmd

open Spec HtmlWriter

/-! ## Items -/

theorem Layout.nil : Layout [] := by simp [Layout]

theorem Layout.append {a b} (ha : Layout a) (hb : Layout b) : Layout (a ++ b) := by
  intro c hc
  rcases List.mem_append.mp hc with h | h
  · exact ha c h
  · exact hb c h

theorem Layout.newline : Layout ['\n'] := by simp [Layout]

theorem Layout.spaces (n : Nat) : Layout (List.replicate n ' ') := by
  intro c hc
  exact .inl (List.eq_of_mem_replicate hc)

theorem Shown.append {b is t b₁ js u b₂} (h : Shown b is t b₁) (h' : Shown b₁ js u b₂) :
    Shown b (is ++ js) (t ++ u) b₂ := by
  induction h with
  | nil => exact h'
  | indent hg _ ih => rw [List.append_assoc]; exact .indent hg (ih h')
  | text ht _ ih => rw [List.append_assoc]; exact .text ht (ih h')
  | verbatim _ ih => rw [List.append_assoc]; exact .verbatim (ih h')
  | space hc _ ih => exact .space hc (ih h')
  | element hn ha hc _ _ ih =>
    simp only [List.cons_append, List.append_assoc]
    simpa only [List.append_assoc, List.cons_append] using Shown.element hn ha hc (ih h')
  | void hn ha _ ih =>
    simp only [List.cons_append, List.append_assoc]
    simpa only [List.append_assoc, List.cons_append] using Shown.void hn ha (ih h')
  | block hn h1 hc h2 _ _ ih =>
    simp only [List.cons_append, List.append_assoc]
    simpa only [List.append_assoc, List.cons_append] using Shown.block hn h1 hc h2 (ih h')
  | voidBlock hn ha hg _ ih =>
    simp only [List.cons_append, List.append_assoc]
    simpa only [List.append_assoc, List.cons_append] using Shown.voidBlock hn ha hg (ih h')

theorem Shown.gap {g : List Char} (h : Layout g) : Shown true [] g true := by
  have := Shown.indent h (Shown.nil (fresh := true))
  rwa [List.append_nil] at this

/-- White space in front, at the start of a line. -/
theorem Shown.front {b is t b'} {g : List Char} (hg : Layout g) (hb : b = false → g = [])
    (h : Shown b is t b') : Shown b is (g ++ t) b' := by
  cases b with
  | false => rw [hb rfl]; exact h
  | true => exact .indent hg h

/-- White space behind, at the start of a line. -/
theorem Shown.back {b is t b'} {g : List Char} (hg : Layout g) (hb : b' = false → g = [])
    (h : Shown b is t b') : Shown b is (t ++ g) b' := by
  cases b' with
  | false => rw [hb rfl, List.append_nil]; exact h
  | true =>
    have := h.append (Shown.gap hg)
    rwa [List.append_nil] at this

/-! ## The writer -/

/-- The writer is at the start of a line. -/
def fresh (w : HtmlWriter) : Bool := decide (w.state = .new_line)

theorem indent_line (w : HtmlWriter) {style : Style} (hw : w.Ready) (hs : style.isBlockLike = false) :
    ∃ ws gap, w.indent style = .ok (w.add ws .normal) ∧ ws.flatMap Prod.snd = gap ∧ Layout gap ∧
      (fresh w = false → gap = []) := by
  unfold indent
  rw [if_neg (by simp [hs])]
  simp only [Outcome.ok_bind]
  by_cases h : w.state = .new_line ∧ style ≠ .pre
  · rw [if_pos h]
    refine ⟨[(.whitespace, List.replicate (w.indentDepth * w.indentWidth % 2 ^ 64) ' ')], _, rfl, rfl,
      ?_, ?_⟩
    · simpa using Layout.spaces _
    · intro hf
      simp [fresh, h.1] at hf
  · rw [if_neg h]
    refine ⟨[], _, ?_, rfl, Layout.nil, fun _ => rfl⟩
    simp [add]

theorem indent_any (w : HtmlWriter) (style : Style) (hw : w.Ready) :
    ∃ ws gap, w.indent style = .ok (w.add ws .normal) ∧ ws.flatMap Prod.snd = gap ∧ Layout gap := by
  obtain ⟨ws, h1, h2⟩ := indent_add w style hw.ne
  exact ⟨ws, _, h2, rfl, h1.text⟩

theorem text_shown (style : Style) (hs : style.isBlockLike = false) (fuel : Nat) (w : HtmlWriter)
    (s : List Char) (count : Nat) (h : s.length < fuel) (hw : w.Ready) :
    ∃ ts st n, (st = .normal ∨ st = .new_line) ∧
      TextShown (fresh w) s (ts.flatMap Prod.snd) (decide (st = .new_line)) ∧
      innerTextLoop style fuel w s count = .ok (w.add ts st, n) := by
  induction fuel generalizing w s count with
  | zero => omega
  | succ fuel ih =>
    unfold innerTextLoop
    cases s with
    | nil =>
      refine ⟨[], w.state, count, hw, ?_, ?_⟩
      · exact TextShown.nil
      · simp [add]
    | cons c cs =>
      simp only [List.isEmpty_cons, Bool.false_eq_true, if_false]
      obtain ⟨ws, gap, h1, h2, h3, h4⟩ := indent_line w hw hs
      rw [h1, Outcome.ok_bind]
      have hr : (w.add ws .normal).Ready := .inl rfl
      cases hf : findChar '\n' (c :: cs) with
      | none =>
        obtain ⟨ts, -, h6, h7⟩ := writeEscapedText_add (w.add ws .normal) (c :: cs) hr
        simp only [h7, Outcome.ok_bind]
        refine ⟨ws ++ ts, .normal, count + 1, .inl rfl, ?_, ?_⟩
        · rw [List.flatMap_append, h2, h6]
          exact TextShown.last h3 h4 (by simp) (findChar_none_mem hf)
        · simp [add]
      | some pos =>
        obtain ⟨g1, g2, g3⟩ := findChar_some_split hf
        obtain ⟨ts, -, h6, h7⟩ := writeEscapedText_add (w.add ws .normal) ((c :: cs).take pos) hr
        simp only [h7, Outcome.ok_bind]
        have hb : ((w.add ws .normal).add ts .normal).breakLine =
            .ok (w.add (ws ++ ts ++ [(.whitespace, ['\n'])]) .new_line) := by
          simp [breakLine, add, write, Outcome.assert]
        rw [hb, Outcome.ok_bind]
        obtain ⟨us, st, n, k1, k2, k3⟩ := ih (w.add (ws ++ ts ++ [(.whitespace, ['\n'])]) .new_line)
          ((c :: cs).drop (pos + 1)) (count + 1)
          (by rw [List.length_drop]; omega) (.inr rfl)
        refine ⟨ws ++ ts ++ [(.whitespace, ['\n'])] ++ us, st, n, k1, ?_, ?_⟩
        · have := TextShown.line (fresh := fresh w) h3 h4 g2
            (by simpa [fresh, add] using k2)
          rw [g1]
          simpa [h2, h6] using this
        · rw [k3]; simp [add]

/-- What a call does: it writes `t`, and changes the state. -/
structure Did (w : HtmlWriter) (t : List Char) (st : HtmlState) (depth indent : Nat) (w' : HtmlWriter) :
    Prop where
  text : w'.text = w.text ++ t
  state : w'.state = st
  depth : w'.depth = depth
  indent : w'.indentDepth = indent

theorem exec_text (w : HtmlWriter) (s : List Char) (style : Style) (hw : w.Ready)
    (hs : style = .in_line) : ∃ w' t st n, w.writeInnerText s style = .ok (w', n) ∧
      Did w t st w.depth w.indentDepth w' ∧ (st = .normal ∨ st = .new_line) ∧
      TextShown (fresh w) s t (fresh w') := by
  subst hs
  unfold writeInnerText
  rw [show (decide (w.state = .normal) || decide (w.state = .new_line)) = true by
    rcases hw with h | h <;> simp [h]]
  rw [if_neg (by simp)]
  obtain ⟨ts, st, n, h1, h2, h3⟩ := text_shown .in_line rfl (s.length + 1) w s 0 (by omega) hw
  exact ⟨_, _, st, n, h3, ⟨text_add _ _ _, rfl, rfl, rfl⟩, h1, h2⟩

theorem exec_verbatim (w : HtmlWriter) (s : List Char) (hw : w.Ready) :
    ∃ w', w.exec (.text s .pre) = .ok w' ∧ Did w (escape s) .normal w.depth w.indentDepth w' := by
  simp only [exec]
  unfold writeInnerText
  rw [show (decide (w.state = .normal) || decide (w.state = .new_line)) = true by
    rcases hw with h | h <;> simp [h]]
  obtain ⟨ts, -, h2, h3⟩ := writeEscapedText_add w s hw
  refine ⟨w.add ts .normal, ?_, ⟨by rw [text_add, h2], rfl, rfl, rfl⟩⟩
  simp [Outcome.assert, h3, Outcome.map]

theorem check_ready {w : HtmlWriter} {tag : Tag} (hw : w.Ready) (hn : Name tag.id) :
    w.checkTag tag = .ok () := checkTag_ok.mpr ⟨hw, hn⟩

theorem break_line {w : HtmlWriter} {style : Style} (hs : style.isBlockLike = false) :
    breakIf style w = .ok w := by simp [breakIf, hs]

theorem break_block {w : HtmlWriter} {style : Style} (hs : style.isBlockLike = true)
    (hw : w.state = .normal) : breakIf style w = .ok (w.add [(.whitespace, ['\n'])] .new_line) := by
  simp [breakIf, hs, breakLine, hw, Outcome.assert, write, add]

theorem line_not_block {style : Style} (hs : style.isBlockLike = false) : style ≠ .block := by
  rintro rfl; simp [Style.isBlockLike] at hs

/-- Opening a tag within a line. -/
theorem exec_start (w : HtmlWriter) (tag : Tag) (hw : w.Ready) (hn : Name tag.id)
    (hs : tag.style.isBlockLike = false) : ∃ w' gap, w.exec (.start tag) = .ok w' ∧ Layout gap ∧
      (fresh w = false → gap = []) ∧
      Did w (gap ++ '<' :: (tag.id ++ ['>'])) .normal (w.depth + 1) w.indentDepth w' := by
  obtain ⟨ws, gap, h1, h2, h3, h4⟩ := indent_line w hw hs
  simp only [exec]
  unfold beginTag
  rw [check_ready hw hn, Outcome.ok_bind, h1, Outcome.ok_bind, break_line hs, Outcome.ok_bind]
  refine ⟨_, gap, rfl, h3, h4, ?_⟩
  simp only [deeper, if_neg (line_not_block hs)]
  constructor <;> simp [write, add, HtmlWriter.text, h2]

/-- Opening a tag on its own line. -/
theorem exec_start_block (w : HtmlWriter) (tag : Tag) (hw : w.Ready) (hn : Name tag.id)
    (hs : tag.style.isBlockLike = true) : ∃ w' gap, w.exec (.start tag) = .ok w' ∧ Layout gap ∧
      Did w (gap ++ '<' :: (tag.id ++ ['>', '\n'])) .new_line (w.depth + 1)
        (if tag.style = .block then (w.indentDepth + 1) % 2 ^ 64 else w.indentDepth) w' := by
  obtain ⟨ws, gap, h1, h2, h3⟩ := indent_any w tag.style hw
  simp only [exec]
  unfold beginTag
  rw [check_ready hw hn, Outcome.ok_bind, h1, Outcome.ok_bind, break_block hs (by simp [write, add]),
    Outcome.ok_bind]
  refine ⟨_, gap, rfl, h3, ?_⟩
  unfold deeper
  by_cases hb : tag.style = .block
  · rw [if_pos hb, if_pos hb]
    constructor <;> simp [write, add, HtmlWriter.text, h2]
  · rw [if_neg hb, if_neg hb]
    constructor <;> simp [write, add, HtmlWriter.text, h2]

/-- Closing a tag within a line. -/
theorem exec_end (w : HtmlWriter) (tag : Tag) (hw : w.Ready) (hn : Name tag.id) (hd : w.depth ≠ 0)
    (hs : tag.style.isBlockLike = false) : ∃ w' gap, w.exec (.close tag) = .ok w' ∧ Layout gap ∧
      (fresh w = false → gap = []) ∧
      Did w (gap ++ '<' :: '/' :: (tag.id ++ ['>'])) .normal (w.depth - 1) w.indentDepth w' := by
  simp only [exec]
  unfold endTag
  have hsh : shallower tag.style w = w := by simp [shallower, line_not_block hs]
  obtain ⟨ws, gap, h1, h2, h3, h4⟩ := indent_line w hw hs
  rw [check_ready hw hn, Outcome.ok_bind, hsh]
  simp only [Outcome.assert, ne_eq, hd, not_false_eq_true, decide_true, if_true, Outcome.ok_bind, h1,
    break_line hs]
  refine ⟨_, gap, rfl, h3, h4, ?_⟩
  constructor <;> simp [write, add, HtmlWriter.text, h2]

/-- Closing a tag on its own line. -/
theorem exec_end_block (w : HtmlWriter) (tag : Tag) (hw : w.Ready) (hn : Name tag.id) (hd : w.depth ≠ 0)
    (hs : tag.style.isBlockLike = true) : ∃ w' gap, w.exec (.close tag) = .ok w' ∧ Layout gap ∧
      Did w (gap ++ '<' :: '/' :: (tag.id ++ ['>', '\n'])) .new_line (w.depth - 1)
        (if tag.style = .block then (w.indentDepth + (2 ^ 64 - 1)) % 2 ^ 64 else w.indentDepth) w' := by
  simp only [exec]
  unfold endTag
  have hr : (shallower tag.style w).Ready := by
    unfold shallower HtmlWriter.Ready
    split <;> simpa [HtmlWriter.Ready] using hw
  obtain ⟨ws, gap, h1, h2, h3⟩ := indent_any (shallower tag.style w) tag.style hr
  rw [check_ready hw hn, Outcome.ok_bind]
  simp only [Outcome.assert, ne_eq, hd, not_false_eq_true, decide_true, if_true, Outcome.ok_bind, h1]
  rw [break_block hs (by simp [write, add]), Outcome.ok_bind]
  refine ⟨_, gap, rfl, h3, ?_⟩
  unfold shallower
  by_cases hb : tag.style = .block
  · rw [if_pos hb, if_pos hb]
    constructor <;> simp [write, add, HtmlWriter.text, h2]
  · rw [if_neg hb, if_neg hb]
    constructor <;> simp [write, add, HtmlWriter.text, h2]

/-- Attributes of a tag. -/
theorem attrs_did {w : HtmlWriter} {as : List (List Char × List Char)} (hw : w.state = .attributes)
    (hn : ∀ a ∈ as, Name a.1) : ∃ ts, w.writeAttributes as = .ok (w.add ts .attributes) ∧
      ts.flatMap Prod.snd = as.flatMap (fun a => attrText a.1 a.2) := by
  obtain ⟨w', h⟩ := writeAttributes_valid hw hn
  obtain ⟨ts, -, h2, rfl⟩ := writeAttributes_ok h hw
  exact ⟨ts, h, h2⟩

/-- Opening a tag with attributes within a line. -/
theorem exec_startAttrs (w : HtmlWriter) (tag : Tag) (as : List (List Char × List Char)) (hw : w.Ready)
    (hn : Name tag.id) (ha : ∀ a ∈ as, Name a.1) (hs : tag.style.isBlockLike = false) :
    ∃ w' gap, w.exec (.startAttrs tag as) = .ok w' ∧ Layout gap ∧ (fresh w = false → gap = []) ∧
      Did w (gap ++ '<' :: (tag.id ++ as.flatMap (fun a => attrText a.1 a.2) ++ ['>'])) .normal
        (w.depth + 1) w.indentDepth w' := by
  obtain ⟨ws, gap, h1, h2, h3, h4⟩ := indent_line w hw hs
  simp only [exec]
  unfold beginTagWithAttributes
  rw [check_ready hw hn, Outcome.ok_bind, h1]
  simp only [Outcome.ok_bind]
  obtain ⟨ts, k1, k2⟩ := attrs_did
    (w := { ((w.add ws .normal).write ['<'] .tag_bracket).write tag.id .tag_bracket with state := .attributes })
    (as := as) rfl ha
  rw [k1, Outcome.ok_bind]
  simp only [endAttributes, Outcome.assert, add, decide_true, if_true, Outcome.ok_bind, hs,
    Bool.false_eq_true, if_false, dropAttributes]
  refine ⟨_, gap, rfl, h3, h4, ?_⟩
  constructor <;> simp [write, HtmlWriter.text, h2, k2]

/-- An empty tag with attributes on its own line. -/
theorem exec_emptyAttrs_block (w : HtmlWriter) (tag : Tag) (as : List (List Char × List Char))
    (hw : w.Ready) (hn : Name tag.id) (ha : ∀ a ∈ as, Name a.1) (hs : tag.style.isBlockLike = true) :
    ∃ w' gap, w.exec (.emptyAttrs tag as) = .ok w' ∧ Layout gap ∧
      Did w (gap ++ '<' :: (tag.id ++ as.flatMap (fun a => attrText a.1 a.2) ++ ['/', '>', '\n'])) .new_line
        w.depth w.indentDepth w' := by
  obtain ⟨ws, gap, h1, h2, h3⟩ := indent_any w tag.style hw
  simp only [exec]
  unfold beginTagWithAttributes
  rw [check_ready hw hn, Outcome.ok_bind, h1]
  simp only [Outcome.ok_bind]
  obtain ⟨ts, k1, k2⟩ := attrs_did
    (w := { ((w.add ws .normal).write ['<'] .tag_bracket).write tag.id .tag_bracket with state := .attributes })
    (as := as) rfl ha
  rw [k1, Outcome.ok_bind]
  simp only [endEmptyTagAttributes, Outcome.assert, add, decide_true, if_true, Outcome.ok_bind]
  rw [break_block hs (by simp [write])]
  refine ⟨_, gap, rfl, h3, ?_⟩
  constructor <;> simp [write, HtmlWriter.text, h2, k2, add]

/-- An empty tag within a line. -/
theorem exec_empty (w : HtmlWriter) (tag : Tag) (hw : w.Ready) (hn : Name tag.id)
    (hs : tag.style.isBlockLike = false) : ∃ w' gap, w.exec (.empty tag) = .ok w' ∧ Layout gap ∧
      (fresh w = false → gap = []) ∧
      Did w (gap ++ '<' :: (tag.id ++ ['/', '>'])) .normal w.depth w.indentDepth w' := by
  obtain ⟨ws, gap, h1, h2, h3, h4⟩ := indent_line w hw hs
  simp only [exec]
  unfold writeEmptyTag
  rw [check_ready hw hn, Outcome.ok_bind, h1, Outcome.ok_bind, break_line hs]
  refine ⟨_, gap, rfl, h3, h4, ?_⟩
  constructor <;> simp [write, add, HtmlWriter.text, h2]

/-- An empty tag on its own line. -/
theorem exec_empty_block (w : HtmlWriter) (tag : Tag) (hw : w.Ready) (hn : Name tag.id)
    (hs : tag.style.isBlockLike = true) : ∃ w' gap, w.exec (.empty tag) = .ok w' ∧ Layout gap ∧
      Did w (gap ++ '<' :: (tag.id ++ ['/', '>', '\n'])) .new_line w.depth w.indentDepth w' := by
  obtain ⟨ws, gap, h1, h2, h3⟩ := indent_any w tag.style hw
  simp only [exec]
  unfold writeEmptyTag
  rw [check_ready hw hn, Outcome.ok_bind, h1, Outcome.ok_bind, break_block hs (by simp [write, add])]
  refine ⟨_, gap, rfl, h3, ?_⟩
  constructor <;> simp [write, add, HtmlWriter.text, h2]

/-! ## Steps of the conversion -/

/-- What holds between the steps of a conversion. -/
structure Good (c : Conv) : Prop where
  ready : c.writer.Ready
  indent : c.writer.indentDepth < 2 ^ 64
  title : c.atStart = true → c.title = []

/-- From `c` to `c'`, the items were written. -/
structure Step (c c' : Conv) (items : List Item) : Prop where
  shown : ∃ t, c'.writer.text = c.writer.text ++ t ∧ Shown (fresh c.writer) items t (fresh c'.writer)
  depth : c'.writer.depth = c.writer.depth
  indent : c'.writer.indentDepth = c.writer.indentDepth
  good : Good c'

theorem Step.refl {c : Conv} (h : Good c) : Step c c [] := ⟨⟨[], by simp, .nil⟩, rfl, rfl, h⟩

theorem Step.trans {c c' c'' : Conv} {is js} (h : Step c c' is) (h' : Step c' c'' js) :
    Step c c'' (is ++ js) := by
  obtain ⟨t, h1, h2⟩ := h.shown
  obtain ⟨u, k1, k2⟩ := h'.shown
  exact ⟨⟨t ++ u, by rw [k1, h1, List.append_assoc], h2.append k2⟩, h'.depth.trans h.depth,
    h'.indent.trans h.indent, h'.good⟩

/-- A conversion shows the items unless there are faults. -/
def Goes (c : Conv) (start : Bool) (faults : List Fault) (items : List Item) (r : Conversion Conv) : Prop :=
  match faults with
  | [] => ∃ c', r = .ok c' ∧ Step c c' items ∧ c'.atStart = start
  | f :: _ => r = f.outcome

theorem Goes.ok {c c' : Conv} {items} (h : Step c c' items) : Goes c c'.atStart [] items (.ok c') :=
  ⟨c', rfl, h, rfl⟩

theorem Fault.outcome_bind {α β : Type} (f : Fault) (k : α → Conversion β) :
    (f.outcome >>= k) = f.outcome := by cases f <;> rfl

theorem Goes.bind {c : Conv} {s s' : Bool} {fs gs : List Fault} {is js : List Item} {r : Conversion Conv}
    {k : Conv → Conversion Conv} (h : Goes c s fs is r)
    (hk : ∀ c', Step c c' is → c'.atStart = s → Goes c' s' gs js (k c')) :
    Goes c s' (fs ++ gs) (is ++ js) (r >>= k) := by
  cases fs with
  | cons f fs =>
    simp only [Goes] at h
    rw [h]
    exact f.outcome_bind k
  | nil =>
    obtain ⟨c', rfl, h1, h2⟩ := h
    rw [Outcome.ok_bind, List.nil_append]
    have := hk c' h1 h2
    cases gs with
    | cons g gs => exact this
    | nil =>
      obtain ⟨c'', k0, k1, k2⟩ := this
      exact ⟨c'', k0, h1.trans k1, k2⟩

theorem call_one (c : Conv) (x : HtmlCall) : c.call [x] = c.wrote (c.writer.exec x) := by
  unfold Conv.call execAll
  cases c.writer.exec x <;> rfl

theorem call_cons (c : Conv) (x : HtmlCall) (xs : List HtmlCall) :
    c.call (x :: xs) = (c.call [x] >>= fun c => c.call xs) := by
  rw [call_one]
  unfold Conv.call
  rw [execAll]
  cases c.writer.exec x <;> rfl

theorem call_append (c : Conv) (xs ys : List HtmlCall) :
    c.call (xs ++ ys) = (c.call xs >>= fun c => c.call ys) := by
  unfold Conv.call
  rw [execAll_append]
  cases c.writer.execAll xs <;> rfl

/-- The text that opens an element within a line. -/
structure Opened (c : Conv) (tag : List Char) (as : List (List Char × List Char)) (c' : Conv) : Prop where
  text : ∃ gap a, Layout gap ∧ (fresh c.writer = false → gap = []) ∧ AttrText as a ∧
    c'.writer.text = c.writer.text ++ (gap ++ '<' :: (tag ++ a ++ ['>']))
  state : c'.writer.state = .normal
  depth : c'.writer.depth = c.writer.depth + 1
  indent : c'.writer.indentDepth = c.writer.indentDepth
  good : Good c'
  start : c'.atStart = c.atStart
  title : c'.title = c.title

theorem Good.ofDid {c : Conv} {t st d i w'} (h : Good c) (hd : Did c.writer t st d i w')
    (hs : st = .normal ∨ st = .new_line) (hi : i < 2 ^ 64) : Good { c with writer := w' } :=
  ⟨by have := hd.state; unfold HtmlWriter.Ready; simpa [this] using hs, by simpa [hd.indent] using hi,
    h.title⟩

theorem open_plain (c : Conv) (tag : Tag) (h : Good c) (hn : Name tag.id)
    (hs : tag.style.isBlockLike = false) :
    ∃ c', c.call [.start tag] = .ok c' ∧ Opened c tag.id [] c' := by
  obtain ⟨w', gap, h1, h2, h3, h4⟩ := exec_start c.writer tag h.ready hn hs
  refine ⟨{ c with writer := w' }, by rw [call_one, h1]; rfl, ?_⟩
  exact ⟨⟨gap, [], h2, h3, .nil, by simp [h4.text]⟩, h4.state, h4.depth, h4.indent,
    h.ofDid h4 (.inl rfl) h.indent, rfl, rfl⟩

theorem open_attrs (c : Conv) (tag : Tag) (as : List (List Char × List Char)) (h : Good c)
    (hn : Name tag.id) (ha : ∀ a ∈ as, Name a.1)
    (ht : AttrText as (as.flatMap fun a => attrText a.1 a.2)) (hs : tag.style.isBlockLike = false) :
    ∃ c', c.call [.startAttrs tag as] = .ok c' ∧ Opened c tag.id as c' := by
  obtain ⟨w', gap, h1, h2, h3, h4⟩ := exec_startAttrs c.writer tag as h.ready hn ha hs
  refine ⟨{ c with writer := w' }, by rw [call_one, h1]; rfl, ?_⟩
  exact ⟨⟨gap, _, h2, h3, ht, by simp [h4.text]⟩, h4.state, h4.depth, h4.indent,
    h.ofDid h4 (.inl rfl) h.indent, rfl, rfl⟩

/-- An element within a line. -/
theorem Goes.element {c : Conv} {s : Bool} {fs : List Fault} {is : List Item} {tag : Tag}
    {as : List (List Char × List Char)} {x : List HtmlCall} {k : Conv → Conversion Conv}
    (hn : Name tag.id) (hs : tag.style.isBlockLike = false)
    (ho : ∃ c', c.call x = .ok c' ∧ Opened c tag.id as c')
    (hk : ∀ c', Opened c tag.id as c' → Goes c' s fs is (k c')) :
    Goes c s fs [.element tag.id as is] (do
      let c ← c.call x
      let c ← k c
      c.call [.close tag]) := by
  obtain ⟨c₁, h1, h2⟩ := ho
  rw [h1, Outcome.ok_bind]
  have := hk c₁ h2
  cases fs with
  | cons f fs =>
    simp only [Goes] at this ⊢
    rw [this, Fault.outcome_bind]
  | nil =>
    obtain ⟨c₂, h3, h4, h5⟩ := this
    rw [h3, Outcome.ok_bind]
    obtain ⟨w', gap, k1, k2, k3, k4⟩ := exec_end c₂.writer tag h4.good.ready hn
      (by rw [h4.depth, h2.depth]; omega) hs
    refine ⟨{ c₂ with writer := w' }, by rw [call_one, k1]; rfl, ?_, h5⟩
    obtain ⟨g, a, g1, g2, g3, g4⟩ := h2.text
    obtain ⟨u, u1, u2⟩ := h4.shown
    refine ⟨⟨g ++ ('<' :: (tag.id ++ a ++ '>' :: ((u ++ gap) ++ '<' :: '/' :: (tag.id ++ '>' :: [])))), ?_, ?_⟩,
      ?_, ?_, ?_⟩
    · rw [k4.text, u1, g4]; simp
    · refine Shown.front g1 g2 ?_
      have e : fresh w' = false := by simp [fresh, k4.state]
      rw [e]
      refine Shown.element (fresh₁ := fresh c₂.writer) hn g3 ?_ .nil
      have e1 : fresh c₁.writer = false := by simp [fresh, h2.state]
      rw [e1] at u2
      exact u2.back k2 k3
    · rw [k4.depth, h4.depth, h2.depth]; simp
    · exact k4.indent.trans (h4.indent.trans h2.indent)
    · exact h4.good.ofDid k4 (.inl rfl) h4.good.indent

/-- An element on its own lines. -/
theorem Goes.block {c : Conv} {s : Bool} {fs : List Fault} {is : List Item} {tag : Tag}
    {k : Conv → Conversion Conv} (h : Good c)
    (hn : Name tag.id) (hs : tag.style.isBlockLike = true)
    (hk : ∀ c', Good c' → c'.atStart = c.atStart → fresh c'.writer = true → Goes c' s fs is (k c')) :
    Goes c s fs [.block tag.id is] (do
      let c ← c.call [.start tag]
      let c ← k c
      c.call [.close tag]) := by
  obtain ⟨w₁, gap, h1, h2, h3⟩ := exec_start_block c.writer tag h.ready hn hs
  rw [call_one, h1]
  simp only [Conv.wrote, Outcome.ok_bind]
  have hi : (if tag.style = .block then (c.writer.indentDepth + 1) % 2 ^ 64 else c.writer.indentDepth) <
      2 ^ 64 := by
    split
    · exact Nat.mod_lt _ (by decide)
    · exact h.indent
  have hf : fresh w₁ = true := by simp [fresh, h3.state]
  have := hk { c with writer := w₁ } (h.ofDid h3 (.inr rfl) hi) rfl hf
  cases fs with
  | cons f fs =>
    simp only [Goes] at this ⊢
    rw [this, Fault.outcome_bind]
  | nil =>
    obtain ⟨c₂, h4, h5, h6⟩ := this
    rw [h4, Outcome.ok_bind]
    obtain ⟨w', gap', k1, k2, k3⟩ := exec_end_block c₂.writer tag h5.good.ready hn
      (by rw [h5.depth, h3.depth]; omega) hs
    have hi' : (if tag.style = .block then (c₂.writer.indentDepth + (2 ^ 64 - 1)) % 2 ^ 64
        else c₂.writer.indentDepth) = c.writer.indentDepth := by
      rw [h5.indent, h3.indent]
      have := h.indent
      split
      · omega
      · rfl
    rw [hi'] at k3
    refine ⟨{ c₂ with writer := w' }, by rw [call_one, k1]; rfl, ?_, h6⟩
    obtain ⟨u, u1, u2⟩ := h5.shown
    rw [hf] at u2
    refine ⟨⟨gap ++ '<' :: (tag.id ++ '>' :: '\n' :: (u ++ gap' ++ '<' :: '/' :: (tag.id ++ '>' :: '\n' :: []))),
      ?_, ?_⟩, ?_, ?_, ?_⟩
    · rw [k3.text, u1, h3.text]; simp
    · have e : fresh w' = true := by simp [fresh, k3.state]
      rw [e]
      exact Shown.block hn h2 u2 k2 .nil
    · rw [k3.depth, h5.depth, h3.depth]; simp
    · exact k3.indent
    · exact h5.good.ofDid k3 (.inr rfl) h.indent

end Bms.Bmd
