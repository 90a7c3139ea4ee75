import Verif.Model.Html
import Verif.Spec.Html
import Verif.Props.Text

/-!
# Lemmas about the HTML writer
-/

namespace Bms

open Spec

/-! ## Names -/

theorem html_name_char : ∀ c : Char, htmlIdentifierCharacters.contains c = true ↔ NameChar c := by
  refine char_forall (by decide +kernel) ?_
  intro c hc
  constructor
  · intro h
    exact absurd h (by
      intro h
      have h : c ∈ htmlIdentifierCharacters := by simpa using h
      have : ∀ d ∈ htmlIdentifierCharacters, d.toNat < 128 := by decide +kernel
      have := this c h
      omega)
  · intro h
    exfalso
    unfold NameChar InRange at h
    have h1 : 'z'.toNat = 122 := rfl
    have h2 : 'Z'.toNat = 90 := rfl
    have h3 : '9'.toNat = 57 := rfl
    rcases h with h | h | h | rfl | rfl
    · omega
    · omega
    · omega
    · revert hc; decide
    · revert hc; decide

theorem html_identifier (s : List Char) : isHtmlIdentifier s = true ↔ Name s := by
  cases s with
  | nil => simp [isHtmlIdentifier, isIdentifierIn, Name]
  | cons c cs =>
    have hd : isDecimalDigit c = true ↔ InRange '0' c '9' := by
      simp only [isDecimalDigit, Bool.and_eq_true, decide_eq_true_eq, InRange]
      rfl
    simp only [isHtmlIdentifier, isIdentifierIn, Bool.and_eq_true, Bool.not_eq_true',
      Option.isNone_iff_eq_none, findFirstNotOf_none, html_name_char, Name, ← hd, Bool.not_eq_true]

/-! ## Blank output -/

/-- Output that only consists of spaces and line ends. -/
def Blank (ts : List (HtmlTok × List Char)) : Prop :=
  ∀ t ∈ ts, t.1 = .whitespace ∧ ∀ c ∈ t.2, c = ' ' ∨ c = '\n'

theorem Blank.nil : Blank [] := by simp [Blank]

theorem Blank.append {a b} (ha : Blank a) (hb : Blank b) : Blank (a ++ b) := by
  intro t ht
  rcases List.mem_append.mp ht with h | h
  · exact ha t h
  · exact hb t h

theorem Blank.replicate (n : Nat) : Blank [(.whitespace, List.replicate n ' ')] := by
  intro t ht
  simp only [List.mem_singleton] at ht
  subst ht
  exact ⟨rfl, fun c hc => .inl (List.eq_of_mem_replicate hc)⟩

theorem Blank.newline : Blank [(.whitespace, ['\n'])] := by
  intro t ht
  simp only [List.mem_singleton] at ht
  subst ht
  simp

theorem content_chars {s : List Char} (h : ∀ c ∈ s, c ≠ '<' ∧ c ≠ '>') : Content s := by
  induction s with
  | nil => exact .nil
  | cons c cs ih =>
    have h1 := h c (by simp)
    exact .append (a := [c]) (.char h1.1 h1.2) (ih fun d hd => h d (by simp [hd]))

theorem Blank.content {ts} (h : Blank ts) : Content (ts.flatMap Prod.snd) := by
  refine content_chars fun c hc => ?_
  obtain ⟨t, ht, hc⟩ := List.mem_flatMap.mp hc
  rcases (h t ht).2 c hc with rfl | rfl <;> decide

namespace HtmlWriter

/-- The writer can take text and tags. -/
def Ready (w : HtmlWriter) : Prop := w.state = .normal ∨ w.state = .new_line

/-- `w` after writing more tokens and changing state. -/
def add (w : HtmlWriter) (ts : List (HtmlTok × List Char)) (st : HtmlState) : HtmlWriter :=
  { w with out := w.out ++ ts, state := st }

theorem indent_add (w : HtmlWriter) (style : Style) (h : w.state ≠ .attributes) :
    ∃ ws, Blank ws ∧ w.indent style = .ok (w.add ws .normal) := by
  unfold indent
  by_cases h1 : w.state ≠ .new_line ∧ style.isBlockLike = true
  · rw [if_pos h1]
    have h2 : style ≠ .pre := by
      rintro rfl
      exact absurd h1.2 (by decide)
    refine ⟨[(.whitespace, ['\n'])] ++
      [(.whitespace, List.replicate (w.indentDepth * w.indentWidth % 2 ^ 64) ' ')],
      Blank.newline.append (Blank.replicate _), ?_⟩
    simp only [breakLine, h, ne_eq, not_false_eq_true, decide_true, Outcome.assert_true,
      Outcome.ok_bind, write, writeN, add, h2, and_self, if_true, List.append_assoc]
  · rw [if_neg h1]
    by_cases h2 : w.state = .new_line ∧ style ≠ .pre
    · refine ⟨[(.whitespace, List.replicate (w.indentDepth * w.indentWidth % 2 ^ 64) ' ')],
        Blank.replicate _, ?_⟩
      simp only [Outcome.ok_bind, if_pos h2, write, writeN, add]
    · refine ⟨[], Blank.nil, ?_⟩
      simp only [Outcome.ok_bind, if_neg h2, add, List.append_nil]

theorem breakIf_add (w : HtmlWriter) (style : Style) (h : w.state = .normal) :
    ∃ ws st, Blank ws ∧ (st = .normal ∨ st = .new_line) ∧
      breakIf style w = .ok (w.add ws st) := by
  unfold breakIf
  by_cases h1 : style.isBlockLike = true
  · rw [if_pos h1]
    refine ⟨[(.whitespace, ['\n'])], .new_line, Blank.newline, .inr rfl, ?_⟩
    simp [breakLine, h, write, add]
  · rw [if_neg h1]
    exact ⟨[], .normal, Blank.nil, .inl rfl, by simp [add, ← h]⟩

/-! ## Escaping -/

theorem findBracket_none {s : List Char} (h : findBracket s = none) : escape s = s := by
  induction s with
  | nil => rfl
  | cons c cs ih =>
    unfold findBracket at h
    split at h
    · cases h
    · next hc =>
      rw [not_or] at hc
      simp only [Option.map_eq_none_iff] at h
      have := ih h
      simp only [escape, List.flatMap_cons] at this ⊢
      rw [this]
      simp [escapeChar, hc.1, hc.2]

theorem findBracket_some {s : List Char} {n : Nat} (h : findBracket s = some n) :
    n < s.length ∧ escape (s.take n) = s.take n ∧ (s[n]? = some '<' ∨ s[n]? = some '>') := by
  induction s generalizing n with
  | nil => cases h
  | cons c cs ih =>
    unfold findBracket at h
    split at h
    · next hc =>
      cases h
      rcases hc with rfl | rfl <;> simp [escape]
    · next hc =>
      rw [not_or] at hc
      obtain ⟨m, h1, rfl⟩ := Option.map_eq_some_iff.mp h
      obtain ⟨h2, h3, h4⟩ := ih h1
      refine ⟨by simpa using h2, ?_, by simpa using h4⟩
      simp only [List.take_succ_cons, escape, List.flatMap_cons] at h3 ⊢
      rw [h3]
      simp [escapeChar, hc.1, hc.2]

/-- Tokens of inner text. -/
def Inner (ts : List (HtmlTok × List Char)) : Prop := ∀ t ∈ ts, t.1 = .inner_text

theorem take_split {s : List Char} {n : Nat} {c : Char} (h : s[n]? = some c) :
    s = s.take n ++ c :: s.drop (n + 1) := by
  obtain ⟨h1, h2⟩ := List.getElem?_eq_some_iff.mp h
  rw [← h2, ← List.drop_eq_getElem_cons h1, List.take_append_drop]

theorem escape_append (a b : List Char) : escape (a ++ b) = escape a ++ escape b := by
  simp [escape]

theorem escapeLoop_add (fuel : Nat) (w : HtmlWriter) (s : List Char) (h : s.length < fuel) :
    ∃ ts, Inner ts ∧ ts.flatMap Prod.snd = escape s ∧
      escapeLoop fuel w s = .ok (w.add ts w.state) := by
  induction fuel generalizing w s with
  | zero => omega
  | succ fuel ih =>
    unfold escapeLoop
    cases s with
    | nil => exact ⟨[], by simp [Inner], by simp [escape], by simp [add]⟩
    | cons c cs =>
      simp only [List.isEmpty_cons, Bool.false_eq_true, if_false]
      cases hb : findBracket (c :: cs) with
      | none =>
        refine ⟨[(.inner_text, c :: cs)], by simp [Inner], ?_, by simp [write, add]⟩
        rw [findBracket_none hb]; simp
      | some n =>
        obtain ⟨h1, h2, h3⟩ := findBracket_some hb
        have key : ∀ (d : Char) (e : List Char), (c :: cs)[n]? = some d → escapeChar d = e →
            ∃ ts, Inner ts ∧ ts.flatMap Prod.snd = escape (c :: cs) ∧
              escapeLoop fuel ((w.write ((c :: cs).take n) .inner_text).write e .inner_text)
                ((c :: cs).drop (n + 1)) = .ok (w.add ts w.state) := by
          intro d e hd he
          obtain ⟨ts, i1, i2, i3⟩ := ih
            ((w.write ((c :: cs).take n) .inner_text).write e .inner_text)
            ((c :: cs).drop (n + 1)) (by simp only [List.length_drop]; omega)
          refine ⟨(.inner_text, (c :: cs).take n) :: (.inner_text, e) :: ts, ?_, ?_, ?_⟩
          · intro t ht
            simp only [List.mem_cons] at ht
            rcases ht with rfl | rfl | ht
            · rfl
            · rfl
            · exact i1 t ht
          · have h4 := congrArg escape (take_split hd)
            rw [escape_append] at h4
            rw [h4, h2]
            simp only [List.flatMap_cons, i2]
            simp [escape, he]
          · rw [i3]
            simp [add, write, List.append_assoc]
        dsimp only
        rcases h3 with h3 | h3
        · rw [if_pos h3]
          exact key '<' _ h3 (by decide)
        · rw [if_neg (by rw [h3]; decide), if_pos h3]
          exact key '>' _ h3 (by decide)

theorem writeEscapedText_add (w : HtmlWriter) (s : List Char) (h : w.Ready) :
    ∃ ts, Inner ts ∧ ts.flatMap Prod.snd = escape s ∧
      w.writeEscapedText s = .ok (w.add ts .normal) := by
  obtain ⟨ts, h1, h2, h3⟩ := escapeLoop_add (s.length + 1) w s (by omega)
  refine ⟨ts, h1, h2, ?_⟩
  unfold writeEscapedText
  rw [show (decide (w.state = .new_line) || decide (w.state = .normal)) = true by
    rcases h with h | h <;> simp [h]]
  simp [h3, add]

theorem escape_plain (s : List Char) : ∀ c ∈ escape s, c ≠ '<' ∧ c ≠ '>' := by
  intro c hc
  obtain ⟨d, -, hd⟩ := List.mem_flatMap.mp hc
  unfold escapeChar at hd
  split at hd
  · clear hc; revert c; decide
  · split at hd
    · clear hc; revert c; decide
    · next h1 h2 =>
      rw [List.mem_singleton.mp hd]
      exact ⟨h1, h2⟩

theorem wrapped_plain {s n t} (h : Wrapped s n t) : ∀ c ∈ t, c ≠ '<' ∧ c ≠ '>' := by
  have blank : ∀ {gap : List Char}, (∀ c ∈ gap, c = ' ' ∨ c = '\n') →
      ∀ c ∈ gap, c ≠ '<' ∧ c ≠ '>' := by
    intro gap hg c hc
    rcases hg c hc with rfl | rfl <;> decide
  induction h with
  | nil => simp
  | last hg _ _ =>
    intro c hc
    rcases List.mem_append.mp hc with h | h
    · exact blank hg c h
    · exact escape_plain _ c h
  | line hg _ _ ih =>
    intro c hc
    simp only [List.append_assoc, List.mem_append, List.mem_cons] at hc
    rcases hc with h | h | rfl | h
    · exact blank hg c h
    · exact escape_plain _ c h
    · decide
    · exact ih c h

theorem findChar_some_split {c : Char} {s : List Char} {n : Nat} (h : findChar c s = some n) :
    s = s.take n ++ c :: s.drop (n + 1) ∧ c ∉ s.take n ∧ n < s.length := by
  induction s generalizing n with
  | nil => cases h
  | cons d ds ih =>
    unfold findChar at h
    split at h
    · next hd => cases h; simp [hd]
    · next hd =>
      obtain ⟨m, h1, rfl⟩ := Option.map_eq_some_iff.mp h
      obtain ⟨h2, h3, h4⟩ := ih h1
      refine ⟨?_, ?_, by simpa using h4⟩
      · simp only [List.take_succ_cons, List.drop_succ_cons, List.cons_append]
        rw [← h2]
      · simp only [List.take_succ_cons, List.mem_cons, not_or]
        exact ⟨fun e => hd e.symm, h3⟩

theorem findChar_none_mem {c : Char} {s : List Char} (h : findChar c s = none) : c ∉ s := by
  induction s with
  | nil => simp
  | cons d ds ih =>
    unfold findChar at h
    split at h
    · cases h
    · next hd =>
      simp only [Option.map_eq_none_iff] at h
      simp only [List.mem_cons, not_or]
      exact ⟨fun e => hd e.symm, ih h⟩

theorem _root_.Bms.Blank.text {ws} (h : Blank ws) : ∀ c ∈ ws.flatMap Prod.snd, c = ' ' ∨ c = '\n' := by
  intro c hc
  obtain ⟨t, ht, hc⟩ := List.mem_flatMap.mp hc
  exact (h t ht).2 c hc

/-- Tokens of text: inner text and white space. -/
def TextToks (ts : List (HtmlTok × List Char)) : Prop :=
  ∀ t ∈ ts, t.1 = .inner_text ∨ t.1 = .whitespace

theorem TextToks.append {a b} (ha : TextToks a) (hb : TextToks b) : TextToks (a ++ b) := by
  intro t ht
  rcases List.mem_append.mp ht with h | h
  · exact ha t h
  · exact hb t h

theorem Inner.toks {ts} (h : Inner ts) : TextToks ts := fun t ht => .inl (h t ht)

theorem _root_.Bms.Blank.toks {ts} (h : Blank ts) : TextToks ts := fun t ht => .inr (h t ht).1

theorem innerTextLoop_add (style : Style) (fuel : Nat) (w : HtmlWriter) (s : List Char)
    (count : Nat) (h : s.length < fuel) (hw : w.Ready) :
    ∃ ts st n, TextToks ts ∧ Wrapped s n (ts.flatMap Prod.snd) ∧
      (st = .normal ∨ st = .new_line) ∧
      innerTextLoop style fuel w s count = .ok (w.add ts st, count + n) := by
  induction fuel generalizing w s count with
  | zero => omega
  | succ fuel ih =>
    unfold innerTextLoop
    cases s with
    | nil => exact ⟨[], w.state, 0, by simp [TextToks], .nil, hw, by simp [add]⟩
    | cons c cs =>
      simp only [List.isEmpty_cons, Bool.false_eq_true, if_false]
      obtain ⟨ws, b1, b2⟩ := indent_add w style (by rcases hw with h | h <;> simp [h])
      rw [b2, Outcome.ok_bind]
      cases hn : findChar '\n' (c :: cs) with
      | none =>
        obtain ⟨ts, e1, e2, e3⟩ := writeEscapedText_add (w.add ws .normal) (c :: cs) (.inl rfl)
        refine ⟨ws ++ ts, .normal, 1, b1.toks.append e1.toks, ?_, .inl rfl, ?_⟩
        · rw [List.flatMap_append, e2]
          exact .last b1.text (by simp) (findChar_none_mem hn)
        · dsimp only
          rw [e3]
          simp [add]
      | some n =>
        obtain ⟨h1, h2, h3⟩ := findChar_some_split hn
        obtain ⟨ts, e1, e2, e3⟩ :=
          writeEscapedText_add (w.add ws .normal) ((c :: cs).take n) (.inl rfl)
        have hb : ((w.add ws .normal).add ts .normal).breakLine =
            .ok (w.add (ws ++ ts ++ [(.whitespace, ['\n'])]) .new_line) := by
          simp [breakLine, add, write]
        obtain ⟨ts', st, k, i1, i2, i3, i4⟩ :=
          ih (w.add (ws ++ ts ++ [(.whitespace, ['\n'])]) .new_line) ((c :: cs).drop (n + 1))
            (count + 1) (by simp only [List.length_drop]; omega) (.inr rfl)
        refine ⟨ws ++ ts ++ [(.whitespace, ['\n'])] ++ ts', st, k + 1,
          ((b1.toks.append e1.toks).append Blank.newline.toks).append i1, ?_, i3, ?_⟩
        · have := Wrapped.line b1.text h2 i2
          rw [← h1] at this
          simpa [List.flatMap_append, e2] using this
        · dsimp only
          rw [e3, Outcome.ok_bind, hb, Outcome.ok_bind, i4]
          simp [add, Nat.add_assoc, Nat.add_comm 1 k]

/-- What `write_inner_text` writes: in style `pre` the escaped text, otherwise the escaped lines
with indentation. -/
theorem writeInnerText_add (w : HtmlWriter) (s : List Char) (style : Style) (hw : w.Ready) :
    ∃ ts st n, TextToks ts ∧ (st = .normal ∨ st = .new_line) ∧
      w.writeInnerText s style = .ok (w.add ts st, n) ∧
      (if style = .pre then ts.flatMap Prod.snd = escape s ∧ n = 1
       else Wrapped s n (ts.flatMap Prod.snd)) := by
  unfold writeInnerText
  rw [show (decide (w.state = .normal) || decide (w.state = .new_line)) = true by
    rcases hw with h | h <;> simp [h]]
  rw [Outcome.assert_true, Outcome.ok_bind]
  by_cases hp : style = .pre
  · obtain ⟨ts, h1, h2, h3⟩ := writeEscapedText_add w s hw
    refine ⟨ts, .normal, 1, h1.toks, .inl rfl, ?_, ?_⟩
    · rw [if_pos hp, h3]; rfl
    · rw [if_pos hp]; exact ⟨h2, rfl⟩
  · obtain ⟨ts, st, n, h1, h2, h3, h4⟩ :=
      innerTextLoop_add style (s.length + 1) w s 0 (by omega) hw
    refine ⟨ts, st, n, h1, h3, ?_, ?_⟩
    · rw [if_neg hp, h4]; simp
    · rw [if_neg hp]; exact h2

/-! ## Tags -/

theorem assert_ok {b : Bool} {u : Unit} :
    (Outcome.assert b : Html Unit) = .ok u ↔ b = true := by
  cases b <;> simp [Outcome.assert]

theorem checkTag_ok {w : HtmlWriter} {tag : Tag} {u : Unit} :
    w.checkTag tag = .ok u ↔ w.Ready ∧ Name tag.id := by
  unfold checkTag
  constructor
  · intro h
    obtain ⟨_, h1, h2⟩ := Outcome.bind_eq_ok.mp h
    rw [assert_ok] at h1 h2
    exact ⟨by simpa [Ready] using h1, (html_identifier _).mp h2⟩
  · rintro ⟨h1, h2⟩
    rw [(html_identifier _).mpr h2,
      show (decide (w.state = .normal) || decide (w.state = .new_line)) = true by
        rcases h1 with h | h <;> simp [h]]
    rfl

theorem Ready.ne {w : HtmlWriter} (h : w.Ready) : w.state ≠ .attributes := by
  rcases h with h | h <;> simp [h]

@[simp] theorem text_add (w : HtmlWriter) (ts st) :
    (w.add ts st).text = w.text ++ ts.flatMap Prod.snd := by
  simp [text, add]

/-- Blanks. -/
abbrev Blanks (s : List Char) : Prop := ∀ c ∈ s, c = ' ' ∨ c = '\n'

theorem Blanks.content {s : List Char} (h : Blanks s) : Content s :=
  content_chars fun c hc => by rcases h c hc with rfl | rfl <;> decide

/-- Writing three tokens between blanks. -/
theorem tag_add {w : HtmlWriter} (hw : w.state ≠ .attributes) (style : Style)
    (a b c : HtmlTok × List Char) :
    ∃ ts st x y, (st = .normal ∨ st = .new_line) ∧ Blanks x ∧ Blanks y ∧
      ts.flatMap Prod.snd = x ++ (a.2 ++ b.2 ++ c.2) ++ y ∧
      (w.indent style >>= fun w =>
        breakIf style (((w.write a.2 a.1).write b.2 b.1).write c.2 c.1)) = .ok (w.add ts st) := by
  obtain ⟨ws, b1, b2⟩ := indent_add w style hw
  obtain ⟨ws', st, c1, c2, c3⟩ := breakIf_add
    ((((w.add ws .normal).write a.2 a.1).write b.2 b.1).write c.2 c.1) style rfl
  refine ⟨ws ++ [a, b, c] ++ ws', st, ws.flatMap Prod.snd, ws'.flatMap Prod.snd, c2, b1.text,
    c1.text, by simp, ?_⟩
  rw [b2, Outcome.ok_bind, c3]
  simp [add, write]

theorem writeEmptyTag_ok {w w' : HtmlWriter} {tag : Tag} (h : w.writeEmptyTag tag = .ok w') :
    ∃ ts st x y, w.Ready ∧ Name tag.id ∧ (st = .normal ∨ st = .new_line) ∧ Blanks x ∧ Blanks y ∧
      ts.flatMap Prod.snd = x ++ ('<' :: (tag.id ++ ['/', '>'])) ++ y ∧ w' = w.add ts st := by
  unfold writeEmptyTag at h
  obtain ⟨_, h1, h2⟩ := Outcome.bind_eq_ok.mp h
  obtain ⟨h3, h4⟩ := checkTag_ok.mp h1
  obtain ⟨ts, st, x, y, hs, hx, hy, ht, he⟩ := tag_add h3.ne tag.style
    (.tag_bracket, ['<']) (.tag_identifier, tag.id) (.tag_bracket, "/>".toList)
  rw [he] at h2
  cases h2
  exact ⟨ts, st, x, y, h3, h4, hs, hx, hy, by rw [ht]; simp, rfl⟩

theorem beginTag_ok {w w' : HtmlWriter} {tag : Tag} (h : w.beginTag tag = .ok w') :
    ∃ ts st x y, w.Ready ∧ Name tag.id ∧ (st = .normal ∨ st = .new_line) ∧ Blanks x ∧ Blanks y ∧
      ts.flatMap Prod.snd = x ++ ('<' :: (tag.id ++ ['>'])) ++ y ∧
      w' = { deeper tag.style (w.add ts st) with depth := w.depth + 1 } := by
  unfold beginTag at h
  obtain ⟨_, h1, h2⟩ := Outcome.bind_eq_ok.mp h
  obtain ⟨h3, h4⟩ := checkTag_ok.mp h1
  obtain ⟨ts, st, x, y, hs, hx, hy, ht, he⟩ := tag_add h3.ne tag.style
    (.tag_bracket, ['<']) (.tag_identifier, tag.id) (.tag_bracket, ['>'])
  obtain ⟨w1, h5, h2⟩ := Outcome.bind_eq_ok.mp h2
  rw [h5, Outcome.ok_bind] at he
  rw [he, Outcome.ok_bind] at h2
  cases h2
  refine ⟨ts, st, x, y, h3, h4, hs, hx, hy, by rw [ht]; simp, ?_⟩
  unfold deeper
  split <;> rfl

theorem endTag_ok {w w' : HtmlWriter} {tag : Tag} (h : w.endTag tag = .ok w') :
    ∃ ts st x y, w.Ready ∧ Name tag.id ∧ w.depth ≠ 0 ∧ (st = .normal ∨ st = .new_line) ∧
      Blanks x ∧ Blanks y ∧
      ts.flatMap Prod.snd = x ++ (['<', '/'] ++ tag.id ++ ['>']) ++ y ∧
      w' = { shallower tag.style (w.add ts st) with depth := w.depth - 1 } := by
  unfold endTag at h
  obtain ⟨_, h1, h2⟩ := Outcome.bind_eq_ok.mp h
  obtain ⟨h3, h4⟩ := checkTag_ok.mp h1
  obtain ⟨_, hd, h2⟩ := Outcome.bind_eq_ok.mp h2
  rw [assert_ok] at hd
  have hd : w.depth ≠ 0 := by simpa using hd
  have hst : (shallower tag.style w).state = w.state := by unfold shallower; split <;> rfl
  obtain ⟨ts, st, x, y, hs, hx, hy, ht, he⟩ := tag_add (w := shallower tag.style w)
    (by rw [hst]; exact h3.ne) tag.style
    (.tag_bracket, "</".toList) (.tag_identifier, tag.id) (.tag_bracket, ['>'])
  obtain ⟨w1, h5, h2⟩ := Outcome.bind_eq_ok.mp h2
  rw [h5, Outcome.ok_bind] at he
  rw [he, Outcome.ok_bind] at h2
  cases h2
  refine ⟨ts, st, x, y, h3, h4, hd, hs, hx, hy, by rw [ht]; simp, ?_⟩
  unfold shallower
  split <;> rfl

theorem writeCommentTag_ok {w w' : HtmlWriter} {s : List Char} {style : Style}
    (h : w.writeCommentTag s style = .ok w') :
    ∃ ts st x y, w.state ≠ .attributes ∧ ¬ ['-', '-', '>'] <:+: s ∧
      (st = .normal ∨ st = .new_line) ∧ Blanks x ∧ Blanks y ∧
      ts.flatMap Prod.snd = x ++ (['<', '!', '-', '-'] ++ s ++ ['-', '-', '>']) ++ y ∧
      w' = w.add ts st := by
  unfold writeCommentTag at h
  obtain ⟨_, h1, h2⟩ := Outcome.bind_eq_ok.mp h
  obtain ⟨_, h3, h2⟩ := Outcome.bind_eq_ok.mp h2
  rw [assert_ok] at h1 h3
  have h1 : w.state ≠ .attributes := by simpa using h1
  have h3 : ¬ ['-', '-', '>'] <:+: s := by
    refine (findSub_none (by simp)).mp ?_
    simpa using h3
  obtain ⟨ts, st, x, y, hs, hx, hy, ht, he⟩ := tag_add h1 style
    (.tag_bracket, "<!--".toList) (.comment, s) (.tag_bracket, "-->".toList)
  rw [he] at h2
  cases h2
  exact ⟨ts, st, x, y, h1, h3, hs, hx, hy, by rw [ht]; simp, rfl⟩

/-! ## Attributes -/

theorem beginTagWithAttributes_ok {w w' : HtmlWriter} {tag : Tag}
    (h : w.beginTagWithAttributes tag = .ok w') :
    ∃ ts x, w.Ready ∧ Name tag.id ∧ Blanks x ∧
      ts.flatMap Prod.snd = x ++ ('<' :: tag.id) ∧ w' = w.add ts .attributes := by
  unfold beginTagWithAttributes at h
  obtain ⟨_, h1, h2⟩ := Outcome.bind_eq_ok.mp h
  obtain ⟨h3, h4⟩ := checkTag_ok.mp h1
  obtain ⟨ws, b1, b2⟩ := indent_add w tag.style h3.ne
  rw [b2, Outcome.ok_bind] at h2
  cases h2
  refine ⟨ws ++ [(.tag_bracket, ['<']), (.tag_bracket, tag.id)], ws.flatMap Prod.snd, h3, h4,
    b1.text, by simp, ?_⟩
  simp [add, write]

/-- The text of one attribute. -/
def attrText (key value : List Char) : List Char :=
  ' ' :: (key ++ if value.isEmpty then []
    else '=' :: if requiresQuotes value then '"' :: (value ++ ['"']) else value)

theorem writeAttribute_ok {w w' : HtmlWriter} {k v : List Char}
    (h : w.writeAttribute k v = .ok w') :
    ∃ ts, w.state = .attributes ∧ Name k ∧ ts.flatMap Prod.snd = attrText k v ∧
      w' = w.add ts .attributes := by
  unfold writeAttribute at h
  obtain ⟨_, h1, h2⟩ := Outcome.bind_eq_ok.mp h
  obtain ⟨_, h3, h2⟩ := Outcome.bind_eq_ok.mp h2
  rw [assert_ok] at h1 h3
  have h1 : w.state = .attributes := by simpa using h1
  have h3 := (html_identifier _).mp h3
  unfold attrText
  cases v with
  | nil =>
    cases h2
    exact ⟨[(.whitespace, [' ']), (.attribute_key, k)], h1, h3, by simp, by simp [add, write, h1]⟩
  | cons c cs =>
    simp only [List.isEmpty_cons, Bool.false_eq_true, if_false] at h2 ⊢
    split at h2
    · next hq =>
      cases h2
      rw [if_pos hq]
      exact ⟨[(.whitespace, [' ']), (.attribute_key, k), (.attribute_equal, ['=']),
        (.attribute_quote, ['"']), (.attribute_value, c :: cs), (.attribute_quote, ['"'])], h1, h3,
        by simp, by simp [add, write, h1]⟩
    · next hq =>
      cases h2
      rw [if_neg hq]
      exact ⟨[(.whitespace, [' ']), (.attribute_key, k), (.attribute_equal, ['=']),
        (.attribute_value, c :: cs)], h1, h3, by simp, by simp [add, write, h1]⟩

theorem writeAttributes_ok {w w' : HtmlWriter} {as : List (List Char × List Char)}
    (h : w.writeAttributes as = .ok w') (hw : w.state = .attributes) :
    ∃ ts, (∀ a ∈ as, Name a.1) ∧
      ts.flatMap Prod.snd = as.flatMap (fun a => attrText a.1 a.2) ∧ w' = w.add ts .attributes := by
  induction as generalizing w with
  | nil =>
    cases h
    exact ⟨[], by simp, by simp, by simp [add, ← hw]⟩
  | cons a as ih =>
    obtain ⟨k, v⟩ := a
    obtain ⟨w1, h1, h2⟩ := Outcome.bind_eq_ok.mp h
    obtain ⟨ts, h3, h4, h5, rfl⟩ := writeAttribute_ok h1
    obtain ⟨ts', h6, h7, rfl⟩ := ih h2 rfl
    refine ⟨ts ++ ts', ?_, by simp [h5, h7], by simp [add]⟩
    intro a ha
    rcases List.mem_cons.mp ha with rfl | ha
    · exact h4
    · exact h6 a ha

/-- A value that can be given without problems: no double quote, no white space other than the
space. -/
def PlainValue (v : List Char) : Prop :=
  ∀ c ∈ v, c ≠ '"' ∧ c ≠ '\n' ∧ c ≠ '\t' ∧ c ≠ '\r' ∧ c ≠ Char.ofNat 12

theorem attrText_spec {as : List (List Char × List Char)} (hn : ∀ a ∈ as, Name a.1)
    (hv : ∀ a ∈ as, PlainValue a.2) :
    AttrText as (as.flatMap fun a => attrText a.1 a.2) := by
  induction as with
  | nil => exact .nil
  | cons a as ih =>
    obtain ⟨k, v⟩ := a
    have ih := ih (fun a ha => hn a (by simp [ha])) (fun a ha => hv a (by simp [ha]))
    have h1 := hn _ List.mem_cons_self
    have h2 := hv _ List.mem_cons_self
    dsimp only at h1 h2
    rw [List.flatMap_cons]
    generalize as.flatMap (fun a => attrText a.1 a.2) = t at ih ⊢
    unfold attrText
    cases v with
    | nil => simpa using AttrText.bare h1 ih
    | cons c cs =>
      simp only [List.isEmpty_cons, Bool.false_eq_true, if_false]
      split
      · simpa using AttrText.quoted h1 (fun hm => (h2 _ hm).1 rfl) ih
      · next hq =>
        have := AttrText.unquoted h1 (v := c :: cs) (by simp) (fun d hd => by
          have h3 := h2 d hd
          unfold requiresQuotes at hq
          rw [Bool.not_eq_true, List.any_eq_false] at hq
          have h4 := hq d hd
          simp at h4
          obtain ⟨a1, a2, a3, a4, a5⟩ := h3
          obtain ⟨b1, b2, b3, b4, b5, b6, b7, b8⟩ := h4
          refine ⟨?_, b1, b3, b4, b5, b6, b7, b2⟩
          rintro (h | h | h | h | h) <;> contradiction) ih
        simpa using this

theorem endAttributes_ok {w w' : HtmlWriter} {style : Style} (h : w.endAttributes style = .ok w') :
    w.state = .attributes ∧ style.isBlockLike = false ∧
      w' = { w.add [(.tag_bracket, ['>'])] .normal with depth := w.depth + 1 } := by
  unfold endAttributes at h
  obtain ⟨_, h1, h2⟩ := Outcome.bind_eq_ok.mp h
  rw [assert_ok] at h1
  have h1 : w.state = .attributes := by simpa using h1
  refine ⟨h1, ?_⟩
  dsimp only at h2
  split at h2
  · next hb =>
    exfalso
    obtain ⟨w2, h4, -⟩ := Outcome.bind_eq_ok.mp h2
    unfold breakLine at h4
    obtain ⟨_, h5, -⟩ := Outcome.bind_eq_ok.mp h4
    rw [assert_ok] at h5
    simp [write, h1] at h5
  · next hb =>
    cases h2
    exact ⟨by simpa using hb, by simp [add, write]⟩

theorem endEmptyTagAttributes_ok {w w' : HtmlWriter} {style : Style}
    (h : w.endEmptyTagAttributes style = .ok w') :
    ∃ ts st y, w.state = .attributes ∧ (st = .normal ∨ st = .new_line) ∧ Blanks y ∧
      ts.flatMap Prod.snd = ['/', '>'] ++ y ∧ w' = w.add ts st := by
  unfold endEmptyTagAttributes at h
  obtain ⟨_, h1, h2⟩ := Outcome.bind_eq_ok.mp h
  rw [assert_ok] at h1
  have h1 : w.state = .attributes := by simpa using h1
  obtain ⟨ws, st, c1, c2, c3⟩ := breakIf_add
    { w.write "/>".toList .tag_bracket with state := .normal } style rfl
  rw [c3] at h2
  cases h2
  exact ⟨[(.tag_bracket, "/>".toList)] ++ ws, st, ws.flatMap Prod.snd, h1, c2, c1.text, by simp,
    by simp [add, write]⟩

theorem startAttrs_ok {w w' : HtmlWriter} {tag : Tag} {as : List (List Char × List Char)}
    (h : w.exec (.startAttrs tag as) = .ok w') :
    ∃ ts x, w.Ready ∧ Name tag.id ∧ (∀ a ∈ as, Name a.1) ∧ tag.style.isBlockLike = false ∧
      Blanks x ∧
      ts.flatMap Prod.snd =
        x ++ ('<' :: (tag.id ++ as.flatMap (fun a => attrText a.1 a.2) ++ ['>'])) ∧
      w' = { w.add ts .normal with depth := w.depth + 1 } := by
  obtain ⟨w1, h1, h⟩ := Outcome.bind_eq_ok.mp h
  obtain ⟨w2, h2, h⟩ := Outcome.bind_eq_ok.mp h
  obtain ⟨w3, h3, h⟩ := Outcome.bind_eq_ok.mp h
  obtain ⟨ts, x, r, n, bx, ht, rfl⟩ := beginTagWithAttributes_ok h1
  obtain ⟨ts', hn, ht', rfl⟩ := writeAttributes_ok h2 rfl
  obtain ⟨-, hb, rfl⟩ := endAttributes_ok h3
  obtain ⟨_, -, h⟩ := Outcome.bind_eq_ok.mp h
  cases h
  refine ⟨ts ++ ts' ++ [(.tag_bracket, ['>'])], x, r, n, hn, hb, bx, ?_, by simp [add]⟩
  simp [ht, ht']

theorem emptyAttrs_ok {w w' : HtmlWriter} {tag : Tag} {as : List (List Char × List Char)}
    (h : w.exec (.emptyAttrs tag as) = .ok w') :
    ∃ ts st x y, w.Ready ∧ Name tag.id ∧ (∀ a ∈ as, Name a.1) ∧
      (st = .normal ∨ st = .new_line) ∧ Blanks x ∧ Blanks y ∧
      ts.flatMap Prod.snd =
        x ++ ('<' :: (tag.id ++ as.flatMap (fun a => attrText a.1 a.2) ++ ['/', '>'])) ++ y ∧
      w' = w.add ts st := by
  obtain ⟨w1, h1, h⟩ := Outcome.bind_eq_ok.mp h
  obtain ⟨w2, h2, h⟩ := Outcome.bind_eq_ok.mp h
  obtain ⟨w3, h3, h⟩ := Outcome.bind_eq_ok.mp h
  obtain ⟨ts, x, r, n, bx, ht, rfl⟩ := beginTagWithAttributes_ok h1
  obtain ⟨ts', hn, ht', rfl⟩ := writeAttributes_ok h2 rfl
  obtain ⟨ts'', st, y, -, hs, by', ht'', rfl⟩ := endEmptyTagAttributes_ok h3
  obtain ⟨_, -, h⟩ := Outcome.bind_eq_ok.mp h
  cases h
  refine ⟨ts ++ ts' ++ ts'', st, x, y, r, n, hn, hs, bx, by', ?_, by simp [add]⟩
  simp [ht, ht', ht'']

theorem writeWhitespace_ok {w w' : HtmlWriter} {c : Char} {n : Nat}
    (h : w.writeWhitespace c n = .ok w') :
    w.Ready ∧ isSpace c = true ∧ w' = w.add [(.whitespace, List.replicate n c)] .normal := by
  unfold writeWhitespace at h
  obtain ⟨_, h1, h2⟩ := Outcome.bind_eq_ok.mp h
  obtain ⟨_, h3, h2⟩ := Outcome.bind_eq_ok.mp h2
  rw [assert_ok] at h1 h3
  cases h2
  refine ⟨?_, h3, by simp [add, write, writeN]⟩
  unfold Ready
  revert h1
  cases w.state <;> simp

theorem writePreamble_ok {w w' : HtmlWriter} (h : w.writePreamble = .ok w') :
    w.state = .initial ∧ w' = w.add [(.tag_bracket, "<!".toList), (.preamble, "DOCTYPE html".toList),
      (.tag_bracket, ['>']), (.whitespace, ['\n'])] .new_line := by
  unfold writePreamble at h
  obtain ⟨_, h1, h2⟩ := Outcome.bind_eq_ok.mp h
  rw [assert_ok] at h1
  have h1 : w.state = .initial := by simpa using h1
  refine ⟨h1, ?_⟩
  simp [breakLine, write, h1] at h2
  rw [← h2]
  simp [add]

theorem writeInnerText_ok {w w' : HtmlWriter} {s : List Char} {style : Style} {n : Nat}
    (h : w.writeInnerText s style = .ok (w', n)) :
    ∃ ts st, w.Ready ∧ TextToks ts ∧ (st = .normal ∨ st = .new_line) ∧ w' = w.add ts st ∧
      (if style = .pre then ts.flatMap Prod.snd = escape s ∧ n = 1
       else Wrapped s n (ts.flatMap Prod.snd)) := by
  have hw : w.Ready := by
    unfold writeInnerText at h
    obtain ⟨_, h1, -⟩ := Outcome.bind_eq_ok.mp h
    rw [assert_ok] at h1
    simpa [Ready] using h1
  obtain ⟨ts, st, m, h1, h2, h3, h4⟩ := writeInnerText_add w s style hw
  rw [h] at h3
  cases h3
  exact ⟨ts, st, hw, h1, h2, rfl, h4⟩

theorem exec_text_ok {w w' : HtmlWriter} {s : List Char} {style : Style}
    (h : w.exec (.text s style) = .ok w') : ∃ n, w.writeInnerText s style = .ok (w', n) := by
  have h : (w.writeInnerText s style).map Prod.fst = .ok w' := h
  cases hr : w.writeInnerText s style with
  | ok r => rw [hr] at h; cases h; exact ⟨r.2, rfl⟩
  | _ => rw [hr] at h; cases h

end HtmlWriter

end Bms
