import Verif.Lemmas.DocHtml

/-!
# Conversion of documents: code
-/

namespace Bms.Bmd

open Spec HtmlWriter

/-! ## Positions of tokens -/

/-- `q` is behind `n` characters from `p` on. -/
def Behind (p : Position) (n : Nat) (q : Position) : Prop :=
  p.line < q.line ∨ (p.line = q.line ∧ p.column + n ≤ q.column)

theorem advance_behind {p : Position} {c : Char} (h : c ≠ '\r') : Behind p 1 (p.advance c) := by
  unfold Position.advance Behind
  by_cases h1 : c = '\t'
  · simp [h1]
  rw [if_neg h1, if_neg h]
  by_cases h2 : c = '\n'
  · simp [h2]
  · simp [h2]

theorem Behind.trans {p q r : Position} {n m : Nat} (h : Behind p n q) (h' : Behind q m r) :
    Behind p (n + m) r := by
  unfold Behind at *
  omega

theorem foldl_behind {s : List Char} (h : '\r' ∉ s) (p : Position) :
    Behind p s.length (s.foldl Position.advance p) := by
  induction s generalizing p with
  | nil => exact .inr ⟨rfl, by simp⟩
  | cons c s ih =>
    simp only [List.mem_cons, not_or] at h
    have := (advance_behind (p := p) (Ne.symm h.1)).trans (ih h.2 (p.advance c))
    simpa [Nat.add_comm] using this

theorem foldl_column {s : List Char} {p : Position} (h : p.column ≤ 4 * p.start) :
    (s.foldl Position.advance p).column ≤ 4 * (s.foldl Position.advance p).start := by
  induction s generalizing p with
  | nil => exact h
  | cons c s ih =>
    refine ih ?_
    unfold Position.advance
    split
    · simp only; omega
    split
    · simp only; omega
    split
    · simp only; omega
    · simp only; omega

/-- Each token is behind the one before. -/
def InOrder : List Token → Prop
  | a :: b :: ts => Behind a.pos a.length b.pos ∧ InOrder (b :: ts)
  | _ => True

theorem not_mem_of_drop {c : Char} {s : List Char} {n : Nat} (h : c ∉ s) : c ∉ s.drop n :=
  fun hc => h (List.mem_of_mem_drop hc)

theorem positionAfter_behind {src : List Char} {p q : Position} {n : Nat} {ty : TokenType}
    (hr : '\r' ∉ src) (hn : n ≤ (src.drop p.start).length ∨ ty ≠ .block_comment)
    (hc : p.column ≤ 4 * p.start)
    (h : positionAfter src p n ty = .ok q) : Behind p n q ∧ q.column ≤ 4 * q.start := by
  rcases positionAfter_cases src p n ty with ⟨_, h'⟩ | ⟨he, hlt, h'⟩ | ⟨_, _, h'⟩
  · rw [h] at h'; cases h'
    refine ⟨.inr ⟨rfl, Nat.le_refl _⟩, ?_⟩
    simp only [Position.toRight]; omega
  · rw [h] at h'; cases h'
    refine ⟨?_, foldl_column hc⟩
    have h1 := foldl_behind (s := (src.drop p.start).take n)
      (fun hm => not_mem_of_drop hr (List.mem_of_mem_take hm)) p
    rw [List.length_take, Nat.min_eq_left (by rw [List.length_drop]; omega)] at h1
    exact h1
  · rw [h] at h'; cases h'

theorem steps_inOrder {src : List Char} {p q : Position} {ts : List Token} (hr : '\r' ∉ src)
    (h : Steps src p ts q) (hc : p.column ≤ 4 * p.start) :
    InOrder ts ∧ (∀ t, ts.head? = some t → Behind p 0 t.pos) ∧
      ∀ t ∈ ts, t.pos.column ≤ 4 * t.pos.start ∧ t.pos.start < src.length ∧ 0 < t.length := by
  induction h with
  | nil => simp [InOrder]
  | @cons p t next ts q _ h1 h2 h3 ih =>
    obtain ⟨hlt, gap, c, cs, hq, hm⟩ := nextToken_some h1
    have hg : '\r' ∉ gap := by
      intro hm
      apply not_mem_of_drop (n := p.start) hr
      rw [hq.split]; simp [hm]
    have b1 := foldl_behind hg p
    rw [← hq.pos] at b1
    have b2 : t.pos.column ≤ 4 * t.pos.start := by rw [hq.pos]; exact foldl_column hc
    obtain ⟨b3, b4⟩ := positionAfter_behind hr (by
      by_cases he : t.type = .block_comment
      · left
        rw [hq.rest]
        exact ((tryMatch_ok hm).2.1 (by rw [he]; decide)).1
      · exact .inr he) b2 h2
    obtain ⟨i1, i2, i3⟩ := ih b4
    have hs : t.pos.start < src.length := by
      have := congrArg List.length hq.rest
      simp at this; omega
    refine ⟨?_, ?_, ?_⟩
    · cases ts with
      | nil => exact trivial
      | cons b ts => exact ⟨b3.trans (i2 b rfl), i1⟩
    · intro t' ht'
      cases ht'
      have := b1
      unfold Behind at this ⊢; omega
    · intro t' ht'
      rcases List.mem_cons.mp ht' with rfl | ht'
      · exact ⟨b2, hs, (tryMatch_ok hm).1⟩
      · exact i3 t' ht'

theorem tokenize_inOrder {src : List Char} {ts : List Token} (hr : '\r' ∉ src)
    (h : tokenize src = some (ts, .ok ())) : InOrder ts ∧
      ∀ t ∈ ts, t.pos.column ≤ 4 * src.length ∧ 0 < t.length := by
  obtain ⟨us, last, q, h1, h2, h3⟩ := loop_run h
  have hl : last = [] := by cases h2 <;> rfl
  rw [hl] at h3
  simp only [List.nil_append, List.append_nil] at h3
  rw [h3]
  obtain ⟨a, -, b⟩ := steps_inOrder hr h1 (by simp)
  refine ⟨a, fun t ht => ?_⟩
  have := b t ht
  omega

/-! ## Tags of tokens -/

/-- The texts that have a tag of their own. -/
def tagged : List (List Char) := ["as", "let", "const", "function", "while", "if", "else", "requires",
  "return", "break", "continue", "static_assert", "true", "false", "Uint", "Int", "Bool", "Void",
  "(", ")", "{", "}", "@", ".", ":", ",", ";", "->", "=>"].map String.toList

theorem tagged_keywords : ∀ x ∈ ["as", "let", "const", "function", "while", "if", "else", "requires",
    "return", "break", "continue", "static_assert"].map String.toList, x ∈ tagged := by decide

theorem tagged_bools : ∀ x ∈ ["true".toList, "false".toList], x ∈ tagged := by decide

theorem tagged_types : ∀ x ∈ ["Uint", "Int", "Bool", "Void"].map String.toList, x ∈ tagged := by decide

theorem tagged_brackets : ∀ x ∈ ["(", ")", "{", "}"].map String.toList, x ∈ tagged := by decide

theorem tagged_marks : ∀ x ∈ ["@", ".", ":", ",", ";", "->"].map String.toList, x ∈ tagged := by decide

theorem codeTag_head {c : Char} {cs : List Char} (h : c :: cs ∉ tagged) :
    (c = '"' → codeTag (c :: cs) = "c-str".toList) ∧
    (c = '/' → cs.head? = some '/' ∨ cs.head? = some '*' → codeTag (c :: cs) = "c-com".toList) ∧
    (('0' ≤ c ∧ c ≤ '9') → codeTag (c :: cs) = "c-int".toList) ∧
    (('a' ≤ c ∧ c ≤ 'z') ∨ ('A' ≤ c ∧ c ≤ 'Z') ∨ c = '_' → codeTag (c :: cs) = "c-idn".toList) ∧
    (c = '!' ∨ c = '&' → codeTag (c :: cs) = "c-opr".toList) := by
  have e : codeTag (c :: cs) =
      match c :: cs with
      | '"' :: _ => "c-str".toList
      | '/' :: '/' :: _ => "c-com".toList
      | '/' :: '*' :: _ => "c-com".toList
      | c :: _ =>
        if '0' ≤ c ∧ c ≤ '9' then "c-int".toList
        else if ('a' ≤ c ∧ c ≤ 'z') ∨ ('A' ≤ c ∧ c ≤ 'Z') ∨ c = '_' then "c-idn".toList
        else "c-opr".toList
      | [] => [] := by
    unfold codeTag
    rw [if_neg (fun hm => h (tagged_keywords _ hm)),
      if_neg (fun hm => h (tagged_bools _ (by simpa using hm))),
      if_neg (fun hm => h (tagged_types _ hm)), if_neg (fun hm => h (tagged_brackets _ hm)),
      if_neg (fun hm => h (tagged_marks _ hm)), if_neg (fun hm => h (by rw [hm]; decide))]
    rfl
  rw [e]
  refine ⟨?_, ?_, ?_, ?_, ?_⟩
  · rintro rfl; rfl
  · rintro rfl hc
    cases cs with
    | nil => simp at hc
    | cons d cs =>
      rcases hc with hc | hc <;> (cases hc; rfl)
  · intro hc
    split
    · rename_i heq; cases heq; exact absurd hc (by decide)
    · rename_i heq; cases heq; exact absurd hc (by decide)
    · rename_i heq; cases heq; exact absurd hc (by decide)
    · rename_i heq; cases heq; rw [if_pos hc]
    · rename_i heq; cases heq
  · intro hc
    split
    · rename_i heq; cases heq; exact absurd hc (by decide)
    · rename_i heq; cases heq; exact absurd hc (by decide)
    · rename_i heq; cases heq; exact absurd hc (by decide)
    · rename_i heq; cases heq
      rw [if_neg, if_pos hc]
      rintro ⟨h1, h2⟩
      rcases hc with ⟨a, -⟩ | ⟨a, -⟩ | rfl
      · exact absurd (Char.le_trans a h2) (by decide)
      · exact absurd (Char.le_trans a h2) (by decide)
      · exact absurd h2 (by decide)
    · rename_i heq; cases heq
  · rintro (rfl | rfl) <;> rfl

theorem tagged_head : ∀ x ∈ tagged, x.head?.all (fun c => decide (¬ ('0' ≤ c ∧ c ≤ '9') ∧ c ≠ '"' ∧
    c ≠ '/' ∧ c ≠ '!' ∧ c ≠ '&')) = true := by decide

theorem not_tagged {c : Char} {cs : List Char} (h : ('0' ≤ c ∧ c ≤ '9') ∨ c = '"' ∨ c = '/' ∨ c = '!' ∨
    c = '&') : c :: cs ∉ tagged := by
  intro hm
  have := tagged_head _ hm
  simp only [List.head?_cons, Option.all_some, decide_eq_true_eq] at this
  obtain ⟨h1, h2, h3, h4, h5⟩ := this
  rcases h with h | h | h | h | h
  · exact h1 h
  · exact h2 h
  · exact h3 h
  · exact h4 h
  · exact h5 h

theorem literal_digit {k : LiteralType} {s : List Char} {v : Nat} (h : Literal k s v) :
    ∃ c cs, s = c :: cs ∧ '0' ≤ c ∧ c ≤ '9' := by
  cases h with
  | binary => exact ⟨_, _, rfl, by decide, by decide⟩
  | hexadecimal => exact ⟨_, _, rfl, by decide, by decide⟩
  | octal => exact ⟨_, _, rfl, by decide, by decide⟩
  | zero => exact ⟨_, _, rfl, by decide, by decide⟩
  | @decimal c t v _ h =>
    obtain ⟨ds, h1, h2, -⟩ := h
    refine ⟨c, t, rfl, ?_⟩
    cases ds with
    | nil => simp at h1
    | cons d ds =>
      simp only [List.map_cons, List.cons.injEq] at h1
      have h3 := h2 d (by simp)
      have h4 := h1.1
      unfold digitOf at h4
      by_cases h5 : InRange '0' c '9'
      · exact ⟨h5.1, h5.2⟩
      · rw [if_neg h5] at h4
        by_cases h6 : InRange 'a' c 'f'
        · rw [if_pos h6, Option.some.injEq] at h4; omega
        · rw [if_neg h6] at h4
          by_cases h7 : InRange 'A' c 'F'
          · rw [if_pos h7, Option.some.injEq] at h4; omega
          · rw [if_neg h7] at h4; cases h4

theorem spelled_tag {ty : TokenType} {sp : String} (h : spelling ty = some sp) :
    codeTag sp.toList = spanTag ty := by
  cases ty <;> simp [spelling] at h <;> subst h <;> decide

theorem lexeme_tag {ty : TokenType} {s : List Char} (h : Lexeme ty s) : codeTag s = spanTag ty := by
  have lit : ∀ {k v}, Literal k s v → codeTag s = "c-int".toList := by
    intro k v h
    obtain ⟨c, cs, rfl, h1⟩ := literal_digit h
    exact (codeTag_head (not_tagged (.inl h1))).2.2.1 h1
  cases h with
  | fixed h => exact spelled_tag h
  | identifier h1 h2 =>
    have hn : s ∉ tagged := by
      intro hm
      simp only [tagged, List.map_cons, List.map_nil, List.mem_cons, List.not_mem_nil, or_false] at hm
      rcases hm with h | h | h | h | h | h | h | h | h | h | h | h | h | h | h | h | h | h | h | h | h |
        h | h | h | h | h | h | h | h
      · exact h2 .keyword_as _ rfl h.symm
      · exact h2 .keyword_let _ rfl h.symm
      · exact h2 .keyword_const _ rfl h.symm
      · exact h2 .keyword_function _ rfl h.symm
      · exact h2 .keyword_while _ rfl h.symm
      · exact h2 .keyword_if _ rfl h.symm
      · exact h2 .keyword_else _ rfl h.symm
      · exact h2 .keyword_requires _ rfl h.symm
      · exact h2 .keyword_return _ rfl h.symm
      · exact h2 .keyword_break _ rfl h.symm
      · exact h2 .keyword_continue _ rfl h.symm
      · exact h2 .keyword_static_assert _ rfl h.symm
      · exact h2 .keyword_true _ rfl h.symm
      · exact h2 .keyword_false _ rfl h.symm
      · exact h2 .keyword_uint _ rfl h.symm
      · exact h2 .keyword_int _ rfl h.symm
      · exact h2 .keyword_bool _ rfl h.symm
      · exact h2 .keyword_void _ rfl h.symm
      · exact h2 .left_parenthesis _ rfl h.symm
      · exact h2 .right_parenthesis _ rfl h.symm
      · exact h2 .left_brace _ rfl h.symm
      · exact h2 .right_brace _ rfl h.symm
      · exact h2 .at_sign _ rfl h.symm
      · exact h2 .dot _ rfl h.symm
      · exact h2 .colon _ rfl h.symm
      · exact h2 .comma _ rfl h.symm
      · exact h2 .semicolon _ rfl h.symm
      · exact h2 .right_arrow _ rfl h.symm
      · exact h2 .double_right_arrow _ rfl h.symm
    cases s with
    | nil => exact absurd h1 (by simp [Ident])
    | cons c cs =>
      refine (codeTag_head hn).2.2.2.1 ?_
      rcases h1.1 with h | h | h
      · exact .inr (.inr h)
      · exact .inl h
      · exact .inr (.inl h)
  | binary h => exact lit h
  | octal h => exact lit h
  | decimal h => exact lit h
  | hexadecimal h => exact lit h
  | string _ => exact (codeTag_head (not_tagged (by simp))).1 rfl
  | lineComment _ => exact (codeTag_head (not_tagged (by simp))).2.1 rfl (by simp)
  | blockComment _ => exact (codeTag_head (not_tagged (by simp))).2.1 rfl (by simp)

theorem token_tag {src : List Char} {ts : List Token} {res : Outcome TokenizeError Unit}
    (h : tokenize src = some (ts, res)) {t : Token} (ht : t ∈ ts) :
    spanTag t.type = codeTag (textOf src t) := by
  by_cases h1 : t.type = .logical_and
  · obtain ⟨h2, u, h3⟩ := (C20_wrong_length h ht).1 h1
    rw [textOf, h2, ← h3, h1]
    exact ((codeTag_head (not_tagged (by simp))).2.2.2.2 (.inr rfl)).symm
  by_cases h1' : t.type = .logical_not
  · obtain ⟨h2, u, h3⟩ := (C20_wrong_length h ht).2 h1'
    rw [textOf, h2, ← h3, h1']
    exact ((codeTag_head (not_tagged (by simp))).2.2.2.2 (.inl rfl)).symm
  exact (lexeme_tag (C20_token_text_partial h ht h1 h1')).symm

/-! ## Writing tokens -/

theorem spanTag_name (ty : TokenType) : Name (spanTag ty) := by
  cases ty <;> simp [spanTag, Name, NameChar, InRange]

theorem escape_layout {s : List Char} (h : Layout s) : escape s = s := by
  induction s with
  | nil => rfl
  | cons c s ih =>
    have h1 := h c (by simp)
    have h2 := ih (fun d hd => h d (by simp [hd]))
    have h3 : escapeChar c = [c] := by rcases h1 with rfl | rfl <;> decide
    unfold escape at h2 ⊢
    rw [List.flatMap_cons, h3, h2]; rfl

theorem codeGap_layout (a b : Token) : Layout (codeGap a b) := by
  unfold codeGap
  split
  · refine Layout.append ?_ (Layout.spaces _)
    intro c hc
    exact .inr (List.eq_of_mem_replicate hc)
  · exact Layout.spaces _

/-- The white space between two tokens. -/
theorem tokenGap_goes {c : Conv} {a b : Token} (h : Good c) (hs : c.writer.state = .normal)
    (hb : Behind a.pos a.length b.pos) (hl : 0 < a.length) (hc : b.pos.column < 2 ^ 64) :
    ∃ w', tokenGap (some a) b c.writer = .ok w' ∧ w'.state = .normal ∧
      Step c { c with writer := w' } [.verbatim (codeGap a b)] := by
  have key : ∀ w' : HtmlWriter, w'.text = c.writer.text ++ codeGap a b → w'.state = .normal →
      w'.depth = c.writer.depth → w'.indentDepth = c.writer.indentDepth →
      Step c { c with writer := w' } [.verbatim (codeGap a b)] := by
    intro w' h1 h2 h3 h4
    refine ⟨⟨codeGap a b, h1, ?_⟩, h3, h4, ⟨.inl h2, by simpa [h4] using h.indent, h.title⟩⟩
    have e : fresh w' = false := by simp [fresh, h2]
    simp only [e]
    have := Shown.verbatim (fresh := fresh c.writer) (s := codeGap a b) (Shown.nil (fresh := false))
    rwa [escape_layout (codeGap_layout a b), List.append_nil] at this
  unfold tokenGap
  simp only
  unfold writeSourceGap
  have e1 : (decide (c.writer.state ≠ .attributes) && decide (c.writer.state ≠ .initial)) = true := by
    simp [hs]
  have e2 : (decide (a.pos.line < b.pos.line) ||
      (decide (a.pos.line = b.pos.line) && decide (a.pos.column ≤ b.pos.column))) = true := by
    unfold Behind at hb
    simp only [Bool.or_eq_true, Bool.and_eq_true, decide_eq_true_eq]
    omega
  rw [e1, e2]
  simp only [Outcome.assert, if_true, Outcome.ok_bind]
  by_cases h1 : a.pos.line ≠ b.pos.line
  · rw [if_pos h1]
    by_cases h2 : b.pos.column ≠ 0
    · rw [if_pos h2]
      refine ⟨_, rfl, hs, key _ ?_ hs rfl rfl⟩
      simp [writeN, write, HtmlWriter.text, codeGap, h1]
    · rw [if_neg h2]
      refine ⟨_, rfl, hs, key _ ?_ hs rfl rfl⟩
      have h2 : b.pos.column = 0 := by omega
      simp [writeN, write, HtmlWriter.text, codeGap, h1, h2]
  · rw [if_neg h1]
    have h1' : a.pos.line = b.pos.line := by omega
    unfold Behind at hb
    rw [if_pos (by omega)]
    refine ⟨_, rfl, hs, key _ ?_ hs rfl rfl⟩
    have : (b.pos.column + 2 ^ 64 - (a.pos.column + a.length)) % 2 ^ 64 =
        b.pos.column - (a.pos.column + a.length) := by omega
    simp [writeN, write, HtmlWriter.text, codeGap, h1', this]

theorem call_exec {c c' : Conv} {calls : List HtmlCall} (h : c.call calls = .ok c') :
    c.writer.execAll calls = .ok c'.writer ∧ c' = { c with writer := c'.writer } := by
  unfold Conv.call at h
  cases hw : c.writer.execAll calls with
  | ok w => rw [hw] at h; cases h; exact ⟨rfl, rfl⟩
  | err e => rw [hw] at h; cases h
  | throws => rw [hw] at h; cases h
  | ub => rw [hw] at h; cases h

theorem verbatim_goes {c : Conv} (h : Good c) (s : List Char) :
    Goes c c.atStart [] [.verbatim s] (c.call [.text s .pre]) := by
  obtain ⟨w', h1, h2⟩ := exec_verbatim c.writer s h.ready
  refine ⟨{ c with writer := w' }, by rw [call_one, h1]; rfl, ?_, rfl⟩
  refine ⟨⟨escape s, h2.text, ?_⟩, h2.depth, h2.indent, h.ofDid h2 (.inl rfl) h.indent⟩
  have e : fresh w' = false := by simp [fresh, h2.state]
  simp only [e]
  have := Shown.verbatim (fresh := fresh c.writer) (s := s) (Shown.nil (fresh := false))
  rwa [List.append_nil] at this

/-- One token. -/
theorem token_goes {c : Conv} {tag : List Char} (h : Good c) (s : List Char) (hn : Name tag) :
    ∃ w', c.writer.execAll [.start ⟨tag, .pre⟩, .text s .pre, .close ⟨tag, .pre⟩] = .ok w' ∧
      w'.state = .normal ∧ Step c { c with writer := w' } [.element tag [] [.verbatim s]] := by
  obtain ⟨w₁, g₁, a1, a2, a3, a4⟩ := exec_start c.writer ⟨tag, .pre⟩ h.ready hn rfl
  obtain ⟨w₂, b1, b2⟩ := exec_verbatim w₁ s (.inl a4.state)
  obtain ⟨w₃, g₃, d1, d2, d3, d4⟩ := exec_end w₂ ⟨tag, .pre⟩ (.inl b2.state) hn
    (by rw [b2.depth, a4.depth]; omega) rfl
  have e : g₃ = [] := d3 (by simp [fresh, b2.state])
  subst e
  refine ⟨w₃, ?_, d4.state, ⟨⟨g₁ ++ '<' :: (tag ++ [] ++ '>' :: ((escape s ++ []) ++ '<' :: '/' :: (tag ++ '>' :: []))), ?_, ?_⟩,
    ?_, ?_, ⟨.inl d4.state, ?_, h.title⟩⟩⟩
  · simp only [execAll, a1, b1, d1, Outcome.ok_bind]
  · rw [d4.text, b2.text, a4.text]; simp
  · have e : fresh w₃ = false := by simp [fresh, d4.state]
    simp only [e]
    exact Shown.front a2 a3 (Shown.element hn .nil (Shown.verbatim .nil) .nil)
  · simp only; rw [d4.depth, b2.depth, a4.depth]; simp
  · simp only; rw [d4.indent, b2.indent, a4.indent]
  · simp only; rw [d4.indent, b2.indent, a4.indent]; exact h.indent

/-- What belongs to tokens behind a token. -/
def codeItemsFrom (code : List Char) : Option Token → List Token → List Item
  | some a, b :: ts => .verbatim (codeGap a b) :: codeItems code (b :: ts)
  | _, ts => codeItems code ts

theorem codeItems_cons (code : List Char) (t : Token) (ts : List Token) :
    codeItems code (t :: ts) = .element (codeTag (textOf code t)) [] [.verbatim (textOf code t)] ::
      codeItemsFrom code (some t) ts := by
  cases ts <;> rfl

theorem tokens_go {code : List Char} (ts : List Token) (prev : Option Token) {c : Conv} (h : Good c)
    (hp : prev ≠ none → c.writer.state = .normal) (ho : InOrder (prev.toList ++ ts))
    (ht : ∀ t ∈ prev.toList ++ ts, 0 < t.length ∧ t.pos.column < 2 ^ 64)
    (hn : ∀ t ∈ ts, spanTag t.type = codeTag (textOf code t)) :
    ∃ w', tokensToHtml code prev ts c.writer = .ok w' ∧
      Step c { c with writer := w' } (codeItemsFrom code prev ts) := by
  induction ts generalizing prev c with
  | nil => exact ⟨c.writer, by unfold tokensToHtml; rfl, by cases prev <;> exact Step.refl h⟩
  | cons t ts ih =>
    have step : ∀ {c : Conv}, Good c → ∃ w', (do
        let w ← c.writer.execAll [.start ⟨spanTag t.type, .pre⟩,
          .text ((code.drop t.pos.start).take t.length) .pre, .close ⟨spanTag t.type, .pre⟩]
        tokensToHtml code (some t) ts w) = .ok w' ∧
        Step c { c with writer := w' } (codeItems code (t :: ts)) := by
      intro c h
      obtain ⟨w₁, a1, a2, a3⟩ := token_goes h ((code.drop t.pos.start).take t.length) (spanTag_name t.type)
      rw [a1, Outcome.ok_bind]
      obtain ⟨w₂, b1, b2⟩ := ih (some t) (c := { c with writer := w₁ }) a3.good (fun _ => a2)
        (by
          cases prev with
          | none => exact ho
          | some a => exact ho.2)
        (fun t' ht' => ht t' (by
          rw [List.mem_append]; right
          simpa using ht'))
        (fun t' ht' => hn t' (by simp [ht']))
      refine ⟨w₂, b1, ?_⟩
      rw [codeItems_cons]
      have := a3.trans b2
      rw [hn t (by simp)] at this
      exact this
    unfold tokensToHtml
    cases prev with
    | none =>
      simp only [tokenGap, Outcome.ok_bind]
      exact step h
    | some a =>
      obtain ⟨w₁, a1, a2, a3⟩ := tokenGap_goes (b := t) h (hp (by simp)) ho.1 (ht a (by simp)).1
        (ht t (by simp)).2
      rw [a1, Outcome.ok_bind]
      obtain ⟨w', b1, b2⟩ := step a3.good
      exact ⟨w', b1, a3.trans b2⟩

/-- Code in a document. -/
theorem bms_goes {c : Conv} (h : Good c) {code : List Char} {ts : List Token}
    (ht : tokenize code = some (ts, .ok ())) (hr : '\r' ∉ code) (hl : 4 * code.length < 2 ^ 64) :
    ∃ w', tokensToHtml code none ts c.writer = .ok w' ∧
      Step c { c with writer := w' } (codeItems code ts) := by
  obtain ⟨h1, h2⟩ := tokenize_inOrder hr ht
  have := tokens_go (code := code) ts none h (by simp) (by simpa using h1)
    (fun t hm => by
      have := h2 t (by simpa using hm)
      omega)
    (fun t hm => token_tag ht hm)
  simpa [codeItemsFrom] using this

end Bms.Bmd
