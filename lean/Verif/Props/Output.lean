import Verif.Model.Output
import Verif.Spec.Terminal
import Verif.Spec.Diagnostics
import Verif.Lemmas.Diagnostics
import Verif.Props.CodeString

/-!
# C77: what is shown on the terminal
-/

namespace Bms

open Diag Terminal

namespace Output

theorem bytes_append (a b : Out) : bytes (a ++ b) = bytes a ++ bytes b := by
  induction a with
  | nil => rfl
  | cons p a ih => cases p <;> simp [bytes, ih]

theorem sendAll_append (s : State) (a b : List Char) : sendAll s (a ++ b) = sendAll (sendAll s a) b :=
  List.foldl_append ..

/-- Text without `ESC` is shown. -/
theorem sendAll_text (shown : List (Char × Colour)) (colour : Colour) (t : List Char) (ht : '\x1B' ∉ t) :
    sendAll ⟨shown, colour, none⟩ t = ⟨shown ++ t.map fun c => (c, colour), colour, none⟩ := by
  induction t generalizing shown with
  | nil => simp [sendAll]
  | cons c t ih =>
    have hc : c ≠ '\x1B' := fun h => ht (by simp [h])
    have h1 : send ⟨shown, colour, none⟩ c = ⟨shown ++ [(c, colour)], colour, none⟩ := by
      simp [send, hc]
    rw [sendAll, List.foldl_cons, h1]
    have := ih (shown ++ [(c, colour)]) fun h => ht (by simp [h])
    rw [sendAll] at this
    rw [this]
    simp

theorem sendAll_code (shown : List (Char × Colour)) (colour : Colour) (type : SpanType) :
    sendAll ⟨shown, colour, none⟩ (bytes [codeColor type]) = ⟨shown, codeColour type, none⟩ := by
  cases type <;> rfl

theorem sendAll_html (shown : List (Char × Colour)) (colour : Colour) (type : HtmlTok) :
    sendAll ⟨shown, colour, none⟩ (bytes [htmlColor type]) = ⟨shown, htmlColour type, none⟩ := by
  cases type <;> rfl

theorem sendAll_reset (shown : List (Char × Colour)) (colour : Colour) :
    sendAll ⟨shown, colour, none⟩ (bytes [ansiReset]) = ⟨shown, [], none⟩ := rfl

theorem paint_append (spans : List CodeSpan) (i : Nat) (a b : List Char) :
    paint spans i (a ++ b) = paint spans i a ++ paint spans (i + a.length) b := by
  induction a generalizing i with
  | nil => simp [paint]
  | cons c a ih =>
    simp only [List.cons_append, paint, List.length_cons]
    rw [ih, show i + 1 + a.length = i + (a.length + 1) by omega]

/-- A part in one colour. -/
theorem paint_same {spans : List CodeSpan} {colour : Colour} (i : Nat) (t : List Char)
    (h : ∀ j, i ≤ j → j < i + t.length → colourAt spans j = colour) :
    paint spans i t = t.map fun c => (c, colour) := by
  induction t generalizing i with
  | nil => rfl
  | cons c t ih =>
    simp only [List.length_cons] at h
    rw [paint, h i (Nat.le_refl _) (by omega), ih (i + 1) fun j h1 h2 => h j (by omega) (by omega)]
    rfl

theorem paint_congr {spans spans' : List CodeSpan} (i : Nat) (t : List Char)
    (h : ∀ j, i ≤ j → colourAt spans j = colourAt spans' j) : paint spans i t = paint spans' i t := by
  induction t generalizing i with
  | nil => rfl
  | cons c t ih => rw [paint, paint, h i (Nat.le_refl _), ih (i + 1) fun j hj => h j (by omega)]

theorem colourAt_nil (i : Nat) : colourAt [] i = [] := rfl

theorem colourAt_first {sp : CodeSpan} {spans : List CodeSpan} {i : Nat} (h1 : sp.start ≤ i)
    (h2 : i < sp.start + sp.length) : colourAt (sp :: spans) i = codeColour sp.type := by
  unfold colourAt
  rw [List.find?_cons_of_pos (by simp [h1, h2])]

theorem colourAt_later {sp : CodeSpan} {spans : List CodeSpan} {i : Nat}
    (h : sp.start + sp.length ≤ i) : colourAt (sp :: spans) i = colourAt spans i := by
  unfold colourAt
  rw [List.find?_cons_of_neg (by simp; omega)]

theorem colourAt_before {spans : List CodeSpan} {i : Nat} (h : ∀ sp ∈ spans, i < sp.start) :
    colourAt spans i = [] := by
  unfold colourAt
  rw [List.find?_eq_none.2 fun sp hs => by have := h sp hs; simp; omega]

theorem spans_shown (text : List Char) (spans : List CodeSpan) (b : Nat)
    (ho : spans.Pairwise fun a b => a.start + a.length ≤ b.start)
    (hi : ∀ a ∈ spans, b ≤ a.start ∧ 0 < a.length ∧ a.start + a.length ≤ text.length)
    (hb : b ≤ text.length) :
    ∃ e out, printSpans text b spans = .ok (e, out) ∧ b ≤ e ∧ e ≤ text.length ∧
      (∀ j, e ≤ j → colourAt spans j = []) ∧
      seen out = (text.drop b).take (e - b) ∧
      ('\x1B' ∉ text → ∀ shown : List (Char × Colour), sendAll ⟨shown, [], none⟩ (bytes out) =
        ⟨shown ++ paint spans b ((text.drop b).take (e - b)), [], none⟩) := by
  induction spans generalizing b with
  | nil =>
    refine ⟨b, [], rfl, Nat.le_refl _, hb, fun j _ => rfl, ?_, fun _ shown => ?_⟩
    · simp [seen]
    · simp [bytes, sendAll, paint]
  | cons sp spans ih =>
    obtain ⟨h1, h2, h3⟩ := hi sp (by simp)
    rw [List.pairwise_cons] at ho
    obtain ⟨e, out, h4, h5, h6, h7, h8, h9⟩ := ih (sp.start + sp.length) ho.2
      (fun a ha => ⟨ho.1 a ha, (hi a (by simp [ha])).2⟩) h3
    have hsub : ∀ p n, p ≤ text.length → substr text p n = .ok ((text.drop p).take n) := fun p n hp => by
      rw [substr, if_neg (by omega)]
    -- the text of the gap, of the span, and of the rest
    have hgap : ∃ gap : Out, printGap text b sp.start = .ok gap ∧ seen gap = (text.drop b).take (sp.start - b) ∧
        bytes gap = (text.drop b).take (sp.start - b) := by
      by_cases hg : b = sp.start
      · exact ⟨[], by rw [printGap, if_neg (by simp [hg])], by simp [seen, hg], by simp [bytes, hg]⟩
      · refine ⟨[.text ((text.drop b).take (sp.start - b))], ?_, by simp [seen], by simp [bytes]⟩
        rw [printGap, if_pos hg, hsub _ _ hb]
        rfl
    obtain ⟨gap, g1, g2, g3⟩ := hgap
    have hsplit : (text.drop b).take (e - b) = (text.drop b).take (sp.start - b) ++
        ((text.drop sp.start).take sp.length ++
          (text.drop (sp.start + sp.length)).take (e - (sp.start + sp.length))) := by
      have a1 : e - b = (sp.start - b) + (e - sp.start) := by omega
      have a2 : e - sp.start = sp.length + (e - (sp.start + sp.length)) := by omega
      rw [a1, List.take_add, List.drop_drop, show b + (sp.start - b) = sp.start by omega, a2,
        List.take_add, List.drop_drop]
    refine ⟨e, gap ++ [codeColor sp.type, .text ((text.drop sp.start).take sp.length), ansiReset] ++ out,
      ?_, by omega, h6, ?_, ?_, ?_⟩
    · rw [printSpans, show decide (b ≤ sp.start) = true from decide_eq_true h1]
      simp only [Outcome.assert, if_true, Outcome.ok_bind, g1, hsub sp.start sp.length (by omega), h4]
    · intro j hj
      rw [colourAt_later (by omega)]
      exact h7 j hj
    · rw [seen_append, seen_append, g2, h8, hsplit]
      have : seen [codeColor sp.type, .text ((text.drop sp.start).take sp.length), ansiReset] =
          (text.drop sp.start).take sp.length := by
        cases sp.type <;> simp [codeColor, seen, ansiReset, ansiHWhite, ansiHBlue, ansiHCyan, ansiHGreen,
          ansiHBlack, ansiBlack, ansiHMagenta, ansiHRed]
      rw [this, List.append_assoc]
    · intro he shown
      have e1 : '\x1B' ∉ (text.drop b).take (sp.start - b) := fun h =>
        he (List.mem_of_mem_drop (List.mem_of_mem_take h))
      have e2 : '\x1B' ∉ (text.drop sp.start).take sp.length := fun h =>
        he (List.mem_of_mem_drop (List.mem_of_mem_take h))
      have hcons : bytes [codeColor sp.type, .text ((text.drop sp.start).take sp.length), ansiReset] =
          bytes [codeColor sp.type] ++ ((text.drop sp.start).take sp.length ++ bytes [ansiReset]) := by
        rw [show [codeColor sp.type, .text ((text.drop sp.start).take sp.length), ansiReset] =
          [codeColor sp.type] ++ ([.text ((text.drop sp.start).take sp.length)] ++ [ansiReset]) from rfl,
          bytes_append, bytes_append]
        simp [bytes]
      rw [bytes_append, bytes_append, g3, hcons]
      simp only [sendAll_append]
      rw [sendAll_text _ _ _ e1, sendAll_code, sendAll_text _ _ _ e2, sendAll_reset,
        h9 he, hsplit, paint_append, paint_append]
      have l1 : ((text.drop b).take (sp.start - b)).length = sp.start - b := by
        rw [List.length_take, List.length_drop]; omega
      have l2 : ((text.drop sp.start).take sp.length).length = sp.length := by
        rw [List.length_take, List.length_drop]; omega
      rw [l1, l2, show b + (sp.start - b) = sp.start by omega]
      rw [paint_same (colour := []) b _ (fun j j1 j2 => colourAt_before fun q hq => ?_),
        paint_same (colour := codeColour sp.type) sp.start _ (fun j j1 j2 => colourAt_first j1 (by omega)),
        paint_congr (spans' := spans) (sp.start + sp.length) _ (fun j hj => colourAt_later hj)]
      · simp
      · rw [l1] at j2
        rcases List.mem_cons.1 hq with rfl | hq
        · omega
        · have := ho.1 q hq; omega

end Output

open Output

/-- **C77: code.** Code with spans that are in order and in the text (all code strings are like that, see
C39) is printed. What can be read is the text, with and without colours. -/
theorem C77_text (string : CodeString) (h : Spec.SpansOk string) (colors : Bool) :
    ∃ out, printCodeString string colors = .ok out ∧ seen out = string.text ∧
      (colors = false → bytes out = string.text) ∧
      (colors = true → '\x1B' ∉ string.text →
        sendAll fresh (bytes out) = ⟨paint string.spans 0 string.text, [], none⟩) := by
  cases colors with
  | false => exact ⟨[.text string.text], rfl, by simp [seen], fun _ => by simp [bytes], nofun⟩
  | true =>
    obtain ⟨e, out, h1, -, h3, h4, h5, h6⟩ := spans_shown string.text string.spans 0 h.ordered
      (fun a ha => ⟨Nat.zero_le _, h.inside a ha⟩) (Nat.zero_le _)
    rw [List.drop_zero, Nat.sub_zero] at h5 h6
    by_cases he : e = string.text.length
    · refine ⟨out, ?_, ?_, nofun, fun _ hx => ?_⟩
      · rw [printCodeString, if_neg (by decide), h1]
        show (if e ≠ string.text.length then _ else _) = _
        rw [if_neg (by simp [he])]
      · rw [h5, he, List.take_length]
      · have := h6 hx []
        rw [he, List.take_length] at this
        exact this
    · refine ⟨out ++ [.text ((string.text.drop e).take string.text.length)], ?_, ?_, nofun, fun _ hx => ?_⟩
      · rw [printCodeString, if_neg (by decide), h1]
        show (if e ≠ string.text.length then _ else _) = _
        rw [if_pos he, substr, if_neg (by omega)]
        rfl
      · have : seen [Piece.text ((string.text.drop e).take string.text.length)] = string.text.drop e := by
          simp only [seen, List.append_nil]
          rw [List.take_of_length_le (by simp)]
        rw [seen_append, h5, this, List.take_append_drop]
      · have hd : (string.text.drop e).take string.text.length = string.text.drop e :=
          List.take_of_length_le (by simp)
        have h7 := h6 hx []
        have h8 : bytes [Piece.text (string.text.drop e)] = string.text.drop e := by simp [bytes]
        rw [hd, bytes_append, sendAll_append, show fresh = ⟨[], [], none⟩ from rfl, h7, h8,
          sendAll_text _ _ _ fun h => hx (List.mem_of_mem_drop h)]
        conv => rhs; rw [← List.take_append_drop e string.text]
        rw [paint_append, List.length_take, Nat.min_eq_left h3, Nat.zero_add,
          paint_same (colour := []) e _ fun j hj _ => h4 j hj]
        simp

/-- **C77: code of generators.** Whatever is appended to a code string, and however attempts end: it is
printed, and what can be read is the text. -/
theorem C77_generated (e : Edit) (colors : Bool) :
    ∃ out, printCodeString ((⟨[], []⟩ : CodeString).edit e).1 colors = .ok out ∧
      seen out = ((⟨[], []⟩ : CodeString).edit e).1.text := by
  obtain ⟨out, h1, h2, -⟩ := C77_text _ (C39_spans ⟨[], []⟩ e ⟨.nil, fun a ha => absurd ha List.not_mem_nil⟩).1 colors
  exact ⟨out, h1, h2⟩

/-- Spans that overlap would make it throw. -/
theorem C77_overlap : printCodeString ⟨"abc".toList, [⟨0, 2, .keyword⟩, ⟨1, 2, .number⟩]⟩ true = .throws ∧
    printCodeString ⟨"abc".toList, [⟨0, 2, .keyword⟩, ⟨4, 2, .number⟩]⟩ true = .throws := by
  decide

theorem C77_sample : ∃ out,
    printCodeString ⟨"let x = 1;".toList,
      [⟨0, 3, .keyword⟩, ⟨4, 1, .identifier⟩, ⟨6, 1, .operation⟩, ⟨8, 1, .number⟩]⟩ true = .ok out ∧
    (sendAll fresh (bytes out)).shown = [('l', "[0;95".toList), ('e', "[0;95".toList), ('t', "[0;95".toList),
      (' ', []), ('x', "[0;97".toList), (' ', []), ('=', "[0;90".toList), (' ', []), ('1', "[0;96".toList),
      (';', [])] := by
  exact ⟨_, rfl, by decide⟩

/-! ## Pages -/

/-- **C77: pages.** What can be read on the terminal is what is written to a file, which is the text of the
page, without escape sequences. On the terminal, tokens of a page have the colours of their types. -/
theorem C77_page (tokens : List (HtmlTok × List Char)) :
    seen (coloredPage tokens) = tokens.flatMap Prod.snd ∧
    bytes (simplePage tokens) = tokens.flatMap Prod.snd ∧
    ((∀ t ∈ tokens, '\x1B' ∉ t.2) →
      (sendAll fresh (bytes (coloredPage tokens))).shown =
        tokens.flatMap fun t => t.2.map fun c => (c, htmlColour t.1)) := by
  refine ⟨?_, ?_, fun h => ?_⟩
  · induction tokens with
    | nil => rfl
    | cons t ts ih =>
      rw [coloredPage, List.flatMap_cons, seen_append]
      rw [coloredPage] at ih
      rw [ih, List.flatMap_cons]
      obtain ⟨ty, s⟩ := t
      cases ty <;> simp [coloredWrite, htmlColor, seen, ansiReset, ansiHBlue, ansiHCyan, ansiHGreen,
        ansiHBlack, ansiBlack]
  · induction tokens with
    | nil => rfl
    | cons t ts ih =>
      rw [simplePage, List.flatMap_cons, bytes_append]
      rw [simplePage] at ih
      rw [ih, List.flatMap_cons]
      simp [simpleWrite, bytes]
  · have key : ∀ (shown : List (Char × Colour)) (colour : Colour), ∃ colour',
        sendAll ⟨shown, colour, none⟩ (bytes (coloredPage tokens)) =
          ⟨shown ++ tokens.flatMap (fun t => t.2.map fun c => (c, htmlColour t.1)), colour', none⟩ := by
      induction tokens with
      | nil => exact fun shown colour => ⟨colour, by simp [coloredPage, bytes, sendAll]⟩
      | cons t ts ih =>
        intro shown colour
        have h1 : bytes (coloredPage (t :: ts)) = bytes [htmlColor t.1] ++ (t.2 ++ bytes (coloredPage ts)) := by
          rw [coloredPage, List.flatMap_cons, bytes_append, coloredWrite,
            show [htmlColor t.1, Piece.text t.2] = [htmlColor t.1] ++ [Piece.text t.2] from rfl, bytes_append]
          simp [bytes, coloredPage]
        obtain ⟨colour', h2⟩ := ih (fun u hu => h u (by simp [hu]))
          (shown ++ t.2.map fun c => (c, htmlColour t.1)) (htmlColour t.1)
        refine ⟨colour', ?_⟩
        rw [h1, sendAll_append, sendAll_append, sendAll_html, sendAll_text _ _ _ (h t (by simp)), h2]
        simp
    obtain ⟨colour', h1⟩ := key [] []
    rw [show fresh = ⟨[], [], none⟩ from rfl, h1]
    simp

/-! ## Files -/

theorem Output.readAll_eq {size : Nat} (hs : 0 < size) (n : Nat) (r : Reading) (hb : r.buf.length = size)
    (hn : r.rest.length < n * size) : readAll size n r = some (r.out ++ r.rest) := by
  induction n generalizing r with
  | zero => omega
  | succ n ih =>
    obtain ⟨rest, buf, out⟩ := r
    simp only at hb hn ⊢
    have htake : (rest.take size ++ buf.drop (rest.take size).length).take (rest.take size).length =
        rest.take size := List.take_left ..
    by_cases h : size ≤ rest.length
    · have hr : read size ⟨rest, buf, out⟩ = (⟨rest.drop size, rest.take size ++ buf.drop (rest.take size).length,
          out⟩, true, (rest.take size).length) := by simp [read, h]
      have hl : (rest.take size).length = size := by rw [List.length_take]; omega
      rw [readAll, hr]
      simp only [append, htake]
      rw [ih _ (by simp [hb, hl]) (by
        simp only [List.length_drop]
        have : (n + 1) * size = n * size + size := Nat.succ_mul n size
        omega)]
      simp [List.append_assoc, List.take_append_drop]
    · have hr : read size ⟨rest, buf, out⟩ = (⟨rest.drop size, rest.take size ++ buf.drop (rest.take size).length,
          out⟩, false, (rest.take size).length) := by simp [read, h]
      rw [readAll, hr]
      simp only [append, htake]
      rw [List.take_of_length_le (by omega)]

/-- **C77: files.** Files of any length are read completely: also if the length is a multiple of the size
of the buffer, and nothing of the buffer is read twice. -/
theorem C77_file (content : List Char) : ∃ n₀, ∀ n, n₀ ≤ n → fileToString n content = some content := by
  refine ⟨content.length / readSize + 1, fun n hn => ?_⟩
  have h1 : 0 < readSize := by decide
  rw [fileToString, readAll_eq h1 n _ (by simp)]
  · simp
  · show content.length < n * readSize
    have h2 := Nat.lt_mul_div_succ content.length h1
    have h3 : readSize * (content.length / readSize + 1) ≤ n * readSize := by
      rw [Nat.mul_comm n]
      exact Nat.mul_le_mul_left _ hn
    omega

end Bms
