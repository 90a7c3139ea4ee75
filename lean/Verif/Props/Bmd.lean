import Verif.Lemmas.BmdEnds
import Verif.Lemmas.BmdMono
import Verif.Lemmas.BmdUnique

/-! C40, C41, C61: the parser of documents (BMD). -/

namespace Bms

open Bmd
open Spec (Ident IdentPart)

/-! ### C40: raw blocks -/

namespace Bmd

/-- There is at most one brace that balances the one before the text. -/
theorem balanced_unique {t t' r r' : List Char} (h : Balanced t) (h' : Balanced t')
    (he : t ++ '}' :: r = t' ++ '}' :: r') : t = t' ∧ r = r' := by
  have h1 := closing_raw (.zero h) r ⟨0, 0, 0⟩
  have h2 := closing_raw (.zero h') r' ⟨0, 0, 0⟩
  simp only [List.append_assoc, List.singleton_append] at h1 h2
  rw [he, h2] at h1
  simp only [Res.ok.injEq, St.mk.injEq, true_and] at h1
  have hr := h1.2
  subst hr
  exact ⟨List.append_cancel_right he, rfl⟩

end Bmd

/-- A raw block with some text in it is matched up to the brace that balances its first one. -/
theorem C40_block_partial {t : List Char} (h : Balanced t) (hne : t ≠ []) (p : Position)
    (rest : List Char) :
    matchRawBlockImpl ⟨p, '{' :: t ++ '}' :: rest⟩
      = .ok ⟨after p ['{'], t⟩ ⟨after p ('{' :: t ++ ['}']), rest⟩ := by
  rcases matchRaw_res ⟨p, '{' :: t ++ '}' :: rest⟩ with ⟨t', r', h1, h2, h3⟩ | ⟨-, h2⟩
  · simp only [List.cons_append, List.cons.injEq, true_and] at h1
    obtain ⟨rfl, rfl⟩ := balanced_unique h h2 h1
    rw [h3, if_neg hne]
  · exact absurd rfl (h2 t rest h)

/-- There is an error exactly if there is no such brace, and it is located in the text. -/
theorem C40_error (p : Position) (source : List Char) :
    (∃ c r q, matchRawBlockImpl ⟨p, source⟩ = .err c r q) ↔
      ¬ ∃ t rest, Balanced t ∧ source = '{' :: t ++ '}' :: rest := by
  rcases matchRaw_res ⟨p, source⟩ with ⟨t', r', h1, h2, h3⟩ | ⟨⟨c, r, q, u, v, h1, -⟩, h2⟩
  · constructor
    · rintro ⟨c, r, q, h⟩
      rw [h3] at h
      split at h <;> cases h
    · intro h
      exact absurd ⟨t', r', h2, h1⟩ h
  · refine ⟨?_, fun _ => ⟨c, r, q, h1⟩⟩
    rintro - ⟨t, rest, hb, he⟩
    exact h2 t rest hb he

/-- Errors are located in the text. -/
theorem C40_located {p : Position} {source : List Char} {c : Code} {r : Rule} {q : Position}
    (h : matchRawBlockImpl ⟨p, source⟩ = .err c r q) :
    ∃ u v, source = u ++ v ∧ q = after p u := by
  rcases matchRaw_res ⟨p, source⟩ with ⟨t', r', -, -, h3⟩ | ⟨⟨c', r', q', u, v, h1, h2, h3, -⟩, -⟩
  · rw [h3] at h; split at h <;> cases h
  · rw [h1] at h; cases h; exact ⟨u, v, h2, h3⟩

/-- Violation: the empty raw block throws, whatever follows it. -/
theorem C40_empty_violation (p : Position) (rest : List Char) :
    matchRawBlockImpl ⟨p, '{' :: '}' :: rest⟩ = .throws := by
  rcases matchRaw_res ⟨p, '{' :: '}' :: rest⟩ with ⟨t', r', h1, h2, h3⟩ | ⟨-, h2⟩
  · simp only [List.cons_append, List.cons.injEq, true_and] at h1
    obtain ⟨rfl, rfl⟩ := balanced_unique (t := []) .nil h2 h1
    rw [h3, if_pos rfl]
  · exact absurd rfl (h2 [] rest .nil)

/-- Braces, escapes and comments within a block. -/
theorem C40_sample : Balanced "a{b\\}/*}*/}".toList := by
  have e : "a{b\\}/*}*/}".toList = 'a' :: ('{' :: (('b' :: '\\' :: '}' ::
    (['/', '*', '}', '*', '/'] ++ [])) ++ '}' :: [])) := by decide
  rw [e]
  refine .plain (by decide) (by decide) (by decide) (by decide) (.braces ?_ .nil)
  refine .plain (by decide) (by decide) (by decide) (by decide) (.escape (.inr (.inr rfl)) ?_)
  refine .comment ⟨['}'], rfl, ?_⟩ .nil
  intro a b h
  match a with
  | [] => simp at h
  | [_] => simp at h; exact h.2
  | [_, _] => simp at h
  | _ :: _ :: _ :: a => simp at h

/-! ### C41: parsing ends -/

namespace Bmd

theorem run_diverge_bind {x : PM α} {f : α → PM β} {s : St} (h : x s = .diverge) :
    (x >>= f) s = .diverge := by rw [run_bind, h]

theorem commentStart_head {t : List Char} (h : CommentStart t) : t.head? = some '/' := by
  obtain ⟨u, rfl | rfl⟩ := h <;> rfl

theorem notText_of_comment {t r w : List Char} (h : TextIs t r) (hc : CommentStart w)
    (hw : w = t ++ r) : False := by
  have := (textIs_noBlank h).2
  rw [← hw] at this
  exact this hc

/-- A comment that follows a word in a span: the loop of `match_paragraph` stays there. -/
theorem paragraphLoop_stuck (n : Nat) : (∀ (s : St) (initial : Position) (elements : List Node),
    CommentStart s.rest → paragraphLoop n initial elements s = .diverge) ∧
    (∀ (s : St) (initial : Position) (elements : List Node),
    CommentStart s.rest → paragraphElement n initial elements s = .diverge) := by
  induction n with
  | zero => exact ⟨fun s _ _ _ => by rw [paragraphLoop]; rfl, fun s _ _ _ => by
      rw [paragraphElement]; rfl⟩
  | succ n ih =>
    constructor
    · intro s initial elements hc
      have hh := commentStart_head hc
      rw [paragraphLoop, run_get_bind]
      simp only [run_ite]
      rw [if_neg, if_neg]
      · exact ih.2 s _ _ hc
      · unfold St.peekSpace
        cases hr : s.rest with
        | nil => simp
        | cons c cs => rw [hr] at hh; simp at hh; subst hh; simp [isSpace]
      · intro he
        rw [show s.rest = [] by simpa [St.eof] using he] at hh
        cases hh
    · intro s initial elements hc
      have hh := commentStart_head hc
      rw [paragraphElement]
      have hnone : matchText s = .ok none s := by
        rcases matchText_res s (by
          intro c hcc; rw [hh] at hcc; cases hcc; unfold Space; decide) with ⟨h, -⟩ | ⟨t, r, h1, h2, -⟩
        · exact h
        · exact (notText_of_comment h2 hc h1).elim
      rw [run_ok_bind hnone]
      simp only
      rw [run_get_bind, run_ite, if_neg]
      · exact ih.1 s _ _ hc
      · rw [possibleDirective_iff]
        rintro ⟨u, hu, -⟩
        rw [hu] at hh
        cases hh

theorem spanInside_stuck {w c : List Char} (hw : TextIs w c) (hc : CommentStart c) (p : Position) :
    ∀ n, spanInside n true ⟨p, w ++ c⟩ = .diverge
  | 0 => by rw [spanInside]; rfl
  | n + 1 => by
    rw [spanInside, run_ok_bind (noBlank_matchBlank (textIs_noBlank hw))]
    simp only [Bool.false_eq_true, if_false, if_true]
    refine run_diverge_bind ?_
    match n with
    | 0 => rw [matchParagraph]; rfl
    | n + 1 =>
      rw [matchParagraph, run_get_bind]
      match n with
      | 0 => rw [paragraphLoop]; rfl
      | n + 1 =>
        have hne := hw.nonempty
        rw [paragraphLoop, run_get_bind]
        simp only [run_ite]
        rw [if_neg (by simp [St.eof, hne]), if_neg]
        · match n with
          | 0 => rw [paragraphElement]; rfl
          | n + 1 =>
            rw [paragraphElement, run_ok_bind (matchText_complete hw p)]
            exact (paragraphLoop_stuck n).1 _ _ _ hc
        · intro h
          have hno := (textIs_noBlank hw).1
          unfold St.peekSpace at h
          cases hr : w ++ c with
          | nil => simp [hr] at h
          | cons d ds =>
            simp only [hr] at h hno
            exact hno d rfl ((isSpace_iff d).1 h)

theorem inside_stuck {t : List Char} {inner : PM (Option Node)} (ht : Balanced t) (hne : t ≠ [])
    (p : Position) (r : List Char) (h : inner ⟨p.toRight 1, t⟩ = .diverge) :
    matchInsideBlock inner ⟨p, '{' :: t ++ '}' :: r⟩ = .diverge := by
  unfold matchInsideBlock
  rw [run_get_bind, run_ok_bind (C40_block_partial ht hne p r), run_set_bind]
  exact run_diverge_bind h

/-- A directive whose span has a word followed by a comment. -/
theorem matchDirective_stuck {w c : List Char} (hw : TextIs w c) (hc : CommentStart c)
    (hb : Balanced (w ++ c)) (p : Position) (r : List Char) : ∀ n,
    matchDirective n .block ⟨p, '\\' :: 'b' :: '{' :: ((w ++ c) ++ '}' :: r)⟩ = .diverge
  | 0 => by rw [matchDirective]; rfl
  | n + 1 => by
    refine (matchDirective_named (name := ['b']) (type := .bold) (by refine ⟨by decide, by simp⟩)
      (by intro d hd; cases hd; decide) (by decide) (by decide) (by decide) p).trans ?_
    unfold directiveRest
    rw [run_get_bind, if_neg (by simp [St.peek]), run_pure_bind, run_get_bind,
      if_pos (by simp [St.peek])]
    refine run_diverge_bind ?_
    match n with
    | 0 => rw [matchDirectiveContent]; rfl
    | n + 1 =>
      rw [show contentTypeOf .bold = .span from rfl, matchDirectiveContent]
      exact inside_stuck hb (by simp [hw.nonempty]) _ _ (spanInside_stuck hw hc _ _)

end Bmd

/-- Violation: documents with a word and a comment right after it in a span, such as
`\b{word// comment`, keep the parser busy for ever. -/
theorem C41_diverges_violation {w c : List Char} (hw : TextIs w c) (hc : CommentStart c)
    (hb : Balanced (w ++ c)) (r : List Char) (n : Nat) :
    parse n ('\\' :: 'b' :: '{' :: ((w ++ c) ++ '}' :: r)) = .diverge := by
  unfold parse matchDocument
  rw [run_ok_bind (noBlank_matchBlank (noBlank_backslash _)), run_get_bind, run_ite,
    if_neg (by simp [St.eof])]
  match n with
  | 0 => rw [matchContent]; rfl
  | n + 1 =>
    rw [matchContent, run_get_bind]
    match n with
    | 0 => rw [contentLoop]; rfl
    | n + 1 =>
      rw [contentLoop, run_get_bind, run_ite, if_neg (by simp [St.eof]), run_require_bind,
        if_pos (by simp [St.peekSpace, isSpace]), run_ite,
        if_pos (by simp [possibleDirective, isEscapeable])]
      exact run_diverge_bind (matchDirective_stuck hw hc hb _ _ _)

/-- Such a word and comment. -/
theorem C41_diverges_sample : TextIs ['a'] "//x\n".toList ∧ CommentStart "//x\n".toList ∧
    Balanced (['a'] ++ "//x\n".toList) := by
  have e : "//x\n".toList = '/' :: '/' :: (['x'] ++ ['\n']) ++ [] := by decide
  have hc : CommentStart "//x\n".toList := ⟨['x', '\n'], .inl (by decide)⟩
  refine ⟨⟨by simp, ?_, ?_, ?_, ?_, ?_⟩, hc, ?_⟩
  · intro c h; cases h; unfold Space; decide
  · intro c h; cases h; unfold Space; decide
  · exact .char (by decide) (not_commentStart_of_ne (by decide) _) .nil
  · rintro ⟨a, ws, b, h, -⟩
    rcases a with _ | ⟨_, _ | ⟨_, _⟩⟩ <;> simp at h
  · exact ⟨[], _, rfl, by simp, .inr (.inl hc)⟩
  · refine .plain (by decide) (by decide) (by decide) (by decide) ?_
    rw [e]
    exact .line (c := '/' :: '/' :: (['x'] ++ ['\n'])) ⟨['x'], by decide, rfl⟩ .nil

namespace Bmd

/-- The run ends with an exception. -/
def Res.isThrows : Res α → Bool
  | .throws => true
  | _ => false

/-- The run ends with undefined behavior. -/
def Res.isUb : Res α → Bool
  | .ub => true
  | _ => false

theorem throws_of {r : Res α} (h : r.isThrows = true) : r = .throws := by
  cases r <;> first | rfl | cases h

theorem ub_of {r : Res α} (h : r.isUb = true) : r = .ub := by
  cases r <;> first | rfl | cases h

theorem parse_throws {source : List Char} {n m : Nat} (h : (parse n source).isThrows = true)
    (hm : n ≤ m) : parse m source = .throws := by
  rw [parse_mono hm (by rw [throws_of h]; simp), throws_of h]

theorem parse_ub {source : List Char} {n m : Nat} (h : (parse n source).isUb = true)
    (hm : n ≤ m) : parse m source = .ub := by
  rw [parse_mono hm (by rw [ub_of h]; simp), ub_of h]

end Bmd

/-- Violation: the documents `\b{}`, `a //` and `\meta{\title{x/**/}}` make the parser throw. -/
theorem C41_throws_violation {n : Nat} (hn : 20 ≤ n) :
    parse n "\\b{}".toList = .throws ∧ parse n "a //".toList = .throws ∧
    parse n "\\meta{\\title{x/**/}}".toList = .throws :=
  ⟨parse_throws (by decide +kernel) hn, parse_throws (by decide +kernel) hn,
    parse_throws (by decide +kernel) hn⟩

/-- Violation: a directive whose name comes after all known names, such as `\var`, reads past the
table. -/
theorem C41_ub_violation {n : Nat} (hn : 20 ≤ n) : parse n "\\var{x}".toList = .ub :=
  parse_ub (by decide +kernel) hn

namespace Bmd

theorem viewLess_iff (a b : List Char) : viewLess a b = true ↔ a < b := by
  induction a generalizing b with
  | nil => cases b <;> simp [viewLess]
  | cons x xs ih =>
    cases b with
    | nil => simp [viewLess]
    | cons y ys =>
      rw [viewLess, List.cons_lt_cons_iff, Char.lt_def, UInt32.lt_iff_toNat_lt]
      show _ ↔ x.toNat < y.toNat ∨ _
      split
      · next h => simp [h]
      · next h =>
        split
        · next h' =>
          simp only [Bool.false_eq_true, h, false_or, false_iff, not_and]
          rintro rfl; omega
        · next h' =>
          have : x = y := Char.toNat_inj.1 (by omega)
          simp [ih, this]

end Bmd

/-- Documents in which comments follow white space, which do not end where a comment starts, which
have no empty braces and no directives with names after `ul` in the alphabet: the parser ends, and
it returns a document or an error with a place in the text. -/
theorem C41_partial {source : List Char}
    (tight : ∀ a c d b, source = a ++ c :: '/' :: d :: b → d = '/' ∨ d = '*' → Space c)
    (tail : ∀ a, source ≠ a ++ ['/', '/'] ∧ source ≠ a ++ ['/', '*'])
    (empty : ∀ a b, source ≠ a ++ '{' :: '}' :: b)
    (names : ∀ a name r, source = a ++ '\\' :: (name ++ r) → Ident name →
      (∀ c, r.head? = some c → ¬ IdentPart c) → name ≤ "ul".toList) :
    ∃ res, (∀ n, 4 * source.length + 11 ≤ n → parse n source = res) ∧
      ((∃ root, res = .ok root ⟨after ⟨0, 0, 0⟩ source, []⟩ ∧ DocumentIs root source) ∨
       ∃ code rule t u, source = t ++ u ∧ res = .err code rule (after ⟨0, 0, 0⟩ t)) := by
  have ht : Tame source := by
    refine ⟨tight, ?_, empty, ?_⟩
    · rintro x d h (rfl | rfl)
      · exact absurd h (tail x).1
      · exact absurd h (tail x).2
    · intro a name r h h1 h2
      have := names a name r h h1 h2
      rw [Bool.eq_false_iff]
      intro hv
      rw [viewLess_iff] at hv
      exact absurd hv (List.not_lt.2 this)
  have hf := parse_fine ht (Nat.le_refl _)
  have hs := parse_sound (4 * source.length + 11) source
  cases hp : parse (4 * source.length + 11) source with
  | ok root s =>
    rw [hp] at hs
    obtain ⟨t, h1, h2, h3, h4⟩ := hs
    simp only at h1 h2
    rw [h3, List.append_nil] at h1
    subst h1
    refine ⟨.ok root s, fun n hn => ?_, .inl ⟨root, ?_, h4⟩⟩
    · rw [parse_mono hn (by rw [hp]; simp), hp]
    · rw [← h2, ← h3]
  | err c r q =>
    rw [hp] at hs
    obtain ⟨t, u, h1, rfl, -⟩ := hs
    refine ⟨_, fun n hn => ?_, .inr ⟨c, r, t, u, h1, rfl⟩⟩
    rw [parse_mono hn (by rw [hp]; simp), hp]
  | throws => rw [hp] at hf; exact hf.elim
  | ub => rw [hp] at hf; exact hf.elim
  | diverge => rw [hp] at hf; exact hf.elim

/-- The number of steps does not matter beyond what is needed. -/
theorem C41_steps {source : List Char} {n m : Nat} (hnm : n ≤ m) (h : parse n source ≠ .diverge) :
    parse m source = parse n source := parse_mono hnm h

namespace Bmd

/-- A check of all suffixes. -/
theorem suffixes {P : List Char → Bool} {source : List Char}
    (h : (List.range (source.length + 1)).all (fun i => P (source.drop i)) = true) :
    ∀ a b, source = a ++ b → P b = true := by
  rintro a b rfl
  rw [List.all_eq_true] at h
  have := h a.length (by simp; omega)
  rwa [List.drop_left] at this

def checkTight : List Char → Bool
  | c :: '/' :: d :: _ => isSpace c || !(d = '/' || d = '*')
  | _ => true

def checkEmpty : List Char → Bool
  | '{' :: '}' :: _ => false
  | _ => true

def checkTail (t : List Char) : Bool := !(t = ['/', '/'] || t = ['/', '*'])

def checkNames : List Char → Bool
  | '\\' :: t => (List.range (t.length + 1)).all fun i =>
      !(isIdentifier (t.take i)) || !viewLess "ul".toList (t.take i)
  | _ => true

end Bmd

/-- A document that meets the conditions of `C41_partial`. -/
theorem C41_sample : ∃ source : List Char, source = "\\h1{A}\n\nx \\b{y} // c\n".toList ∧
    (∀ a c d b, source = a ++ c :: '/' :: d :: b → d = '/' ∨ d = '*' → Space c) ∧
    (∀ a, source ≠ a ++ ['/', '/'] ∧ source ≠ a ++ ['/', '*']) ∧
    (∀ a b, source ≠ a ++ '{' :: '}' :: b) ∧
    (∀ a name r, source = a ++ '\\' :: (name ++ r) → Ident name →
      (∀ c, r.head? = some c → ¬ IdentPart c) → name ≤ "ul".toList) := by
  refine ⟨_, rfl, ?_, ?_, ?_, ?_⟩
  · intro a c d b h hd
    have := suffixes (P := checkTight) (by decide +kernel) a _ h
    rw [← isSpace_iff]
    simp only [checkTight, Bool.or_eq_true] at this
    rcases this with h | h
    · exact h
    · rcases hd with rfl | rfl <;> simp at h
  · intro a
    constructor <;> intro h <;>
      exact absurd (suffixes (P := checkTail) (by decide +kernel) a _ h) (by decide)
  · intro a b h
    exact absurd (suffixes (P := checkEmpty) (by decide +kernel) a _ h) (by simp [checkEmpty])
  · intro a name r h hid _
    have := suffixes (P := checkNames) (by decide +kernel) a _ h
    simp only [checkNames, List.all_eq_true] at this
    have := this name.length (by simp; omega)
    rw [List.take_left, (C18_is_identifier name).2 hid] at this
    have hv : ¬ viewLess "ul".toList name = true := by simpa using this
    rw [viewLess_iff] at hv
    exact List.not_lt.1 hv

/-! ### C61: what the tree means -/

/-- What the parser returns is the tree of the whole text. -/
theorem C61_sound {source : List Char} {n : Nat} {root : Option Node} {s : St}
    (h : parse n source = .ok root s) : DocumentIs root source ∧ s.rest = [] := by
  have hs := parse_sound n source
  rw [h] at hs
  obtain ⟨t, h1, -, h3, h4⟩ := hs
  simp only at h1
  rw [h3, List.append_nil] at h1
  subst h1
  exact ⟨h4, h3⟩

/-- Errors have a place in the text. -/
theorem C61_located {source : List Char} {n : Nat} {c : Code} {r : Rule} {q : Position}
    (h : parse n source = .err c r q) : ∃ t u, source = t ++ u ∧ q = after ⟨0, 0, 0⟩ t := by
  have hs := parse_sound n source
  rw [h] at hs
  obtain ⟨t, u, h1, h2, -⟩ := hs
  exact ⟨t, u, h1, h2⟩

/-- A document with a heading, a paragraph with two elements, a break and another paragraph, as the
parser returns it. -/
theorem C61_sample : (match parse 60 "\\h1{x}\n\na \\b{c}\n\nd".toList with
    | .ok (some (.list _ _ [.directive _ 6 .heading1 _ [] (some (.list _ 1 [.text _ _ ['x']])),
        .list _ _ [.text q _ ['a'], .directive _ 5 .bold _ [] (some (.list _ 1 [.text _ _ ['c']]))],
        .list _ _ [.text _ _ ['d']]])) _ => decide (q = ⟨2, 0, 8⟩)
    | _ => false) = true := by decide +kernel

/-- Violation: the node of a paragraph says that it starts where the paragraph before it ended, which
is before the heading here. -/
theorem C61_paragraph_violation : (match parse 60 "\\h1{x}\n\ntext".toList with
    | .ok (some (.list _ _ [_, .list p _ [.text q _ _]])) _ =>
      decide (p = ⟨0, 0, 0⟩) && decide (q = ⟨2, 0, 8⟩)
    | _ => false) = true := by decide +kernel

/-- Violation: the number 18446744073709551615 is read as -1. -/
theorem C61_number_violation : (match parse 60 "\\br[a=18446744073709551615]".toList with
    | .ok (some (.list _ _ [.list _ _ [.directive _ _ .line_break _ [(['a'], .number _ _ v _)] none]])) _ =>
      decide (v = -1)
    | _ => false) = true := by decide +kernel

/-- Violation: a space at the end of a title is an error. -/
theorem C61_space_violation : (match parse 60 "\\meta{\\title{x }}".toList with
    | .err .paragraph_break_in_span _ _ => true
    | _ => false) = true := by decide +kernel

end Bms
