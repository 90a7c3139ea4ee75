import Verif.Lemmas.BmdAccept

/-!
Properties of BMD documents, continued.

* C62: the parser accepts every document that is written as `DocumentIs` says, if its comments follow
  spaces and its numbers are small; the tree of such a document is determined by the text.
-/

namespace Bms

open Bmd
open Spec (Ident IdentPart Literal LowerCase)

/-- A document whose comments follow spaces and whose numbers fit is accepted, and the tree is the
one that is written, up to the spans of paragraphs. Missing: comments that follow something else
(`C62_comment_violation`), upper case digits (`C62_upper_case_violation`), and numbers of more than 63
bits (`C62_number_violation`). -/
theorem C62_accepts_partial {source : List Char} {root : Option Node}
    (tight : ∀ a c d b, source = a ++ c :: '/' :: d :: b → d = '/' ∨ d = '*' → Space c)
    (numbers : ∀ a b t r k m, source = a ++ '=' :: (b ++ t ++ r) → BlankText b false → Literal k t m →
      LowerCase t ∧ m < 2 ^ 63)
    (h : DocumentIs root source) :
    ∃ root', plainBlock root' = plainBlock root ∧ ∀ n, 4 * source.length + 11 ≤ n →
      parse n source = .ok root' ⟨after ⟨0, 0, 0⟩ source, []⟩ :=
  parse_accept h ⟨tight, numbers⟩

/-- The tree of such a document is determined by its text. -/
theorem C62_unique_partial {source : List Char} {root root' : Option Node}
    (tight : ∀ a c d b, source = a ++ c :: '/' :: d :: b → d = '/' ∨ d = '*' → Space c)
    (numbers : ∀ a b t r k m, source = a ++ '=' :: (b ++ t ++ r) → BlankText b false → Literal k t m →
      LowerCase t ∧ m < 2 ^ 63)
    (h : DocumentIs root source) (h' : DocumentIs root' source) :
    plainBlock root = plainBlock root' := by
  obtain ⟨r1, h1, h2⟩ := parse_accept h ⟨tight, numbers⟩
  obtain ⟨r2, h3, h4⟩ := parse_accept h' ⟨tight, numbers⟩
  have := h2 _ (Nat.le_refl _)
  rw [h4 _ (Nat.le_refl _)] at this
  simp only [Res.ok.injEq, and_true] at this
  rw [← h1, ← h3, this]

/-- With the conditions of `C41_partial`, there is an error exactly if the text is no document. -/
theorem C62_rejects_partial {source : List Char}
    (tight : ∀ a c d b, source = a ++ c :: '/' :: d :: b → d = '/' ∨ d = '*' → Space c)
    (numbers : ∀ a b t r k m, source = a ++ '=' :: (b ++ t ++ r) → BlankText b false → Literal k t m →
      LowerCase t ∧ m < 2 ^ 63)
    (tail : ∀ a, source ≠ a ++ ['/', '/'] ∧ source ≠ a ++ ['/', '*'])
    (empty : ∀ a b, source ≠ a ++ '{' :: '}' :: b)
    (names : ∀ a name r, source = a ++ '\\' :: (name ++ r) → Ident name →
      (∀ c, r.head? = some c → ¬ IdentPart c) → name ≤ "ul".toList)
    {n : Nat} (hn : 4 * source.length + 11 ≤ n) :
    (∃ code rule q, parse n source = .err code rule q) ↔ ¬ ∃ root, DocumentIs root source := by
  constructor
  · rintro ⟨c, r, q, h⟩ ⟨root, hd⟩
    obtain ⟨root', -, h'⟩ := parse_accept hd ⟨tight, numbers⟩
    rw [h' n hn] at h
    cases h
  · intro hno
    obtain ⟨res, h1, ⟨root, -, h2⟩ | ⟨code, rule, t, u, -, h2⟩⟩ := C41_partial tight tail empty names
    · exact absurd ⟨root, h2⟩ hno
    · exact ⟨code, rule, _, by rw [h1 n hn, h2]⟩

namespace Bmd

/-- The parts of an identifier or literal at the start of a text. -/
theorem parts_prefix {t r u : List Char} {c : Char} {w : List Char} (h : ∀ d ∈ t, IdentPart d)
    (hu : ∀ d ∈ u, IdentPart d) (hc : ¬ IdentPart c) (he : t ++ r = u ++ c :: w) :
    ∃ v, u = t ++ v := by
  rcases List.append_eq_append_iff.1 he with ⟨x, h1, -⟩ | ⟨x, h1, h2⟩
  · exact ⟨x, h1⟩
  · cases x with
    | nil => exact ⟨[], by simpa using h1.symm⟩
    | cons d ds =>
      simp only [List.cons_append, List.cons.injEq] at h2
      exact absurd (h d (by rw [h1]; simp)) (by rw [← h2.1]; exact hc)

def shape : Res (Option Node) → Bool
  | .ok (some (.list p len [_, _, _])) _ => p = ⟨0, 0, 0⟩ && len = 37
  | _ => false

theorem shape_ok {r : Res (Option Node)} (h : shape r = true) :
    ∃ children s, r = .ok (some (.list ⟨0, 0, 0⟩ 37 children)) s ∧ children.length = 3 := by
  unfold shape at h
  split at h
  · simp only [Bool.and_eq_true, decide_eq_true_eq] at h
    obtain ⟨rfl, rfl⟩ := h
    exact ⟨_, _, rfl, rfl⟩
  · cases h

def checkEquals : List Char → Bool
  | '=' :: t => t = "12]{c}\n\n// z\nd".toList
  | _ => true

end Bmd

/-- A document that meets the conditions of `C62_accepts_partial`, with an argument, a comment and a
paragraph break. -/
theorem C62_sample : ∃ source : List Char, source = "\\h1{x}\n\na /* y */ \\b[n=12]{c}\n\n// z\nd".toList ∧
    (∀ a c d b, source = a ++ c :: '/' :: d :: b → d = '/' ∨ d = '*' → Space c) ∧
    (∀ a b t r k m, source = a ++ '=' :: (b ++ t ++ r) → BlankText b false → Literal k t m →
      LowerCase t ∧ m < 2 ^ 63) ∧
    ∃ children, DocumentIs (some (.list ⟨0, 0, 0⟩ 37 children)) source ∧ children.length = 3 := by
  refine ⟨_, rfl, ?_, ?_, ?_⟩
  · intro a c d b h hd
    have := suffixes (P := checkTight) (by decide +kernel) a _ h
    rw [← isSpace_iff]
    simp only [checkTight, Bool.or_eq_true] at this
    rcases this with h | h
    · exact h
    · rcases hd with rfl | rfl <;> simp at h
  · intro a b t r k m h hB hl
    have := suffixes (P := checkEquals) (by decide +kernel) a _ h
    simp only [checkEquals, decide_eq_true_eq] at this
    have e : "12]{c}\n\n// z\nd".toList = ['1', '2'] ++ ']' :: "{c}\n\n// z\nd".toList := by decide
    rw [e] at this
    have hb : b = [] := by
      rcases blankText_head hB with h | ⟨c, cs, rfl, hc⟩
      · exact h
      · simp only [List.cons_append, List.cons.injEq] at this
        rw [this.1] at hc
        rcases hc with (h | h | h | h) | h <;> cases h
    subst hb
    obtain ⟨v, hv⟩ := parts_prefix (literal_parts hl) (by decide) (by decide) this
    have ht : t = ['1'] ∨ t = ['1', '2'] := by
      have hne := literal_ne_nil hl
      match t, hne, hv with
      | [c], _, hv => simp at hv; exact .inl (by rw [hv.1])
      | [c, d], _, hv => simp at hv; exact .inr (by rw [hv.1, hv.2.1])
      | _ :: _ :: _ :: _, _, hv => simp at hv
    have h1 : Literal .decimal ['1'] 1 := .decimal (by decide) ⟨[1], by decide, by decide, by decide⟩
    have h2 : Literal .decimal ['1', '2'] 12 :=
      .decimal (by decide) ⟨[1, 2], by decide, by decide, by decide⟩
    rcases ht with rfl | rfl
    · rw [(literal_unique hl h1).2]; exact ⟨by unfold LowerCase; decide, by decide⟩
    · rw [(literal_unique hl h2).2]; exact ⟨by unfold LowerCase; decide, by decide⟩
  · have h : shape (parse 200 "\\h1{x}\n\na /* y */ \\b[n=12]{c}\n\n// z\nd".toList) = true := by
      decide +kernel
    obtain ⟨children, s, he, hl⟩ := shape_ok h
    exact ⟨children, (C61_sound he).1, hl⟩

namespace Bmd

/-- A document that is a single directive in a paragraph. -/
theorem single_document {node : Node} {t : List Char} (hw : Written node ⟨0, 0, 0⟩ ('\\' :: t) [])
    (hal : Allowed .block node) (hst : standsAlone node = false) {u : List Char} (hu : u = '\\' :: t) :
    ∃ root, DocumentIs (some root) u := by
  subst hu
  have hS : Series .block [(node, false)] ⟨0, 0, 0⟩ ('\\' :: t ++ [] ++ []) :=
    .cons hw hal blankText_nil noBlank_nil .nil
  rw [List.append_nil, List.append_nil] at hS
  have hsh : Shows 0 (0 + ('\\' :: t).length) (paragraphs [(node, false)])
      [.list ⟨0, 0, 0⟩ ('\\' :: t).length [node]] := by
    simp only [paragraphs, hst, Bool.false_eq_true, if_false, joinFront]
    refine .paragraph ⟨Nat.le_refl _, Nat.le_refl _⟩ (fun n hn => ?_) .nil
    rw [List.mem_singleton.1 hn]
    refine ⟨Nat.zero_le _, ?_⟩
    generalize '\\' :: t = u at hw ⊢
    cases hw <;> exact Nat.le_refl _
  exact ⟨_, .content (b := []) blankText_nil (noBlank_backslash t) (by simp) hS hsh⟩

theorem blockText_span {t : List Char} {nodes : List (Node × Bool)} (hbal : Balanced t) (hne : t ≠ [])
    (hN : NoBlank t) (hS : Series .span nodes (after ⟨0, 0, 0⟩ "\\b{".toList) t)
    (hall : ∀ n ∈ nodes, n.2 = false) :
    ∃ root, DocumentIs (some root) ('\\' :: 'b' :: '{' :: t ++ ['}']) := by
  have hb := BlockIs.span (p := after ⟨0, 0, 0⟩ "\\b".toList) (b := []) hbal hne blankText_nil hN hS hall
  have hw : Written _ ⟨0, 0, 0⟩ _ ([] ++ []) := Written.directive (p := ⟨0, 0, 0⟩) (r := [])
    (name := ['b']) (type := .bold) (a := []) (args := []) (by unfold Ident; decide) (by decide) .none hb
    (by intro c hc; simp at hc; subst hc; decide) (by simp) (by simp)
  exact single_document hw rfl rfl rfl

end Bmd

/-- Violation: a document is written, but the parser never ends, as a comment in bold text does not
follow a space. -/
theorem C62_comment_violation : ∃ root, DocumentIs (some root) "\\b{x/**/}".toList ∧
    ∀ n, parse n "\\b{x/**/}".toList = .diverge := by
  have hcom : BlockComment "/**/".toList := by
    refine ⟨[], by decide, ?_⟩
    intro a b h
    exact closesOnce_nil a b h
  have htext : TextIs ['x'] "/**/".toList := by
    refine ⟨by simp, ?_, ?_, .char (by decide) ?_ .nil, ?_, ?_⟩
    · intro c hc; simp at hc; subst hc; unfold Space; decide
    · intro c hc; simp at hc; subst hc; unfold Space; decide
    · exact not_commentStart_of_ne (by decide) _
    · rintro ⟨a, ws, b, h, -⟩
      have := congrArg List.length h
      simp at this
      omega
    · exact ⟨[], "/**/".toList, rfl, by simp, .inr (.inl ⟨_, .inr rfl⟩)⟩
  have hbal : Balanced (['x'] ++ "/**/".toList) := by
    refine .plain (by decide) (by decide) (by decide) (by decide) ?_
    have := Balanced.comment hcom .nil
    simpa using this
  have hS : Series .span [(_, false)] (after ⟨0, 0, 0⟩ "\\b{".toList) (['x'] ++ "/**/".toList ++ []) :=
    Series.cons (.text (by rw [List.append_nil]; exact htext)) (.inl rfl)
      ⟨["/**/".toList], by
        intro x hx; rw [List.mem_singleton.1 hx]; exact .inr (.inr hcom), by simp, by
        simp only [Bool.false_eq_true, false_iff]
        rintro ⟨a, x, ws, b, h, -, -⟩
        have := congrArg List.length h
        simp at this
        omega⟩ noBlank_nil .nil
  rw [List.append_nil] at hS
  obtain ⟨root, h⟩ := blockText_span hbal (by simp) (noBlank_char (by unfold Space; decide) (by decide) _)
    hS (by simp)
  exact ⟨root, h, fun n => C41_diverges_violation htext ⟨_, .inr rfl⟩ hbal [] n⟩

/-- Violation: a number of 64 to 127 bits in an argument is accepted and read as another number, because it is
cast to 64 bits. -/
theorem C62_number_violation {k : LiteralType} {t r : List Char} {m : Nat} (h : Literal k t m)
    (hl : LowerCase t) (h1 : 2 ^ 63 ≤ m) (h2 : m < 2 ^ 127) (hr : ∀ c, r.head? = some c → ¬ IdentPart c)
    (p : Position) : ∃ v : Int, matchValue ⟨p, t ++ r⟩ = .ok (.number p t.length v k) ⟨after p t, r⟩ ∧
      v ≠ m ∧ v < 2 ^ 63 ∧ (2 ^ 64 : Int) ∣ m - v := by
  refine ⟨toInt64 m, ?_, ?_⟩
  · unfold matchValue
    have := literal_start h
    rw [run_get_bind, run_ite, if_pos (by cases t <;> simp_all), matchLiteral_reads h hr hl h2]
  · unfold toInt64
    rw [BitVec.toInt_ofInt]
    have a := Int.bmod_lt (x := (m : Int)) (m := 2 ^ 64) (by decide)
    refine ⟨by omega, by omega, ?_⟩
    exact ⟨(m : Int).bdiv (2 ^ 64), by have := Int.bmod_eq_self_sub_mul_bdiv m (2 ^ 64); omega⟩

/-- Such a number. -/
theorem C62_number_sample : Literal .decimal "9223372036854775808".toList (2 ^ 63) ∧
    LowerCase "9223372036854775808".toList :=
  ⟨.decimal (by decide) ⟨[9, 2, 2, 3, 3, 7, 2, 0, 3, 6, 8, 5, 4, 7, 7, 5, 8, 0, 8], by decide, by decide, by decide⟩,
    by unfold LowerCase; decide⟩

/-- Violation: a number with an upper case digit is written, but it is an error. -/
theorem C62_upper_case_violation : ∃ root, DocumentIs (some root) "\\br[a=0xF]".toList ∧
    ∀ n, 60 ≤ n → ∃ q, parse n "\\br[a=0xF]".toList
      = .err .invalid_integer_literal .decimal_literal q := by
  have hlit : Literal .hexadecimal "0xF".toList 15 := .hexadecimal (by decide) ⟨[15], by decide, by decide, by decide⟩
  have hv : ValueIs (.number (after ⟨0, 0, 0⟩ "\\br[a=".toList) 3 0 .hexadecimal)
      (after ⟨0, 0, 0⟩ "\\br[a=".toList) "0xF".toList := by
    refine .number (t := "0xF".toList) ⟨15, hlit, fun hl => ?_⟩
    exact absurd (by decide : Spec.InRange 'A' 'F' 'F') (hl 'F' (by decide))
  have ha : ArgumentsIs [(['a'], _)] (after ⟨0, 0, 0⟩ "\\br".toList) "[a=0xF]".toList :=
    .some (ArgsIs.last (p := after ⟨0, 0, 0⟩ "\\br[".toList) (b1 := []) (b2 := []) (b3 := []) (b4 := [])
      (t := "0xF".toList) (name := ['a']) blankText_nil (by unfold Ident; decide) (by simp) blankText_nil
      blankText_nil hv blankText_nil)
  have hw : Written _ ⟨0, 0, 0⟩ _ [] := Written.directive (p := ⟨0, 0, 0⟩) (r := [])
    (name := "br".toList) (type := .line_break) (b := []) (by show Ident ['b', 'r']; unfold Ident; decide)
    (by decide) ha .none (by intro c hc; simp at hc; subst hc; decide) (by simp) (by simp)
  obtain ⟨root, h⟩ := single_document hw rfl rfl rfl
  refine ⟨root, h, fun n hn => ?_⟩
  have hp : (match parse 60 "\\br[a=0xF]".toList with
      | .err .invalid_integer_literal .decimal_literal _ => true
      | _ => false) = true := by decide +kernel
  generalize hr : parse 60 "\\br[a=0xF]".toList = res at hp
  split at hp
  · next q =>
    exact ⟨q, by rw [parse_mono hn (by rw [hr]; simp), hr]⟩
  · cases hp

end Bms
