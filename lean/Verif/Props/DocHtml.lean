import Verif.Lemmas.DocHtmlDoc
import Verif.Lemmas.DocHtmlUses
import Verif.Props.Bmd
import Mathlib.Data.List.Infix

/-!
# C66, C67: documents as HTML
-/

namespace Bms

open Spec Bmd HtmlWriter

/-! ## C66: what is on the page -/

/-- **C66, partial.** If nothing is wrong with a document, the page is its text, directives, links,
attributes and code, in this order and nested in this way. What is missing: the page of a document in
which the name of an instruction has a double quote (see `C66_quote_violation`), and of one in which
code has carriage returns (see `C67_return_violation`). That directives with arguments and without a
block are missing is necessary (see `C66_iff_partial`). -/
theorem C66_page_partial {order : List (List Char × Bmd.Value) → List (List Char × Bmd.Value)} (hw : Walk order)
    (options : DocOptions) (hsheets : ∀ s ∈ options.stylesheets, PlainValue s)
    {n : Nat} {source : List Char} {root : Option Node} {s : St} (h : Bmd.parse n source = .ok root s)
    (he : EverywhereBlock Presentable root) (hf : rootFaults root = []) :
    ∃ w t, docToHtml order options root = .ok w ∧ w.text = "<!DOCTYPE html>\n".toList ++ t ∧
      Shown true (page options.stylesheets (rootItems order root)) t true :=
  (doc_goes hw options hsheets root (document_sane (C61_sound h).1) he).1 hf

/-- **C66, partial: faults.** If something is wrong with a document, then the first fault decides how the
conversion ends: with an error that says what is wrong and where, or with an exception, or with
undefined behaviour. -/
theorem C66_fault_partial {order : List (List Char × Bmd.Value) → List (List Char × Bmd.Value)} (hw : Walk order)
    (options : DocOptions) (hsheets : ∀ s ∈ options.stylesheets, PlainValue s)
    {n : Nat} {source : List Char} {root : Option Node} {s : St} (h : Bmd.parse n source = .ok root s)
    (he : EverywhereBlock Presentable root) {f : Fault} {fs : List Fault} (hf : rootFaults root = f :: fs) :
    docToHtml order options root = f.outcome :=
  (doc_goes hw options hsheets root (document_sane (C61_sound h).1) he).2 f fs hf

/-- **C66: no page without closed elements.** If a directive that is shown as a tag has arguments and no
block, anywhere in the document, then there is no page. This needs no other condition. -/
theorem C66_unclosed {order : List (List Char × Bmd.Value) → List (List Char × Bmd.Value)} {options : DocOptions}
    {n : Nat} {source : List Char} {root : Option Node} {s : St} (h : Bmd.parse n source = .ok root s)
    (hn : ¬ EverywhereBlock (fun t a b => Closed t a b) root) (w : HtmlWriter) :
    docToHtml order options root ≠ .ok w :=
  fun hw => hn (doc_unclosed (document_sane (C61_sound h).1) hw)

/-- **C66, partial: which documents have a page.** -/
theorem C66_iff_partial {order : List (List Char × Bmd.Value) → List (List Char × Bmd.Value)} (hw : Walk order)
    (options : DocOptions) (hsheets : ∀ s ∈ options.stylesheets, PlainValue s)
    {n : Nat} {source : List Char} {root : Option Node} {s : St} (h : Bmd.parse n source = .ok root s)
    (he : EverywhereBlock (fun t _ b => Linkable t b ∧ Showable t b) root) :
    (∃ w, docToHtml order options root = .ok w) ↔
      EverywhereBlock (fun t a b => Closed t a b) root ∧ rootFaults root = [] := by
  constructor
  · rintro ⟨w, hd⟩
    have hc := doc_unclosed (document_sane (C61_sound h).1) hd
    refine ⟨hc, ?_⟩
    cases hf : rootFaults root with
    | nil => rfl
    | cons f fs =>
      rw [C66_fault_partial hw options hsheets h (EverywhereBlock.and root hc he) hf] at hd
      cases f <;> cases hd
  · rintro ⟨hc, hf⟩
    obtain ⟨w, t, hd, -⟩ := C66_page_partial hw options hsheets h (EverywhereBlock.and root hc he) hf
    exact ⟨w, hd⟩

/-- **C66, violation: directives that are not supported.** A document with `\br`, `\hr`, `\item`, `\note`,
`\c{…}` or `\instruction` without a block, anywhere, has no page. -/
theorem C66_unsupported_violation {order : List (List Char × Bmd.Value) → List (List Char × Bmd.Value)}
    (hw : Walk order) (options : DocOptions) (hsheets : ∀ s ∈ options.stylesheets, PlainValue s)
    {n : Nat} {source : List Char} {root : Option Node} {s : St} (h : Bmd.parse n source = .ok root s)
    (he : EverywhereBlock (fun t _ b => Linkable t b ∧ Showable t b) root)
    (hn : ¬ EverywhereBlock (fun t _ b => Supported t b) root) (w : HtmlWriter) :
    docToHtml order options root ≠ .ok w := by
  intro hd
  exact hn (root_supported (document_sane (C61_sound h).1)
    ((C66_iff_partial hw options hsheets h he).mp ⟨w, hd⟩).2)

namespace Shows

/-- The page of a text. -/
def pageOf (sheets : List String) (source : String) : Option (Conversion String) :=
  match Bmd.parse 100 source.toList with
  | .ok root _ =>
    some ((docToHtml id ⟨2, sheets.map String.toList⟩ root).map fun w => String.ofList w.text)
  | _ => none

/-- The content of the page of a text, without stylesheets. -/
def bodyOf (source : String) : Option (Conversion String) :=
  match Bmd.parse 100 source.toList with
  | .ok root _ => some ((docToHtml id ⟨2, []⟩ root).map fun w =>
      String.ofList ((w.text.drop 45).take (w.text.length - 61)))
  | _ => none

/-- The faults of a text. -/
def faultsOf (source : String) : Option (List Fault) :=
  match Bmd.parse 100 source.toList with
  | .ok root _ => some (rootFaults root)
  | _ => none

/-- Whether a directive is closed, linkable and showable. -/
def presentable (type : DirType) (args : List (List Char × Bmd.Value)) (block : Option Node) : Bool :=
  (!(isPassthrough type || decide (type = .title)) || args.isEmpty || block.isSome) &&
  (decide (type ≠ .instruction) || !(blockText block).contains '"') &&
  (decide (type ≠ .code_block) ||
    (!(blockText block).contains '\r' && decide (4 * (blockText block).length < 2 ^ 64)))

theorem presentable_sound {type : DirType} {args : List (List Char × Bmd.Value)} {block : Option Node}
    (h : presentable type args block = true) : Presentable type args block := by
  simp only [presentable, Bool.and_eq_true, Bool.or_eq_true, Bool.not_eq_true', decide_eq_true_eq,
    Bool.or_eq_false_iff, decide_eq_false_iff_not, List.isEmpty_iff, Option.isSome_iff_ne_none] at h
  obtain ⟨⟨h1, h2⟩, h3⟩ := h
  refine ⟨?_, ?_, ?_⟩
  · intro ht ha hb
    rcases h1 with (h1 | h1) | h1
    · rcases ht with ht | ht
      · rw [h1.1] at ht; cases ht
      · exact h1.2 ht
    · exact ha h1
    · exact h1 hb
  · intro ht
    rcases h2 with h2 | h2
    · exact absurd ht h2
    · intro hm
      rw [List.contains_iff_mem.mpr hm] at h2; cases h2
  · intro ht
    rcases h3 with h3 | ⟨h3, h4⟩
    · exact absurd ht h3
    · refine ⟨?_, h4⟩
      intro hm
      rw [List.contains_iff_mem.mpr hm] at h3; cases h3

mutual

/-- For all directives in a node. -/
def allPresentable : Node → Bool
  | .list _ _ children => allPresentableIn children
  | .directive _ _ type _ args block => presentable type args block && allPresentableBlock block
  | .text .. => true

/-- For all directives in nodes. -/
def allPresentableIn : List Node → Bool
  | [] => true
  | n :: ns => allPresentable n && allPresentableIn ns

/-- For all directives in a block. -/
def allPresentableBlock : Option Node → Bool
  | none => true
  | some n => allPresentable n

end

mutual

theorem all_sound (n : Node) (h : allPresentable n = true) : Everywhere Presentable n := by
  cases n with
  | list p len cs => exact allIn_sound cs h
  | text p len s => exact trivial
  | directive p len type name args block =>
    unfold allPresentable at h
    rw [Bool.and_eq_true] at h
    exact ⟨presentable_sound h.1, allBlock_sound block h.2⟩

theorem allIn_sound (ns : List Node) (h : allPresentableIn ns = true) : EverywhereIn Presentable ns := by
  cases ns with
  | nil => exact trivial
  | cons n ns =>
    unfold allPresentableIn at h
    rw [Bool.and_eq_true] at h
    exact ⟨all_sound n h.1, allIn_sound ns h.2⟩

theorem allBlock_sound (b : Option Node) (h : allPresentableBlock b = true) :
    EverywhereBlock Presentable b := by
  match b with
  | none => exact trivial
  | some n => exact all_sound n h

end

/-- Whether a text is that of a document that is presentable and has no faults. -/
def fitting (source : String) : Bool :=
  match Bmd.parse 100 source.toList with
  | .ok root _ => allPresentableBlock root && (rootFaults root).isEmpty
  | _ => false

theorem fitting_sound {source : String} (h : fitting source = true) :
    ∃ root s, Bmd.parse 100 source.toList = .ok root s ∧ EverywhereBlock Presentable root ∧
      rootFaults root = [] := by
  unfold fitting at h
  split at h
  · rename_i root s hp
    rw [Bool.and_eq_true, List.isEmpty_iff] at h
    exact ⟨root, s, hp, allBlock_sound root h.1, h.2⟩
  · cases h

end Shows

open Shows

/-- A document with a title, attributes, code and an instruction meets the conditions of C66. -/
theorem C66_sample : ∃ root s, Bmd.parse 100
      "\\meta{\\title{T}}\n\na \\b[id=x]{c}\n\n\\codeblock{let x = 1;}\n\\instruction[ext=bmi]{pdep}".toList =
        .ok root s ∧ EverywhereBlock Presentable root ∧ rootFaults root = [] :=
  fitting_sound (by decide +kernel)

/-- The page of this document. -/
theorem C66_sample_page : pageOf ["a.css"]
    "\\meta{\\title{T}}\n\na \\b[id=x]{c}\n\n\\codeblock{let x = 1;}\n\\instruction[ext=bmi]{pdep}" =
    some (.ok ("<!DOCTYPE html>\n<html>\n<head>\n  <link rel=stylesheet href=a.css/>\n</head>\n<body>\n" ++
      "<h1>T</h1>\n<p>\n  a <b id=x>c</b>\n</p>\n<pre>\n<c-key>let</c-key> <c-idn>x</c-idn> " ++
      "<c-opr>=</c-opr> <c-int>1</c-int><c-pun>;</c-pun>\n</pre>\n<p>\n" ++
      "  <a href=\"https://www.felixcloutier.com/x86/pdep\"><code>pdep</code></a><sup>bmi</sup>\n</p>\n" ++
      "</body>\n</html>\n")) := by decide +kernel

/-- **C66, violation.** `\sup` is shown as `sub`. -/
theorem C66_superscript_violation : bodyOf "2\\sup{3}" = some (.ok "<p>\n  2<sub>3</sub>\n</p>\n") := by
  decide +kernel

/-- **C66, violation.** A comment in a paragraph makes the conversion throw. -/
theorem C66_comment_violation : bodyOf "a /* c */ b" = some .throws := by decide +kernel

/-- **C66, violation.** Line breaks, rules, code, lists with attributes, items and extensions that are
numbers make the conversion throw. -/
theorem C66_throws_violation : ∀ source ∈ ["\\br", "\\hr", "\\c{x}", "\\ul[id=x]{ }", "\\ul{\\item{x}}",
    "\\note{x}", "\\b[x=y]", "\\instruction[ext=1]{x}", "\\codeblock[lang=c]{x}"],
    bodyOf source = some .throws := by decide +kernel

/-- **C66, violation.** An instruction without a block: a null pointer is dereferenced. -/
theorem C66_null_violation : bodyOf "\\instruction" = some .ub := by decide +kernel

/-- **C66, violation.** A double quote in the name of an instruction ends the attribute. -/
theorem C66_quote_violation : bodyOf "\\instruction{a\"b}" = some (.ok
    "<p>\n  <a href=\"https://www.felixcloutier.com/x86/a\"b\"><code>a\"b</code></a>\n</p>\n") := by
  decide +kernel

/-- The names of a language. -/
def Bmd.languageNames : Bmd.Language → List String
  | .plaintext => ["plain", "plaintext", "text", "raw"]
  | .bms => ["bms"]
  | .bmd => ["bmd"]
  | .c => ["c"]
  | .cxx => ["c++", "cxx", "cpp"]
  | .rust => ["rust"]

/-- The names of an architecture. -/
def Bmd.architectureNames : Bmd.Architecture → List String
  | .x86 => ["x86", "x86_64", "x86-64"]
  | .arm => ["arm"]
  | .risc_v => ["risc_v", "risc-v"]
  | .power => ["power", "power_pc", "power-pc"]
  | .sparc => ["sparc"]
  | .mips => ["mips"]
  | .ibm_z => ["ibm_z", "ibm-z"]

theorem Bmd.byName_iff {α : Type} {table : List (List Char × α)} (hd : (table.map Prod.fst).Nodup)
    {name : List Char} {x : α} : byName table name = some x ↔ (name, x) ∈ table := by
  unfold byName
  induction table with
  | nil => simp
  | cons e es ih =>
    obtain ⟨k, y⟩ := e
    rw [List.map_cons, List.nodup_cons] at hd
    by_cases hk : k = name
    · subst hk
      have : ∀ z, (k, z) ∉ es := fun z hz => hd.1 (List.mem_map.2 ⟨_, hz, rfl⟩)
      simp [List.find?_cons, this, eq_comm]
    · have hk' : name ≠ k := fun h => hk h.symm
      simp [List.find?_cons, hk, hk', ih hd.2]

/-- **C66: names.** The language of code is BMS unless an argument names another one; the architecture of an
instruction is x86 unless an argument names another one. -/
theorem C66_names (args : List (List Char × Bmd.Value)) :
    (∀ x, choice args "lang".toList languageTable .bms = some x ↔
      (findArgument args "lang".toList = none ∧ x = .bms) ∨
      ∃ p name, findArgument args "lang".toList = some (.ident p name.toList) ∧ name ∈ languageNames x) ∧
    ∀ x, choice args "arch".toList architectureTable .x86 = some x ↔
      (findArgument args "arch".toList = none ∧ x = .x86) ∨
      ∃ p name, findArgument args "arch".toList = some (.ident p name.toList) ∧ name ∈ architectureNames x := by
  have l1 : ∀ x, ∀ n ∈ languageNames x, (n.toList, x) ∈ languageTable := by
    intro x; cases x <;> decide
  have l2 : ∀ e ∈ languageTable, ∃ n ∈ languageNames e.2, n.toList = e.1 := by decide
  have a1 : ∀ x, ∀ n ∈ architectureNames x, (n.toList, x) ∈ architectureTable := by
    intro x; cases x <;> decide
  have a2 : ∀ e ∈ architectureTable, ∃ n ∈ architectureNames e.2, n.toList = e.1 := by decide
  have hl : (languageTable.map Prod.fst).Nodup := by decide
  have ha : (architectureTable.map Prod.fst).Nodup := by decide
  have key : ∀ {α : Type} (table : List (List Char × α)) (names : α → List String) (key : List Char) (d : α),
      (table.map Prod.fst).Nodup → (∀ x, ∀ n ∈ names x, (n.toList, x) ∈ table) →
      (∀ e ∈ table, ∃ n ∈ names e.2, n.toList = e.1) → ∀ x, choice args key table d = some x ↔
        (findArgument args key = none ∧ x = d) ∨
        ∃ p name, findArgument args key = some (.ident p name.toList) ∧ name ∈ names x := by
    intro α table names key d hd h1 h2 x
    unfold choice
    cases hf : findArgument args key with
    | none => simp [eq_comm]
    | some v =>
      cases v with
      | number => simp
      | ident p name =>
        simp only [byName_iff hd, reduceCtorEq, false_and, false_or, Option.some.injEq, Value.ident.injEq]
        constructor
        · intro h
          obtain ⟨n, hn, e⟩ := h2 _ h
          exact ⟨p, n, ⟨rfl, e.symm⟩, hn⟩
        · rintro ⟨q, n, ⟨-, rfl⟩, hn⟩
          exact h1 x n hn
  exact ⟨key _ _ _ _ hl l1 l2, key _ _ _ _ ha a1 a2⟩

/-- Code in plain text, an instruction of another architecture, and a language without a name. -/
theorem C66_names_sample (p : Position) :
    choice [("lang".toList, .ident p "raw".toList)] "lang".toList languageTable .bms = some .plaintext ∧
    choice [("arch".toList, .ident p "arm".toList)] "arch".toList architectureTable .x86 = some .arm ∧
    choice [("lang".toList, .ident p "pascal".toList)] "lang".toList languageTable .bms = none := by
  refine ⟨rfl, rfl, rfl⟩

/-! ## C67: code -/

/-- **C67, partial.** The text of the elements in which a program is shown is the program, apart from
white space at its ends. What is missing: programs with tabs, carriage returns, spaces at the ends of
lines, or tokens that span lines (see the violations below). -/
theorem C67_text_partial {args : List (List Char × Bmd.Value)} {p : Position} {len : Nat} {code : List Char}
    {ts : List Token} (hl : choice args "lang".toList languageTable .bms = some .bms)
    (ht : programTokens code = some ts) (htidy : Tidy code ts) :
    ∃ a b, (∀ c ∈ a, White c) ∧ (∀ c ∈ b, White c) ∧
      code = a ++ itemsText (blockCode args (some (.text p len code))) ++ b := by
  have e : blockCode args (some (.text p len code)) = codeItems code ts := by
    simp only [blockCode, hl, ht]
    rfl
  rw [e]
  exact tidy_text ht htidy

/-- **C67: plain text.** Code in plain text is shown as it is. -/
theorem C67_plain {args : List (List Char × Bmd.Value)} {p : Position} {len : Nat} {code : List Char}
    (hl : choice args "lang".toList languageTable .bms = some .plaintext) :
    itemsText (blockCode args (some (.text p len code))) = code := by
  simp only [blockCode, hl]
  simp [itemsText, itemText]

/-- **C67: categories.** The element in which a token is shown depends on its text only, as the table
`codeTag` says. -/
theorem C67_category {src : List Char} {ts : List Token} (h : tokenize src = some (ts, .ok ())) {t : Token}
    (ht : t ∈ ts) : spanTag t.type = codeTag (textOf src t) := token_tag h ht

/-- A program with two lines, strings of operators and a comment meets the conditions of C67. -/
theorem C67_sample : ∃ ts, programTokens "let x = 1; // c\n  x<<2".toList = some ts ∧
    Tidy "let x = 1; // c\n  x<<2".toList ts := by
  exact ⟨_, rfl, by decide +kernel, by decide +kernel, by decide +kernel, by decide +kernel⟩

/-- **C67, violation.** Behind a comment that spans lines, line ends are shown that are not in the code. -/
theorem C67_comment_violation : bodyOf "\\codeblock{/*\n*/a}" =
    some (.ok "<pre>\n<c-com>/*\n*/</c-com>\n  <c-idn>a</c-idn>\n</pre>\n") := by decide +kernel

/-- **C67, violation.** A tab is shown as four spaces, and spaces at the ends of lines are not shown. -/
theorem C67_space_violation : bodyOf "\\codeblock{a\tb  \nc}" =
    some (.ok "<pre>\n<c-idn>a</c-idn>    <c-idn>b</c-idn>\n<c-idn>c</c-idn>\n</pre>\n") := by
  decide +kernel

theorem spaces_text (w : HtmlWriter) (n : Nat) :
    (w.writeN ' ' n .whitespace).text = w.text ++ List.replicate n ' ' := by
  simp [HtmlWriter.text, writeN, HtmlWriter.write]

/-- **C67, violation.** Behind a carriage return, the columns begin at zero again, and the line is the
same: for `ab`, a carriage return, a space and `c`, the number of spaces that are written is 2⁶⁴ - 1,
wherever the code is in the document. -/
theorem C67_return_violation {c : Conv} (h : Good c) : ∃ w', tokenize "ab\r c".toList =
      some ([⟨⟨0, 0, 0⟩, 2, .identifier⟩, ⟨⟨0, 1, 4⟩, 1, .identifier⟩], .ok ()) ∧
    tokensToHtml "ab\r c".toList none
      [⟨⟨0, 0, 0⟩, 2, .identifier⟩, ⟨⟨0, 1, 4⟩, 1, .identifier⟩] c.writer = .ok w' ∧
    c.writer.text.length + (2 ^ 64 - 1) ≤ w'.text.length := by
  have hn : Name "c-idn".toList := isName (by decide)
  obtain ⟨w1, a1, a2, a3⟩ := token_goes (tag := "c-idn".toList) h "ab".toList hn
  obtain ⟨w2, b1, b2, b3⟩ : ∃ w2, w1.writeSourceGap ⟨0, 0, 0⟩ 2 ⟨0, 1, 4⟩ .pre = .ok w2 ∧
      w2 = w1.writeN ' ' (2 ^ 64 - 1) .whitespace ∧ w2.state = .normal := by
    refine ⟨_, ?_, rfl, a2⟩
    unfold writeSourceGap
    rw [a2]
    rfl
  have hg : Good { c with writer := w2 } := by
    refine ⟨.inl b3, ?_, h.title⟩
    have := a3.good.indent
    rw [b2]
    exact this
  obtain ⟨w3, d1, d2, d3⟩ := token_goes (tag := "c-idn".toList) hg "c".toList hn
  refine ⟨w3, by decide +kernel, ?_, ?_⟩
  · have e : tokensToHtml "ab\r c".toList none
        [⟨⟨0, 0, 0⟩, 2, .identifier⟩, ⟨⟨0, 1, 4⟩, 1, .identifier⟩] c.writer =
        (c.writer.execAll [.start ⟨"c-idn".toList, .pre⟩, .text "ab".toList .pre, .close ⟨"c-idn".toList, .pre⟩] >>=
          fun w => w.writeSourceGap ⟨0, 0, 0⟩ 2 ⟨0, 1, 4⟩ .pre >>= fun w =>
          w.execAll [.start ⟨"c-idn".toList, .pre⟩, .text "c".toList .pre, .close ⟨"c-idn".toList, .pre⟩] >>=
          fun w => .ok w) := rfl
    rw [e, a1, Outcome.ok_bind, b1, Outcome.ok_bind, d1, Outcome.ok_bind]
  · obtain ⟨t, t1, -⟩ := a3.shown
    obtain ⟨u, u1, -⟩ := d3.shown
    simp only at t1 u1
    have e : w2.text = w1.text ++ List.replicate (2 ^ 64 - 1) ' ' := by
      rw [b2]; exact spaces_text w1 _
    rw [u1, e, t1]
    simp only [List.length_append, List.length_replicate]
    omega

/-- **C67, violation.** If the token behind a carriage return begins before the column at which the token
in front of it begins, the conversion throws. -/
theorem C67_return_throws : bodyOf "\\codeblock{  a\rb}" = some .throws := by decide +kernel

end Bms
