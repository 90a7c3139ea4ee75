import Verif.Lemmas.DocHtmlCode
import Verif.Props.Parse

/-!
# Conversion of documents: directives
-/

namespace Bms.Bmd

open Spec HtmlWriter

/-! ## Attributes -/

theorem isName {s : List Char} (h : isHtmlIdentifier s = true) : Name s := (html_identifier s).mp h

theorem range_plain {c : Char} (h : IdentPart c ∨ c = '-') :
    c ≠ '"' ∧ c ≠ '\n' ∧ c ≠ '\t' ∧ c ≠ '\r' ∧ c ≠ Char.ofNat 12 := by
  refine ⟨?_, ?_, ?_, ?_, ?_⟩ <;> (rintro rfl; revert h; decide)

theorem ident_part {s : List Char} (h : Ident s) : ∀ c ∈ s, IdentPart c := by
  cases s with
  | nil => exact absurd h (by simp [Ident])
  | cons c cs =>
    intro d hd
    rcases List.mem_cons.mp hd with rfl | hd
    · exact .inl h.1
    · exact h.2 d hd

theorem ident_plain {s : List Char} (h : Ident s) : PlainValue s :=
  fun c hc => range_plain (.inl (ident_part h c hc))

theorem ident_isName {s : List Char} (h : Ident s) : Name s := by
  have hp := ident_part h
  cases s with
  | nil => exact absurd h (by simp [Ident])
  | cons c cs =>
    refine ⟨?_, ?_⟩
    · have := h.1
      unfold IdentStart InRange at this
      unfold InRange
      intro ⟨h1, h2⟩
      have e1 : '9'.toNat = 57 := rfl
      have e2 : 'a'.toNat = 97 := rfl
      have e3 : 'A'.toNat = 65 := rfl
      rcases this with rfl | h | h
      · revert h2; decide
      · omega
      · omega
    · intro d hd
      rcases hp d hd with (h | h | h) | h
      · exact .inr (.inr (.inr (.inl h)))
      · exact .inl h
      · exact .inr (.inl h)
      · exact .inr (.inr (.inl h))

theorem repr_digits (n : Nat) : ∀ c ∈ n.repr.toList, IdentPart c := by
  intro c hc
  rw [Nat.toList_repr] at hc
  have := Nat.isDigit_of_mem_toDigits (by decide) (by decide) hc
  refine .inr ?_
  unfold Char.isDigit at this
  simp only [Bool.and_eq_true, decide_eq_true_eq] at this
  exact ⟨this.1, this.2⟩

theorem value_plain {v : Value} (h : ∀ p x, v = .ident p x → Ident x) : PlainValue (attributeText v) := by
  cases v with
  | ident p x => exact ident_plain (h p x rfl)
  | number p len v m =>
    intro c hc
    apply range_plain
    change c ∈ v.repr.toList at hc
    cases v with
    | ofNat n => exact .inl (repr_digits n c hc)
    | negSucc n =>
      simp only [Int.repr, String.toList_append] at hc
      rcases List.mem_append.mp hc with hc | hc
      · right; simpa using hc
      · exact .inl (repr_digits _ c hc)

/-- The order in which a map is walked through. -/
def Walk (order : List (List Char × Value) → List (List Char × Value)) : Prop := ∀ l, (order l).Perm l

/-- Arguments as they are parsed. -/
def SaneArgs (args : List (List Char × Value)) : Prop :=
  ∀ a ∈ args, Ident a.1 ∧ ∀ p x, a.2 = .ident p x → Ident x

theorem attributes_name {order args} (hw : Walk order) (h : SaneArgs args) :
    ∀ a ∈ attributes order args, Name a.1 := by
  intro a ha
  obtain ⟨b, hb, rfl⟩ := List.mem_map.mp ha
  exact ident_isName (h b ((hw args).mem_iff.mp hb)).1

theorem attributes_text {order args} (hw : Walk order) (h : SaneArgs args) :
    AttrText (attributes order args) ((attributes order args).flatMap fun a => attrText a.1 a.2) := by
  refine attrText_spec (attributes_name hw h) ?_
  intro a ha
  obtain ⟨b, hb, rfl⟩ := List.mem_map.mp ha
  exact value_plain (h b ((hw args).mem_iff.mp hb)).2

theorem attributes_nil {order} (hw : Walk order) : attributes order [] = [] := by
  have := hw []
  simp only [List.perm_nil] at this
  simp [attributes, this]

/-! ## Combining steps -/

theorem Good.started {c : Conv} (h : Good c) : Good c.started := ⟨h.ready, h.indent, by simp [Conv.started]⟩

theorem Goes.ofStarted {c : Conv} {s fs is r} (h : Goes c.started s fs is r) : Goes c s fs is r := by
  cases fs with
  | cons f fs => exact h
  | nil =>
    obtain ⟨c', h1, h2, h3⟩ := h
    exact ⟨c', h1, ⟨h2.shown, h2.depth, h2.indent, h2.good⟩, h3⟩

/-- Something that may fail, in front of a step. -/
theorem Goes.pre {α : Type} {c : Conv} {s fs gs is} {r : Conversion α} {k : α → Conversion Conv} {x : α}
    (h : match fs with | [] => r = .ok x | f :: _ => r = f.outcome)
    (hk : fs = [] → Goes c s gs is (k x)) : Goes c s (fs ++ gs) is (r >>= k) := by
  cases fs with
  | nil => simp only at h; rw [h, Outcome.ok_bind]; exact hk rfl
  | cons f fs => simp only at h; rw [h]; exact f.outcome_bind k

theorem Goes.crash {c : Conv} {s fs is} : Goes c s (.crash :: fs) is .throws := rfl

theorem enum_goes {α : Type} (args : List (List Char × Value)) (key : List Char)
    (table : List (List Char × α)) (code : DocCode) (fallback : α) :
    ∃ x, (choiceFaults args key table code = [] → choice args key table fallback = some x) ∧
      match choiceFaults args key table code with
      | [] => enumByAttribute args key table code fallback = .ok x
      | f :: _ => enumByAttribute args key table code fallback = f.outcome := by
  unfold choiceFaults enumByAttribute choice
  cases findArgument args key with
  | none => exact ⟨fallback, fun _ => rfl, rfl⟩
  | some v =>
    cases v with
    | number p a b d => exact ⟨fallback, by simp, rfl⟩
    | ident p name =>
      cases h : byName table name with
      | none => exact ⟨fallback, by simp [h], by simp [h, Fault.outcome]⟩
      | some x => exact ⟨x, fun _ => h, by simp [h]⟩

/-! ## Texts -/

theorem text_goes {c : Conv} (h : Good c) (s : List Char) :
    Goes c c.atStart [] [.text s] (c.call [.text s .in_line]) := by
  obtain ⟨w', t, st, n, h1, h2, h3, h4⟩ := exec_text c.writer s .in_line h.ready rfl
  refine ⟨{ c with writer := w' }, ?_, ?_, rfl⟩
  · rw [call_one]; simp only [exec, h1, Outcome.map]; rfl
  · refine ⟨⟨t, h2.text, ?_⟩, h2.depth, h2.indent, h.ofDid h2 h3 h.indent⟩
    have := Shown.text h4 Shown.nil
    rwa [List.append_nil] at this

/-- An element within a line, as calls of the writer. -/
theorem Goes.elementCalls {c : Conv} {is : List Item} {tag : Tag}
    {as : List (List Char × List Char)} {x y : List HtmlCall} {s : Bool}
    (hn : Name tag.id) (hs : tag.style.isBlockLike = false)
    (ho : ∃ c', c.call x = .ok c' ∧ Opened c tag.id as c')
    (hk : ∀ c', Opened c tag.id as c' → Goes c' s [] is (c'.call y)) :
    Goes c s [] [.element tag.id as is] (c.call (x ++ y ++ [.close tag])) := by
  have h := Goes.element hn hs ho hk
  have e : c.call (x ++ y ++ [.close tag]) = (do
      let c ← c.call x
      let c ← c.call y
      c.call [.close tag]) := by
    rw [List.append_assoc, call_append]
    simp only [call_append]
  rw [e]; exact h

theorem textElement_goes {c : Conv} (h : Good c) {tag : Tag} (hn : Name tag.id)
    (hs : tag.style.isBlockLike = false) (s : List Char) :
    Goes c c.atStart [] [.element tag.id [] [.text s]]
      (c.call [.start tag, .text s .in_line, .close tag]) :=
  Goes.elementCalls (x := [.start tag]) (y := [.text s .in_line]) hn hs (open_plain c tag h hn hs)
    (fun c' hc' => by rw [← hc'.start]; exact text_goes hc'.good s)

/-- White space behind a text. -/
theorem whitespace_goes {c : Conv} (h : Good c) {d : Char} (hd : d = '\n' ∨ d = ' ') :
    Goes c c.atStart [] [.space] (c.call [.whitespace d 1]) := by
  have h1 : c.writer.exec (.whitespace d 1) =
      .ok { c.writer.writeN d 1 .whitespace with state := .normal } := by
    simp only [exec]
    unfold writeWhitespace
    have e1 : (decide (c.writer.state ≠ .attributes) && decide (c.writer.state ≠ .initial)) = true := by
      rcases h.ready with h | h <;> simp [h]
    have e2 : isSpace d = true := by rcases hd with rfl | rfl <;> decide
    rw [e1, e2]
    rfl
  refine ⟨{ c with writer := { c.writer.writeN d 1 .whitespace with state := .normal } },
    by rw [call_one, h1]; rfl, ?_, rfl⟩
  refine ⟨⟨[d], by simp [writeN, write, HtmlWriter.text], ?_⟩, rfl, rfl, ⟨.inl rfl, h.indent, h.title⟩⟩
  exact Shown.space (hd.symm) .nil

theorem span_directive (p len ty name args block) :
    (Node.directive p len ty name args block).span = (p, len) := rfl

theorem span_text (p len s) : (Node.text p len s).span = (p, len) := rfl

theorem between_directive (p len s q m ty name args block) :
    between (.text p len s) (some (.directive q m ty name args block)) =
      if p.start + len = q.start then [] else [.space] := rfl

theorem convertText_goes {c : Conv} (h : Good c) (p : Position) (len : Nat) (s : List Char)
    (next : Option Node) (hn : ∀ q m cs, next ≠ some (.list q m cs)) :
    Goes c false (betweenFaults (.text p len s) next) (.text s :: between (.text p len s) next)
      (convertText .in_line p len s next c) := by
  obtain ⟨w', t, st, n, h1, h2, h3, h4⟩ := exec_text c.writer s .in_line h.ready rfl
  unfold convertText
  rw [h1]
  simp only
  have hg : Good ({ c.started with writer := w' } : Conv) :=
    h.started.ofDid (c := c.started) h2 h3 h.indent
  have hs : Step c { c.started with writer := w' } [.text s] := by
    refine ⟨⟨t, h2.text, ?_⟩, h2.depth, h2.indent, hg⟩
    have := Shown.text h4 Shown.nil
    rwa [List.append_nil] at this
  have hstart : ({ c.started with writer := w' } : Conv).atStart = false := rfl
  cases next with
  | none => exact ⟨_, rfl, hs, rfl⟩
  | some m =>
    cases m with
    | list q m cs => exact absurd rfl (hn q m cs)
    | text q m s' => exact rfl
    | directive q m ty name args block =>
      rw [between_directive]
      simp only [betweenFaults]
      by_cases he : p.start + len = q.start
      · rw [if_pos he, if_pos he]; exact ⟨_, rfl, hs, rfl⟩
      · rw [if_neg he, if_neg he]
        have := whitespace_goes hg (d := if q.line + 1 > p.line + n then '\n' else ' ')
          (by split <;> simp)
        obtain ⟨c', k1, k2, k3⟩ := this
        exact ⟨c', k1, hs.trans k2, k3⟩

/-- White space behind a directive. -/
theorem gapBehind_goes {c : Conv} (h : Good c) (prev : Node) (n : Node)
    (hp : ∀ p len s, prev ≠ .text p len s) (hl : ∀ p len s, prev ≠ .list p len s) :
    Goes c c.atStart (betweenFaults prev (some n)) (between prev (some n)) (gapBehind (some prev) n c) := by
  cases prev with
  | list p len s => exact absurd rfl (hl p len s)
  | text p len s => exact absurd rfl (hp p len s)
  | directive p len ty name args block =>
    simp only [gapBehind, betweenFaults, between, span_directive]
    generalize n.span.1 = q
    unfold writeSourceGap
    have e1 : (decide (c.writer.state ≠ .attributes) && decide (c.writer.state ≠ .initial)) = true := by
      rcases h.ready with h | h <;> simp [h]
    rw [e1]
    simp only [Outcome.assert, if_true, Outcome.ok_bind]
    unfold goesBack
    by_cases hb : (decide (p.line < q.line) || (decide (p.line = q.line) && decide (p.column ≤ q.column))) = true
    · simp only [hb, if_true, Outcome.ok_bind, Bool.not_true, Bool.false_eq_true, if_false]
      by_cases he : p.start + len = q.start
      · simp only [he, ne_eq, not_true_eq_false, if_false, if_true, reduceCtorEq]
        exact ⟨_, rfl, Step.refl h, rfl⟩
      · simp only [he, ne_eq, not_false_eq_true, if_false, if_true, reduceCtorEq]
        refine ⟨_, rfl, ⟨⟨[' '], by simp [write, HtmlWriter.text], ?_⟩, rfl, rfl, ⟨h.ready, h.indent, h.title⟩⟩,
          rfl⟩
        exact Shown.space (.inl rfl) .nil
    · rw [Bool.not_eq_true] at hb
      simp only [hb, Bool.false_eq_true, if_false, Bool.not_false, if_true]
      rfl

/-! ## Code and instructions -/

theorem nestedCode_goes {c : Conv} (h : Good c) (args : List (List Char × Value)) (block : Option Node)
    (hb : SaneBlock .raw block) (hs : Showable .code_block block) {x : Language}
    (hx : choice args "lang".toList languageTable .bms = some x) :
    Goes c c.atStart (codeFaults args block) (blockCode args block) (convertNestedCode x block c) := by
  cases block with
  | none => exact ⟨c, rfl, Step.refl h, rfl⟩
  | some n =>
    cases n with
    | list p len cs => simp [SaneBlock, SaneInner] at hb
    | directive p len ty name as bl => simp [SaneBlock, SaneInner] at hb
    | text p len code =>
      unfold codeFaults blockCode convertNestedCode
      rw [hx]
      obtain ⟨hr, hl⟩ := hs rfl
      simp only [blockText] at hr hl
      cases x with
      | plaintext => exact verbatim_goes h code
      | bms =>
        simp only [programFaults, programTokens, bmsToHtml]
        obtain ⟨ts, res, ht, hu, -⟩ := C22_no_exception_partial code
        rw [ht]
        cases res with
        | ub => exact absurd rfl hu
        | throws => exact rfl
        | err e =>
          obtain ⟨w', t, st, n, h1, -⟩ := exec_text c.writer code .in_line h.ready rfl
          simp only [exec, h1, Outcome.map, Outcome.ok_bind]
          exact rfl
        | ok u =>
          simp only
          obtain ⟨w', k1, k2⟩ := bms_goes h ht hr hl
          cases hp : Parse.parse code ts with
          | throws => simp only [if_true]; exact rfl
          | diverge => exact absurd hp (C42_terminates code ts)
          | _ =>
            simp only [reduceCtorEq, if_false, k1, Outcome.ok_bind]
            exact ⟨_, rfl, by simpa using k2, rfl⟩
      | bmd => exact rfl
      | c => exact rfl
      | cxx => exact rfl
      | rust => exact rfl

theorem codeBlock_goes {c : Conv} (h : Good c) (args : List (List Char × Value)) (block : Option Node)
    (hb : SaneBlock .raw block) (hs : Showable .code_block block) :
    Goes c false (choiceFaults args "lang".toList languageTable .invalid_language ++ codeFaults args block)
      [.block "pre".toList (blockCode args block)] (convertCode .code_block args block c) := by
  unfold convertCode
  obtain ⟨x, h1, h2⟩ := enum_goes args "lang".toList languageTable .invalid_language .bms
  refine Goes.pre h2 (fun h0 => ?_)
  refine Goes.ofStarted ?_
  exact Goes.block (tag := ⟨"pre".toList, .block⟩) h.started (isName (by decide)) rfl
    (fun c' hc' hst _ => by
      have := nestedCode_goes hc' args block hb hs (h1 h0)
      rwa [hst] at this)

theorem code_goes {c : Conv} (h : Good c) (args : List (List Char × Value)) (block : Option Node)
    (hb : SaneBlock .span block) :
    Goes c false (choiceFaults args "lang".toList languageTable .invalid_language ++
      if block.isSome then [.crash] else [])
      [.element "code".toList [] []] (convertCode .code args block c) := by
  unfold convertCode
  obtain ⟨x, h1, h2⟩ := enum_goes args "lang".toList languageTable .invalid_language .bms
  refine Goes.pre h2 (fun h0 => ?_)
  refine Goes.ofStarted ?_
  refine Goes.element (tag := ⟨"code".toList, .in_line⟩) (isName (by decide)) rfl
    (open_plain _ ⟨"code".toList, .in_line⟩ h.started (isName (by decide)) rfl) (fun c' hc' => ?_)
  cases block with
  | none => exact ⟨c', rfl, Step.refl hc'.good, hc'.start⟩
  | some n =>
    cases n with
    | list p len cs => exact rfl
    | directive p len ty name as bl => simp [SaneBlock, SaneInner] at hb
    | text p len code => simp [SaneBlock, SaneInner] at hb

theorem extension_goes {c : Conv} (h : Good c) (args : List (List Char × Value)) (ha : SaneArgs args) :
    Goes c c.atStart
      (match findArgument args "ext".toList with
        | some (.number ..) => [.crash]
        | _ => [])
      (match findArgument args "ext".toList with
        | some (.ident _ name) => [.element "sup".toList [] [.text name]]
        | _ => [])
      (convertExtension args c) := by
  unfold convertExtension
  cases hf : findArgument args "ext".toList with
  | none => exact ⟨c, rfl, Step.refl h, rfl⟩
  | some v =>
    cases v with
    | number p a b d => exact rfl
    | ident p name =>
      have hid : Ident name := by
        unfold findArgument at hf
        cases hx : args.find? (fun a => a.1 = "ext".toList) with
        | none => rw [hx] at hf; cases hf
        | some a =>
          rw [hx] at hf
          simp only [Option.map_some, Option.some.injEq] at hf
          exact (ha a (List.mem_of_find?_eq_some hx)).2 p name hf
      cases name with
      | nil => exact absurd hid (by simp [Ident])
      | cons d ds => exact textElement_goes h (tag := ⟨"sup".toList, .in_line⟩) (isName (by decide)) rfl _

theorem href_text {pre text : List Char} (hp : requiresQuotes pre = true) (hp' : '"' ∉ pre)
    (h : '"' ∉ text) :
    AttrText [("href".toList, pre ++ text)]
      ([("href".toList, pre ++ text)].flatMap fun a => attrText a.1 a.2) := by
  have hq : requiresQuotes (pre ++ text) = true := by
    unfold requiresQuotes at hp ⊢
    rw [List.any_append, hp]; rfl
  have he : (pre ++ text).isEmpty = false := by
    cases pre with
    | nil => cases hp
    | cons c cs => rfl
  simp only [List.flatMap_cons, List.flatMap_nil, List.append_nil]
  unfold attrText
  rw [he, hq]
  have := AttrText.quoted (k := "href".toList) (v := pre ++ text) (isName (by decide)) (by
      rw [List.mem_append, not_or]
      exact ⟨hp', h⟩) .nil
  simpa only [Bool.false_eq_true, if_false, if_true, List.append_assoc, List.cons_append, List.nil_append] using this

/-- An instruction. -/
theorem link_goes {c : Conv} (h : Good c) {pre text : List Char} (hp : requiresQuotes pre = true)
    (hp' : '"' ∉ pre) (ht : '"' ∉ text) :
    Goes c c.atStart [] [.element "a".toList [("href".toList, pre ++ text)]
        [.element "code".toList [] [.text text]]]
      (c.call ([.startAttrs ⟨"a".toList, .in_line⟩ [("href".toList, pre ++ text)]] ++
        [.start ⟨"code".toList, .in_line⟩, .text text .in_line, .close ⟨"code".toList, .in_line⟩] ++
        [.close ⟨"a".toList, .in_line⟩])) := by
  refine Goes.elementCalls (tag := ⟨"a".toList, .in_line⟩) (isName (by decide)) rfl
    (open_attrs _ _ _ h (isName (by decide)) (fun a ha => by
      rw [List.mem_singleton] at ha
      subst ha
      show Name "href".toList
      exact isName (by decide)) (href_text hp hp' ht) rfl) ?_
  intro c' hc'
  have := textElement_goes hc'.good (tag := ⟨"code".toList, .in_line⟩) (isName (by decide)) rfl text
  rw [hc'.start] at this
  exact this

theorem instruction_goes {c : Conv} (h : Good c) (args : List (List Char × Value)) (block : Option Node)
    (ha : SaneArgs args) (hb : SaneBlock .text_span block) (hl : '"' ∉ blockText block) :
    Goes c false (choiceFaults args "arch".toList architectureTable .invalid_architecture ++
      (if block.isNone then [.undefined] else []) ++
      match findArgument args "ext".toList with
      | some (.number ..) => [.crash]
      | _ => [])
      (instructionItems args (blockText block)) (convertInstruction args block c) := by
  unfold convertInstruction
  obtain ⟨x, h1, h2⟩ := enum_goes args "arch".toList architectureTable .invalid_architecture .x86
  rw [List.append_assoc]
  refine Goes.pre h2 (fun h0 => ?_)
  cases block with
  | none => exact rfl
  | some n =>
    cases n with
    | list p len cs => simp [SaneBlock, SaneInner] at hb
    | directive p len ty name as bl => simp [SaneBlock, SaneInner] at hb
    | text p len text =>
      have hbt : blockText (some (.text p len text)) = text := rfl
      rw [hbt] at hl ⊢
      refine Goes.ofStarted ?_
      simp only [Option.isNone_some, Bool.false_eq_true, if_false]
      unfold instructionItems
      refine Goes.bind (is := [_]) (s := false) (fs := []) ?_ (fun c' hc' hst => ?_)
      · unfold instructionCalls
        rw [h1 h0]
        by_cases hx : x = .x86
        · subst hx
          rw [if_pos rfl, if_neg (by decide)]
          exact link_goes h.started (pre := linkPrefix .x86) (by decide) (by decide) hl
        · have e : (linkPrefix x).isEmpty = true := by cases x <;> first | rfl | exact absurd rfl hx
          rw [if_pos e, if_neg (by simpa using hx)]
          exact textElement_goes h.started (tag := ⟨"code".toList, .in_line⟩) (isName (by decide)) rfl text
      · have := extension_goes hc'.good args ha
        rw [hst] at this
        exact this

/-! ## Metadata -/

theorem update_goes {c : Conv} {p type name args block}
    (h : SaneNode .meta_ (.directive p len type name args block)) :
    updateMetadata p type block c = .ok (if type = .title ∧ block ≠ none then
      { c with title := blockText block } else c) := by
  obtain ⟨h1, -, h3⟩ := h
  have ht : type = .title ∨ type = .bms_function ∨ type = .c_equivalent := by
    cases type <;> simp [environmentOf] at h1 <;> simp
  have hc : contentTypeOf type = .text_span := by rcases ht with rfl | rfl | rfl <;> rfl
  rw [hc] at h3
  unfold updateMetadata
  cases block with
  | none => simp
  | some b =>
    cases b with
    | list q m cs => simp [SaneBlock, SaneInner] at h3
    | directive q m ty n as bl => simp [SaneBlock, SaneInner] at h3
    | text q m s => rcases ht with rfl | rfl | rfl <;> simp [blockText]

theorem metaLoop_found {c : Conv} {t : Title} {ns : List Node} (h : SaneNodes .meta_ ns) :
    metaLoop (some t) ns c = match titles ns with
      | [] => .ok (some t, c)
      | u :: _ => .err ⟨.duplicate_meta_entry, u.1⟩ := by
  induction ns generalizing c with
  | nil => rfl
  | cons n ns ih =>
    obtain ⟨h1, h2⟩ := h
    cases n with
    | list p len cs => simp [SaneNode] at h1
    | text p len s => simp [SaneNode] at h1
    | directive p len type name args block =>
      unfold metaLoop
      rw [update_goes h1, Outcome.ok_bind]
      by_cases ht : type = .title
      · subst ht
        simp [titles]
      · simp only [ht, false_and, if_false]
        rw [ih h2]
        have : titles (.directive p len type name args block :: ns) = titles ns := by
          cases type <;> first | rfl | exact absurd rfl ht
        rw [this]

theorem metaLoop_goes {c : Conv} {ns : List Node} (h : SaneNodes .meta_ ns) :
    metaLoop none ns c = match titles ns with
      | [] => .ok (none, c)
      | [(_, args, block)] => .ok (some (args, block),
          if block ≠ none then { c with title := blockText block } else c)
      | _ :: u :: _ => .err ⟨.duplicate_meta_entry, u.1⟩ := by
  induction ns generalizing c with
  | nil => rfl
  | cons n ns ih =>
    obtain ⟨h1, h2⟩ := h
    cases n with
    | list p len cs => simp [SaneNode] at h1
    | text p len s => simp [SaneNode] at h1
    | directive p len type name args block =>
      unfold metaLoop
      rw [update_goes h1, Outcome.ok_bind]
      by_cases ht : type = .title
      · subst ht
        simp only [Option.isSome_none, if_true, Bool.false_eq_true, if_false, true_and]
        rw [metaLoop_found h2]
        simp only [titles]
        cases titles ns <;> rfl
      · simp only [ht, false_and, if_false]
        rw [ih h2]
        have : titles (.directive p len type name args block :: ns) = titles ns := by
          cases type <;> first | rfl | exact absurd rfl ht
        rw [this]

theorem titles_mem {ns : List Node} {t} (h : t ∈ titles ns) :
    ∃ len name, Node.directive t.1 len .title name t.2.1 t.2.2 ∈ ns := by
  induction ns with
  | nil => cases h
  | cons n ns ih =>
    have up : t ∈ titles ns → ∃ len name, Node.directive t.1 len .title name t.2.1 t.2.2 ∈ n :: ns := by
      intro h
      obtain ⟨len, name, h⟩ := ih h
      exact ⟨len, name, by simp [h]⟩
    cases n with
    | list p len cs => exact up h
    | text p len s => exact up h
    | directive p len type name args block =>
      cases type with
      | title =>
        rcases List.mem_cons.mp h with rfl | h
        · exact ⟨len, name, by simp⟩
        · exact up h
      | _ => exact up h

theorem SaneNodes.mem {ctx : ContentType} {ns : List Node} (h : SaneNodes ctx ns) {n : Node} (hn : n ∈ ns) :
    SaneNode ctx n := by
  induction ns with
  | nil => cases hn
  | cons m ns ih =>
    rcases List.mem_cons.mp hn with rfl | hn
    · exact h.1
    · exact ih h.2 hn

theorem EverywhereIn.mem {P} {ns : List Node} (h : EverywhereIn P ns) {n : Node} (hn : n ∈ ns) :
    Everywhere P n := by
  induction ns with
  | nil => cases hn
  | cons m ns ih =>
    rcases List.mem_cons.mp hn with rfl | hn
    · exact h.1
    · exact ih h.2 hn

/-- Opening the tag of a directive that has a block or no arguments. -/
theorem passed_open {c : Conv} (h : Good c) {order} (hw : Walk order) {args : List (List Char × Value)}
    (ha : SaneArgs args) {block : Option Node} (hc : args ≠ [] → block ≠ none) {tag : Tag}
    (hn : Name tag.id) (hs : tag.style.isBlockLike = false) :
    ∃ c', c.call (beginPassedThrough order args block tag) = .ok c' ∧
      Opened c tag.id (attributes order args) c' := by
  unfold beginPassedThrough
  cases args with
  | nil =>
    rw [attributes_nil hw]
    exact open_plain c tag h hn hs
  | cons a as =>
    have hb : block.isNone = false := by
      cases block with
      | none => exact absurd rfl (hc (by simp))
      | some n => rfl
    simp only [List.isEmpty_cons, Bool.false_eq_true, if_false, hb]
    exact open_attrs c tag _ h hn (attributes_name hw ha) (attributes_text hw ha) hs

theorem meta_goes {c : Conv} (h : Good c) {order} (hw : Walk order) (p : Position) (block : Option Node)
    (hb : SaneBlock .meta_ block)
    (he : EverywhereBlock Presentable block) :
    Goes c false (if c.atStart then metaFaults block else [.error ⟨.meta_not_at_start_of_file, p⟩])
      (metaItems order block) (convertMeta order p block c) := by
  unfold convertMeta
  cases hst : c.atStart with
  | false => exact rfl
  | true =>
    have htitle := h.title hst
    simp only [Bool.not_true, Bool.false_eq_true, if_false, if_true]
    refine Goes.ofStarted ?_
    cases block with
    | none => exact ⟨c.started, rfl, Step.refl h.started, rfl⟩
    | some n =>
      cases n with
      | text p len s => simp [SaneBlock, SaneInner] at hb
      | directive p len ty name as bl => simp [SaneBlock, SaneInner] at hb
      | list p len cs =>
        have hs : SaneNodes .meta_ cs := by
          rcases hb with ⟨-, hb⟩ | ⟨hb, -⟩
          · exact hb
          · cases hb
        simp only [metaFaults, metaItems]
        rw [metaLoop_goes hs]
        cases ht : titles cs with
        | nil => exact ⟨c.started, rfl, Step.refl h.started, rfl⟩
        | cons t ts =>
          obtain ⟨q, args, bl⟩ := t
          cases ts with
          | cons u us => exact rfl
          | nil =>
            obtain ⟨len', name, hm⟩ := titles_mem (ns := cs) (t := (q, args, bl)) (by rw [ht]; simp)
            have h1 := hs.mem hm
            have h2 := EverywhereIn.mem (by simpa [EverywhereBlock, Everywhere] using he) hm
            simp only [Outcome.ok_bind, List.drop_succ_cons, List.drop_nil, List.map_nil]
            have key : ∀ d : Conv, Good d → d.title = blockText bl → d.writer = c.writer → d.atStart = false →
                Goes c.started false [] [.element "h1".toList (attributes order args) [.text (blockText bl)]]
                  (d.call (beginPassedThrough order args bl ⟨"h1".toList, .in_line⟩ ++
                    [.text d.title .in_line, .close ⟨"h1".toList, .in_line⟩])) := by
              intro d hd h3 h4 h5
              have := Goes.elementCalls (c := d) (s := false) (is := [.text (blockText bl)])
                (tag := ⟨"h1".toList, .in_line⟩) (as := attributes order args)
                (x := beginPassedThrough order args bl ⟨"h1".toList, .in_line⟩)
                (y := [.text (blockText bl) .in_line]) (isName (by decide)) rfl
                (passed_open hd hw h1.2.1.2 (h2.1.1 (.inr rfl)) (isName (by decide)) rfl)
                (fun c' hc' => by
                  have := text_goes hc'.good (blockText bl)
                  rwa [hc'.start, h5] at this)
              rw [List.append_assoc, List.cons_append, List.nil_append, ← h3] at this
              obtain ⟨c', k1, k2, k3⟩ := this
              refine ⟨c', k1, ⟨?_, ?_, ?_, k2.good⟩, k3⟩
              · have := k2.shown
                rw [h4, h3] at this
                exact this
              · have := k2.depth; rw [h4] at this; exact this
              · have := k2.indent; rw [h4] at this; exact this
            cases bl with
            | none => exact key c.started h.started htitle rfl rfl
            | some b =>
              exact key { c.started with title := blockText (some b) }
                ⟨h.ready, h.indent, by simp [Conv.started]⟩ rfl rfl rfl

/-! ## Directives -/

theorem passthrough_tag : ∀ e ∈ directiveTable, isPassthrough e.2 = true →
    tagOf e.2 = htmlTag e.1.toList ∧ isHtmlIdentifier (tagOf e.2) = true := by
  unfold directiveTable
  simp only [List.mem_cons, List.not_mem_nil, or_false]
  rintro e (rfl | rfl | rfl | rfl | rfl | rfl | rfl | rfl | rfl | rfl | rfl | rfl | rfl | rfl | rfl | rfl |
    rfl | rfl | rfl | rfl | rfl | rfl | rfl | rfl | rfl | rfl | rfl | rfl | rfl) <;>
  decide

theorem sane_tag {type : DirType} {name : List Char} {args} (h : SaneHead type name args)
    (hp : isPassthrough type = true) : tagOf type = htmlTag name ∧ Name (tagOf type) := by
  have := passthrough_tag _ h.1 hp
  simp only [String.toList_ofList] at this
  exact ⟨this.1, isName this.2⟩

theorem void_goes {c : Conv} (h : Good c) {tag : Tag} (hn : Name tag.id)
    (hs : tag.style.isBlockLike = false) : Goes c c.atStart [] [.void tag.id []] (c.call [.empty tag]) := by
  obtain ⟨w', gap, h1, h2, h3, h4⟩ := exec_empty c.writer tag h.ready hn hs
  refine ⟨{ c with writer := w' }, by rw [call_one, h1]; rfl, ?_, rfl⟩
  refine ⟨⟨_, h4.text, ?_⟩, h4.depth, h4.indent, h.ofDid h4 (.inl rfl) h.indent⟩
  have e : fresh w' = false := by simp [fresh, h4.state]
  simp only [e]
  refine Shown.front h2 h3 ?_
  have := Shown.void (fresh := fresh c.writer) hn .nil (Shown.nil (fresh := false))
  simpa using this

theorem voidBlock_goes {c : Conv} (h : Good c) {tag : Tag} (hn : Name tag.id)
    (hs : tag.style.isBlockLike = true) :
    Goes c c.atStart [] [.voidBlock tag.id []] (c.call [.empty tag]) := by
  obtain ⟨w', gap, h1, h2, h4⟩ := exec_empty_block c.writer tag h.ready hn hs
  refine ⟨{ c with writer := w' }, by rw [call_one, h1]; rfl, ?_, rfl⟩
  refine ⟨⟨_, h4.text, ?_⟩, h4.depth, h4.indent, h.ofDid h4 (.inr rfl) h.indent⟩
  have e : fresh w' = true := by simp [fresh, h4.state]
  simp only [e]
  have := Shown.voidBlock (fresh := fresh c.writer) hn .nil h2 (Shown.nil (fresh := true))
  simpa using this

/-- A tag with attributes on its own line: this throws. -/
theorem blockAttributes_throw {c : Conv} (h : Good c) {tag : Tag} {as : List (List Char × List Char)}
    (hn : Name tag.id) (ha : ∀ a ∈ as, Name a.1) (hs : tag.style.isBlockLike = true) :
    c.call [.startAttrs tag as] = .throws := by
  rw [call_one]
  obtain ⟨ws, gap, h1, h2, h3⟩ := indent_any c.writer tag.style h.ready
  simp only [exec]
  unfold beginTagWithAttributes
  rw [check_ready h.ready hn, Outcome.ok_bind, h1]
  simp only [Outcome.ok_bind]
  obtain ⟨ts, k1, k2⟩ := attrs_did
    (w := { ((c.writer.add ws .normal).write ['<'] .tag_bracket).write tag.id .tag_bracket with
      state := .attributes })
    (as := as) rfl ha
  rw [k1, Outcome.ok_bind]
  simp only [endAttributes, Outcome.assert, add, decide_true, if_true, Outcome.ok_bind, hs,
    Bool.false_eq_true, if_false]
  rfl

/-- A directive that is shown as a tag within a line. -/
theorem passLine_goes {c : Conv} (h : Good c) {order} (hw : Walk order) {type : DirType}
    {name : List Char} {args : List (List Char × Value)} {block : Option Node}
    {inner : Conv → Conversion Conv} {fs is}
    (hp : isPassthrough type = true) (hs : (styleOf type).isBlockLike = false)
    (hm : mustBeEmpty type = false)
    (hh : SaneHead type name args) (hc : args ≠ [] → block ≠ none)
    (hn : block = none → fs = [])
    (hi : ∀ c', Good c' → c'.atStart = false → Goes c' false fs is (inner c')) :
    Goes c false fs (if block.isNone then [.void (htmlTag name) []]
      else [.element (htmlTag name) (attributes order args) is])
      (convertPassthrough order type args block inner c) := by
  obtain ⟨ht, hname⟩ := sane_tag hh hp
  unfold convertPassthrough
  refine Goes.ofStarted ?_
  rw [hm]
  simp only [Bool.not_false, Bool.or_true, Outcome.assert, if_true, Outcome.ok_bind]
  rw [← ht]
  cases block with
  | none =>
    have : args = [] := by
      apply Classical.byContradiction
      intro h; exact hc h rfl
    subst this
    rw [hn rfl]
    exact void_goes h.started (tag := ⟨tagOf type, styleOf type⟩) hname hs
  | some b =>
    simp only [Option.isNone_some, Bool.false_and, Bool.false_eq_true, if_false]
    exact Goes.element (tag := ⟨tagOf type, styleOf type⟩) hname hs
      (passed_open h.started hw hh.2 (fun _ => by simp) hname hs)
      (fun c' hc' => hi c' hc'.good hc'.start)

/-- A list. -/
theorem passBlock_goes {c : Conv} (h : Good c) {order} (hw : Walk order) {type : DirType}
    {name : List Char} {args : List (List Char × Value)} {block : Option Node}
    {inner : Conv → Conversion Conv} {fs is}
    (hp : isPassthrough type = true) (hs : (styleOf type).isBlockLike = true)
    (hm : mustBeEmpty type = false)
    (hh : SaneHead type name args) (hc : args ≠ [] → block ≠ none)
    (hn : block = none → fs = [])
    (hi : ∀ c', Good c' → c'.atStart = false → Goes c' false fs is (inner c')) :
    Goes c false ((if !args.isEmpty && block.isSome then [.crash] else []) ++ fs)
      (if block.isNone then [.voidBlock (htmlTag name) []] else [.block (htmlTag name) is])
      (convertPassthrough order type args block inner c) := by
  obtain ⟨ht, hname⟩ := sane_tag hh hp
  unfold convertPassthrough
  refine Goes.ofStarted ?_
  rw [hm]
  simp only [Bool.not_false, Bool.or_true, Outcome.assert, if_true, Outcome.ok_bind]
  rw [← ht]
  cases block with
  | none =>
    have : args = [] := by
      apply Classical.byContradiction
      intro h; exact hc h rfl
    subst this
    rw [hn rfl]
    exact voidBlock_goes h.started (tag := ⟨tagOf type, styleOf type⟩) hname hs
  | some b =>
    simp only [Option.isNone_some, Bool.false_and, Bool.false_eq_true, if_false]
    cases args with
    | nil =>
      simp only [List.isEmpty_nil, Bool.not_true, Bool.false_and, Bool.false_eq_true, if_false,
        List.nil_append, beginPassedThrough, if_true]
      exact Goes.block (tag := ⟨tagOf type, styleOf type⟩) h.started hname hs
        (fun c' hc' hst _ => hi c' hc' hst)
    | cons a as =>
      simp only [List.isEmpty_cons, Bool.not_false, Option.isSome_some, Bool.and_self, if_true,
        List.cons_append, List.nil_append, beginPassedThrough, Bool.false_eq_true, if_false,
        Option.isNone_some]
      have := blockAttributes_throw h.started (tag := ⟨tagOf type, styleOf type⟩)
        (as := attributes order (a :: as)) hname (attributes_name hw hh.2) hs
      unfold attributes at this
      rw [this]
      exact rfl

theorem directive_goes {c : Conv} (h : Good c) {order} (hw : Walk order) {p : Position} {type : DirType}
    {name : List Char} {args : List (List Char × Value)} {block : Option Node}
    (hh : SaneHead type name args) (hb : SaneBlock (contentTypeOf type) block)
    (hf : Presentable type args block) (he : EverywhereBlock Presentable block)
    (hi : (contentTypeOf type = .span ∧ styleOf type = .in_line ∨ contentTypeOf type = .list) →
      ∀ c', Good c' → c'.atStart = false →
      Goes c' false (blockFaults block) (blockItems order block)
        (convertBlock order (styleOf type) (contentTypeOf type) block c')) :
    Goes c false (directiveFaults c.atStart p type args block (blockFaults block))
      (directiveItems order type name args block (blockItems order block))
      (convertDirective order p type args block
        (convertBlock order (styleOf type) (contentTypeOf type) block) c) := by
  have hn : block = none → blockFaults block = [] := by rintro rfl; rfl
  have line : isPassthrough type = true → (styleOf type).isBlockLike = false → mustBeEmpty type = false →
      contentTypeOf type = .span → styleOf type = .in_line →
      Goes c false (blockFaults block) (if block.isNone then [.void (htmlTag name) []]
        else [.element (htmlTag name) (attributes order args) (blockItems order block)])
        (convertPassthrough order type args block
          (convertBlock order (styleOf type) (contentTypeOf type) block) c) :=
    fun h1 h2 h3 h4 h5 => passLine_goes h hw h1 h2 h3 hh (hf.1 (.inl h1)) hn (hi (.inl ⟨h4, h5⟩))
  unfold convertDirective
  cases type with
  | meta_ => exact meta_goes h hw p block hb he
  | code => exact code_goes h args block hb
  | code_block => exact codeBlock_goes h args block hb hf.2.2
  | instruction => exact instruction_goes h args block hh.2 hb (hf.2.1 rfl)
  | ordered_list => exact passBlock_goes h hw rfl rfl rfl hh (hf.1 (.inl rfl)) hn (hi (.inr rfl))
  | unordered_list => exact passBlock_goes h hw rfl rfl rfl hh (hf.1 (.inl rfl)) hn (hi (.inr rfl))
  | line_break =>
    cases block with
    | none => exact rfl
    | some b => cases b <;> simp [SaneBlock, SaneInner, contentTypeOf] at hb
  | horizontal_rule =>
    cases block with
    | none => exact rfl
    | some b => cases b <;> simp [SaneBlock, SaneInner, contentTypeOf] at hb
  | item => exact rfl
  | note => exact rfl
  | title => exact rfl
  | bms_function => exact rfl
  | c_equivalent => exact rfl
  | _ => exact line rfl rfl rfl rfl rfl

/-! ## Content -/

/-- The faults between a directive and what is behind. -/
def pendingFaults : Option Node → List Node → List Fault
  | some (.directive p len ty name args block), ns => betweenFaults (.directive p len ty name args block) ns.head?
  | _, _ => []

/-- The items between a directive and what is behind. -/
def pendingItems : Option Node → List Node → List Item
  | some (.directive p len ty name args block), ns => between (.directive p len ty name args block) ns.head?
  | _, _ => []

theorem pending_goes {c : Conv} (h : Good c) (prev : Option Node) (n : Node) (ns : List Node)
    (hl : ∀ p len s, prev ≠ some (.list p len s)) :
    Goes c c.atStart (pendingFaults prev (n :: ns)) (pendingItems prev (n :: ns)) (gapBehind prev n c) := by
  cases prev with
  | none => exact ⟨c, rfl, Step.refl h, rfl⟩
  | some m =>
    cases m with
    | list p len s => exact absurd rfl (hl p len s)
    | text p len s => exact ⟨c, rfl, Step.refl h, rfl⟩
    | directive p len ty name args block =>
      exact gapBehind_goes h (.directive p len ty name args block) n (by simp) (by simp)

theorem start_irrelevant {type : DirType} (h : type ≠ .meta_) (s p args block fs) :
    directiveFaults s p type args block fs = directiveFaults false p type args block fs := by
  cases type <;> first | rfl | exact absurd rfl h

mutual

theorem children_go {order} (hw : Walk order) {style : Style} {ctx : ContentType}
    (hctx : ctx = .span ∧ style = .in_line ∨ ctx = .list) (prev : Option Node) (ns : List Node) {c : Conv}
    (h : Good c) (hl : ∀ p len s, prev ≠ some (.list p len s)) (hs : SaneNodes ctx ns)
    (he : EverywhereIn Presentable ns) :
    Goes c (c.atStart && ns.isEmpty) (pendingFaults prev ns ++ childFaults ns)
      (pendingItems prev ns ++ childItems order ns) (convertChildren order style prev ns c) := by
  cases ns with
  | nil =>
    have e1 : pendingFaults prev [] = [] := by
      cases prev with
      | none => rfl
      | some m => cases m <;> rfl
    have e2 : pendingItems prev [] = [] := by
      cases prev with
      | none => rfl
      | some m => cases m <;> rfl
    rw [e1, e2]
    refine ⟨c, by unfold convertChildren; rfl, ?_, by simp⟩
    simpa [childItems] using Step.refl h
  | cons n ns =>
    unfold convertChildren
    refine Goes.bind (pending_goes h prev n ns hl) (fun c' hc' hst => ?_)
    have hn := hs.1
    have hnext : ∀ q m cs, ns.head? ≠ some (.list q m cs) := by
      intro q m cs hq
      have := hs.2.mem (List.mem_of_mem_head? (by rw [hq]; rfl))
      simp [SaneNode] at this
    unfold childFaults childItems
    rw [List.isEmpty_cons, Bool.and_false]
    cases n with
    | list p len cs => simp [SaneNode] at hn
    | text p len s =>
      have hin : style = .in_line := by
        rcases hctx with ⟨-, h⟩ | h
        · exact h
        · subst h; simp [SaneNode] at hn
      subst hin
      unfold convertChild
      refine Goes.bind (s := false) (convertText_goes hc'.good p len s ns.head? hnext) (fun c'' hc'' hst' => ?_)
      have := children_go hw hctx (some (.text p len s)) ns hc''.good (by simp) hs.2 he.2
      rw [hst'] at this
      exact this
    | directive p len type name args block =>
      obtain ⟨h1, h2, h3⟩ := hn
      have hne : environmentOf type ≠ .content := by
        rcases hctx with ⟨rfl, -⟩ | rfl
        · simp only [if_true] at h1; rw [h1]; simp
        · simp only [reduceCtorEq, if_false, if_true] at h1; rw [h1]; simp
      have hnm : type ≠ .meta_ := by rintro rfl; exact hne rfl
      unfold convertChild
      simp only [Outcome.assert, ne_eq, hne, not_false_eq_true, decide_true, if_true, Outcome.ok_bind]
      rw [List.append_assoc, List.append_assoc]
      unfold nodeFaults nodeItems
      rw [← start_irrelevant hnm c'.atStart]
      refine Goes.bind (s := false)
        (directive_goes hc'.good hw h2 h3 he.1.1 he.1.2
          (fun hx c' hc' hst => block_go hw hx block hc' hst h3 he.1.2)) (fun c'' hc'' hst' => ?_)
      have := children_go hw hctx (some (.directive p len type name args block)) ns hc''.good (by simp)
        hs.2 he.2
      rw [hst'] at this
      exact this

theorem block_go {order} (hw : Walk order) {style : Style} {ctx : ContentType}
    (hctx : ctx = .span ∧ style = .in_line ∨ ctx = .list) (block : Option Node) {c : Conv}
    (h : Good c) (hst : c.atStart = false) (hs : SaneBlock ctx block) (he : EverywhereBlock Presentable block) :
    Goes c false (blockFaults block) (blockItems order block) (convertBlock order style ctx block c) := by
  match block with
  | none => exact ⟨c, by unfold convertBlock; rfl, by unfold blockItems; exact Step.refl h, hst⟩
  | some (.text p len s) =>
    rcases hctx with ⟨rfl, -⟩ | rfl <;> simp [SaneBlock, SaneInner] at hs
  | some (.directive p len ty name args bl) => simp [SaneBlock, SaneInner] at hs
  | some (.list p len cs) =>
    have hs' : SaneNodes ctx cs := by
      rcases hs with ⟨-, hs⟩ | ⟨hs, -⟩
      · exact hs
      · rcases hctx with ⟨rfl, -⟩ | rfl <;> cases hs
    have := children_go hw hctx none cs h (by simp) hs' (by simpa [EverywhereBlock, Everywhere] using he)
    rw [hst, Bool.false_and] at this
    unfold blockFaults blockItems convertBlock innerFaults innerItems convertInner
    rw [if_pos (by rcases hctx with ⟨rfl, -⟩ | rfl <;> simp)]
    exact this

end

end Bms.Bmd
