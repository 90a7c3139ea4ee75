import Verif.Lemmas.DocHtmlGoes

/-!
# Conversion of documents: content and documents
-/

namespace Bms.Bmd

open Spec HtmlWriter

theorem top_goes {c : Conv} (h : Good c) {order} (hw : Walk order) {n : Node} (hs : SaneTop n)
    (he : Everywhere Presentable n) :
    Goes c false (topFaults c.atStart n) (topItems order n) (convertTop order n c) := by
  cases n with
  | text p len s => simp [SaneTop] at hs
  | list p len cs =>
    unfold convertTop topFaults topItems
    obtain ⟨h1, h2⟩ := hs
    have e : cs.isEmpty = false := by cases cs <;> simp_all
    rw [e]
    simp only [Bool.not_false, Outcome.assert, if_true, Outcome.ok_bind]
    refine Goes.block (tag := ⟨"p".toList, .block⟩) h (isName (by decide)) rfl (fun c' hc' hst _ => ?_)
    have := children_go hw (style := .in_line) (.inl ⟨rfl, rfl⟩) none cs hc' (by simp) h2
      (by simpa [Everywhere] using he)
    rw [e, Bool.and_false] at this
    exact this
  | directive p len type name args block =>
    unfold convertTop topFaults topItems
    obtain ⟨h1, h2, h3⟩ := hs
    simp only [h1, Outcome.assert, if_true, Outcome.ok_bind, decide_true]
    exact directive_goes h hw h2 h3 he.1 he.2
      (fun hx c' hc' hst => block_go hw hx block hc' hst h3 he.2)

theorem content_go {order} (hw : Walk order) (ns : List Node) {c : Conv} (h : Good c) (hs : SaneTops ns)
    (he : EverywhereIn Presentable ns) :
    Goes c (c.atStart && ns.isEmpty) (contentFaults c.atStart ns) (contentItems order ns)
      (convertContent order ns c) := by
  induction ns generalizing c with
  | nil =>
    unfold convertContent
    exact ⟨c, rfl, Step.refl h, by simp⟩
  | cons n ns ih =>
    unfold convertContent contentFaults contentItems
    refine Goes.bind (top_goes h hw hs.1 he.1) (fun c' hc' hst => ?_)
    have := ih hc'.good hs.2 he.2
    rw [hst] at this
    simpa using this

theorem root_goes {order} (hw : Walk order) (root : Option Node) (hs : SaneRoot root)
    (he : EverywhereBlock Presentable root) :
    ∃ b, ∀ c : Conv, Good c → c.atStart = true →
      Goes c b (rootFaults root) (rootItems order root) (convertRoot order root c) := by
  match root with
  | none => exact ⟨true, fun c h hst => ⟨c, rfl, Step.refl h, hst⟩⟩
  | some (.list p len cs) =>
    refine ⟨true && cs.isEmpty, fun c h hst => ?_⟩
    have := content_go hw cs h hs (by simpa [EverywhereBlock, Everywhere] using he)
    rw [hst] at this
    exact this
  | some (.text p len s) => simp [SaneRoot] at hs
  | some (.directive p len ty name args bl) => simp [SaneRoot] at hs

/-! ## The page -/

theorem sheets_go (sheets : List (List Char)) {c : Conv} (h : Good c)
    (hs : ∀ s ∈ sheets, PlainValue s) :
    Goes c c.atStart [] (sheets.map fun sheet => .voidBlock "link".toList
        [("rel".toList, "stylesheet".toList), ("href".toList, sheet)])
      (c.call (sheets.map (fun sheet => .emptyAttrs ⟨"link".toList, .block⟩
        [("rel".toList, "stylesheet".toList), ("href".toList, sheet)]))) := by
  induction sheets generalizing c with
  | nil => exact ⟨c, rfl, Step.refl h, rfl⟩
  | cons s sheets ih =>
    simp only [List.map_cons]
    rw [call_cons]
    have hn : ∀ a ∈ [("rel".toList, "stylesheet".toList), ("href".toList, s)], Name a.1 := by
      intro a ha
      simp only [List.mem_cons, List.not_mem_nil, or_false] at ha
      rcases ha with rfl | rfl
      · show Name "rel".toList; exact isName (by decide)
      · show Name "href".toList; exact isName (by decide)
    have ht := attrText_spec hn (fun a ha => by
      simp only [List.mem_cons, List.not_mem_nil, or_false] at ha
      rcases ha with rfl | rfl
      · show PlainValue "stylesheet".toList; unfold PlainValue; decide
      · exact hs s (by simp))
    obtain ⟨w', gap, h1, h2, h3⟩ := exec_emptyAttrs_block c.writer ⟨"link".toList, .block⟩ _ h.ready
      (isName (by decide)) hn rfl
    refine Goes.bind (fs := []) (is := [_]) (s := c.atStart) ?_ (fun c' hc' hst => ?_)
    · refine ⟨{ c with writer := w' }, by rw [call_one, h1]; rfl, ?_, rfl⟩
      refine ⟨⟨_, h3.text, ?_⟩, h3.depth, h3.indent, h.ofDid h3 (.inr rfl) h.indent⟩
      have e : fresh w' = true := by simp [fresh, h3.state]
      simp only [e]
      have := Shown.voidBlock (fresh := fresh c.writer) (tag := "link".toList) (isName (by decide)) ht h2
        (Shown.nil (fresh := true))
      simpa only [List.append_assoc, List.cons_append, List.nil_append] using this
    · have := ih hc'.good (fun s hs' => hs s (by simp [hs']))
      rw [hst] at this
      exact this

theorem bind_assoc_conv {α β γ : Type} (r : Conversion α) (f : α → Conversion β) (g : β → Conversion γ) :
    (r >>= f >>= g) = (r >>= fun a => f a >>= g) := by
  cases r <;> rfl

theorem shown_nothing {b t b'} (h : Shown b [] t b') (hb : b = true) : b' = true := by
  generalize hi : ([] : List Item) = items at h
  induction h with
  | nil => exact hb
  | indent _ _ ih => exact ih rfl hi
  | _ => cases hi

theorem shown_block {b tag is t b'} (h : Shown b [.block tag is] t b') : b' = true := by
  generalize hi : ([.block tag is] : List Item) = items at h
  induction h with
  | indent _ _ ih => exact ih hi
  | block _ _ _ _ h5 _ _ => cases hi; exact shown_nothing h5 rfl
  | nil => cases hi
  | _ => simp at hi

theorem create_preamble (n : Nat) : ∃ w, (HtmlWriter.create n).exec .preamble = .ok w ∧
    w.text = "<!DOCTYPE html>\n".toList ∧ w.state = .new_line ∧ w.depth = 0 ∧ w.indentDepth = 0 := by
  simp only [exec]
  unfold writePreamble
  simp [HtmlWriter.create, Outcome.assert, breakLine, write, HtmlWriter.text]

/-- Conversion of a document. -/
theorem doc_goes {order} (hw : Walk order) (options : DocOptions)
    (hsheets : ∀ s ∈ options.stylesheets, PlainValue s) (root : Option Node) (hs : SaneRoot root)
    (he : EverywhereBlock Presentable root) :
    (rootFaults root = [] → ∃ w t, docToHtml order options root = .ok w ∧
      w.text = "<!DOCTYPE html>\n".toList ++ t ∧
      Shown true (page options.stylesheets (rootItems order root)) t true) ∧
    (∀ f fs, rootFaults root = f :: fs → docToHtml order options root = f.outcome) := by
  obtain ⟨w₀, p1, p2, p3, p4, p5⟩ := create_preamble options.indentWidth
  have hg : Good ⟨w₀, true, []⟩ := ⟨.inr p3, by rw [p5]; decide, fun _ => rfl⟩
  have main : ∃ b, Goes ⟨w₀, true, []⟩ b (rootFaults root)
      (page options.stylesheets (rootItems order root)) (do
        let c ← (⟨w₀, true, []⟩ : Conv).call [.start ⟨"html".toList, .flat⟩]
        let c ← (do
          let c ← (do
            let c ← c.call [.start ⟨"head".toList, .block⟩]
            let c ← c.call (options.stylesheets.map (fun sheet => .emptyAttrs ⟨"link".toList, .block⟩
              [("rel".toList, "stylesheet".toList), ("href".toList, sheet)]))
            c.call [.close ⟨"head".toList, .block⟩])
          do
            let c ← c.call [.start ⟨"body".toList, .flat⟩]
            let c ← convertRoot order root c
            c.call [.close ⟨"body".toList, .flat⟩])
        c.call [.close ⟨"html".toList, .flat⟩]) := by
    obtain ⟨b, hb⟩ := root_goes hw root hs he
    refine ⟨b, Goes.block (tag := ⟨"html".toList, .flat⟩) hg (isName (by decide)) rfl
      (fun c hc hst _ => ?_)⟩
    refine Goes.bind (fs := []) (is := [_]) (s := true) ?_ (fun c' hc' hst' => ?_)
    · refine Goes.block (tag := ⟨"head".toList, .block⟩) hc (isName (by decide)) rfl
        (fun c' hc' hst' _ => ?_)
      have := sheets_go options.stylesheets hc' hsheets
      rw [hst', hst] at this
      exact this
    · exact Goes.block (tag := ⟨"body".toList, .flat⟩) hc'.good (isName (by decide)) rfl
        (fun c'' hc'' hst'' _ => hb c'' hc'' (hst''.trans hst'))
  obtain ⟨b, main⟩ := main
  have eq : docToHtml order options root = ((do
        let c ← (⟨w₀, true, []⟩ : Conv).call [.start ⟨"html".toList, .flat⟩]
        let c ← (do
          let c ← (do
            let c ← c.call [.start ⟨"head".toList, .block⟩]
            let c ← c.call (options.stylesheets.map (fun sheet => .emptyAttrs ⟨"link".toList, .block⟩
              [("rel".toList, "stylesheet".toList), ("href".toList, sheet)]))
            c.call [.close ⟨"head".toList, .block⟩])
          do
            let c ← c.call [.start ⟨"body".toList, .flat⟩]
            let c ← convertRoot order root c
            c.call [.close ⟨"body".toList, .flat⟩])
        c.call [.close ⟨"html".toList, .flat⟩]) >>= fun c =>
          if !c.writer.isDone then .err ⟨.writer_misuse, ⟨0, 0, 0⟩⟩ else .ok c.writer) := by
    unfold docToHtml headCalls
    simp only [call_append, bind_assoc_conv]
    rw [call_cons]
    have : (⟨HtmlWriter.create options.indentWidth, true, []⟩ : Conv).call [.preamble] =
        .ok ⟨w₀, true, []⟩ := by rw [call_one, p1]; rfl
    rw [this, Outcome.ok_bind]
    simp only [call_cons _ (HtmlCall.start ⟨"html".toList, .flat⟩) [_],
      call_cons _ (HtmlCall.close ⟨"head".toList, .block⟩) [_],
      call_cons _ (HtmlCall.close ⟨"body".toList, .flat⟩) [_], bind_assoc_conv]
  constructor
  · intro hf
    rw [hf] at main
    obtain ⟨c', m1, m2, m3⟩ := main
    rw [m1, Outcome.ok_bind] at eq
    obtain ⟨t, t1, t2⟩ := m2.shown
    have hfresh := shown_block t2
    have hst : c'.writer.state = .new_line := by simpa [fresh] using hfresh
    have hd : c'.writer.isDone = true := by
      unfold isDone
      have h1 := m2.depth
      have h2 := m2.indent
      simp only [p4, p5] at h1 h2
      simp [hst, h1, h2]
    rw [hd] at eq
    simp only [Bool.not_true, Bool.false_eq_true, if_false] at eq
    refine ⟨c'.writer, t, eq, by rw [t1, p2], ?_⟩
    have h0 : fresh w₀ = true := by simp [fresh, p3]
    rw [h0, hfresh] at t2
    exact t2
  · intro f fs hf
    rw [hf] at main
    simp only [Goes] at main
    rw [eq, main]
    exact f.outcome_bind _

end Bms.Bmd
