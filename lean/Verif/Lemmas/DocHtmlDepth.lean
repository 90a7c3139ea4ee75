import Verif.Lemmas.DocHtmlSane

/-!
# Conversion of documents: elements that are closed without having been opened
-/

namespace Bms.Bmd

open Spec HtmlWriter

/-- A directive with arguments and without a block. -/
def lost (args : List (List Char × Value)) (block : Option Node) : Nat :=
  if args ≠ [] ∧ block = none then 1 else 0

mutual

/-- How many directives in a node are shown as tags, and have arguments and no block. -/
def unclosed : Node → Nat
  | .list _ _ children => unclosedIn children
  | .directive _ _ type _ args block =>
    (if isPassthrough type = true ∨ type = .title then lost args block else 0) + unclosedBlock block
  | .text .. => 0

/-- In several nodes. -/
def unclosedIn : List Node → Nat
  | [] => 0
  | n :: ns => unclosed n + unclosedIn ns

/-- In a block. -/
def unclosedBlock : Option Node → Nat
  | none => 0
  | some n => unclosed n

end

mutual

theorem unclosed_zero (n : Node) : unclosed n = 0 ↔ Everywhere (fun t a b => Closed t a b) n := by
  cases n with
  | list p len cs => unfold unclosed Everywhere; exact unclosedIn_zero cs
  | text p len s => simp [unclosed, Everywhere]
  | directive p len type name args block =>
    unfold unclosed Everywhere
    rw [Nat.add_eq_zero_iff, unclosedBlock_zero block]
    refine and_congr_left (fun _ => ?_)
    unfold Closed lost
    by_cases h : isPassthrough type = true ∨ type = .title
    · rw [if_pos h]
      by_cases h' : args ≠ [] ∧ block = none
      · rw [if_pos h']
        simp only [Nat.succ_ne_self, false_iff]
        intro hc
        exact hc h h'.1 h'.2
      · rw [if_neg h']
        simp only [true_iff]
        intro _ h1 h2
        exact h' ⟨h1, h2⟩
    · rw [if_neg h]
      simp only [true_iff]
      intro h'
      exact absurd h' h

theorem unclosedIn_zero (ns : List Node) :
    unclosedIn ns = 0 ↔ EverywhereIn (fun t a b => Closed t a b) ns := by
  cases ns with
  | nil => simp [unclosedIn, EverywhereIn]
  | cons n ns =>
    unfold unclosedIn EverywhereIn
    rw [Nat.add_eq_zero_iff, unclosed_zero n, unclosedIn_zero ns]

theorem unclosedBlock_zero (b : Option Node) :
    unclosedBlock b = 0 ↔ EverywhereBlock (fun t a b => Closed t a b) b := by
  match b with
  | none => simp [unclosedBlock, EverywhereBlock]
  | some n => unfold unclosedBlock EverywhereBlock; exact unclosed_zero n

end

/-- If the conversion succeeds, then `k` elements were closed that had not been opened. -/
def Sinks (c : Conv) (k : Nat) (r : Conversion Conv) : Prop :=
  ∀ c', r = .ok c' → c'.writer.depth + k = c.writer.depth

theorem Sinks.ok {c c' : Conv} (h : c'.writer.depth = c.writer.depth) : Sinks c 0 (.ok c') := by
  rintro _ ⟨⟩; exact h

theorem Sinks.throws {c : Conv} {k : Nat} : Sinks c k .throws := by rintro _ ⟨⟩

theorem Sinks.err {c : Conv} {k : Nat} {e} : Sinks c k (.err e) := by rintro _ ⟨⟩

theorem Sinks.ub {c : Conv} {k : Nat} : Sinks c k .ub := by rintro _ ⟨⟩

theorem Sinks.bind {c : Conv} {k m : Nat} {r : Conversion Conv} {f : Conv → Conversion Conv}
    (h : Sinks c k r) (hf : ∀ c', r = .ok c' → Sinks c' m (f c')) : Sinks c (k + m) (r >>= f) := by
  intro c' hc'
  obtain ⟨d, hd, hd'⟩ := Outcome.bind_eq_ok.mp hc'
  have := h d hd
  have := hf d hd c' hd'
  omega

theorem Sinks.pre {α : Type} {c : Conv} {m : Nat} {r : Conversion α} {f : α → Conversion Conv}
    (hf : ∀ a, r = .ok a → Sinks c m (f a)) : Sinks c m (r >>= f) := by
  intro c' hc'
  obtain ⟨d, hd, hd'⟩ := Outcome.bind_eq_ok.mp hc'
  exact hf d hd c' hd'

theorem call_depth {c c' : Conv} {calls : List HtmlCall} (h : c.call calls = .ok c') :
    c'.writer.depth + closed calls = c.writer.depth + opened calls :=
  C38_depth (call_exec h).1

theorem call_sinks (c : Conv) (calls : List HtmlCall) (h : opened calls = closed calls) :
    Sinks c 0 (c.call calls) := by
  intro c' hc'
  have := call_depth hc'
  omega

theorem gap_depth {w w' : HtmlWriter} {p len q style} (h : w.writeSourceGap p len q style = .ok w') :
    w'.depth = w.depth := by
  unfold writeSourceGap at h
  obtain ⟨_, -, h⟩ := Outcome.bind_eq_ok.mp h
  obtain ⟨_, -, h⟩ := Outcome.bind_eq_ok.mp h
  split at h
  · split at h
    · dsimp only at h
      split at h <;> (cases h; rfl)
    · split at h <;> (cases h; rfl)
  · split at h <;> (cases h; rfl)

theorem tokens_depth {code : List Char} (ts : List Token) (prev : Option Token) {w w' : HtmlWriter}
    (h : tokensToHtml code prev ts w = .ok w') : w'.depth = w.depth := by
  induction ts generalizing prev w with
  | nil => unfold tokensToHtml at h; cases h; rfl
  | cons t ts ih =>
    unfold tokensToHtml at h
    obtain ⟨w1, h1, h⟩ := Outcome.bind_eq_ok.mp h
    obtain ⟨w2, h2, h⟩ := Outcome.bind_eq_ok.mp h
    have e1 : w1.depth = w.depth := by
      unfold tokenGap at h1
      cases prev with
      | none => cases h1; rfl
      | some a => exact gap_depth h1
    have e2 := C38_depth h2
    have e3 := ih _ h
    simp [closed, opened] at e2
    omega

theorem bms_depth {code : List Char} {w w' : HtmlWriter} {b : Bool} (h : bmsToHtml w code = .ok (w', b)) :
    b = true → w'.depth = w.depth := by
  rintro rfl
  unfold bmsToHtml at h
  cases ht : tokenize code with
  | none => simp only [ht] at h; cases h
  | some x =>
    obtain ⟨ts, res⟩ := x
    cases res with
    | err e =>
      simp only [ht] at h
      obtain ⟨w1, h1, h⟩ := Outcome.bind_eq_ok.mp h
      cases h
    | throws => simp only [ht] at h; cases h
    | ub => simp only [ht] at h; cases h
    | ok u =>
      simp only [ht] at h
      cases hp : Parse.parse code ts with
      | throws => simp only [hp] at h; cases h
      | diverge => simp only [hp] at h; cases h
      | _ =>
        simp only [hp] at h
        obtain ⟨w1, h1, h⟩ := Outcome.bind_eq_ok.mp h
        cases h
        exact tokens_depth ts none h1

theorem nested_sinks (c : Conv) (language : Language) (block : Option Node) :
    Sinks c 0 (convertNestedCode language block c) := by
  unfold convertNestedCode
  match block with
  | none => exact Sinks.ok rfl
  | some (.list ..) => exact Sinks.throws
  | some (.directive ..) => exact Sinks.throws
  | some (.text p len code) =>
    cases language with
    | plaintext => exact call_sinks _ _ rfl
    | bms =>
      simp only
      cases hb : bmsToHtml c.writer code with
      | ok x =>
        obtain ⟨w, b⟩ := x
        cases b with
        | true => exact Sinks.ok (bms_depth hb rfl)
        | false => exact Sinks.err
      | err e => exact Sinks.throws
      | throws => exact Sinks.throws
      | ub => exact Sinks.ub
    | bmd => exact Sinks.throws
    | c => exact Sinks.throws
    | cxx => exact Sinks.throws
    | rust => exact Sinks.throws

theorem startClose_sinks {c : Conv} {x : List HtmlCall} {tag : Tag} {k : Nat} {f : Conv → Conversion Conv}
    (hx : opened x = closed x + 1) (hf : ∀ c', Sinks c' k (f c')) :
    Sinks c k (do
      let c ← c.call x
      let c ← f c
      c.call [.close tag]) := by
  intro c' hc'
  obtain ⟨d, hd, hc'⟩ := Outcome.bind_eq_ok.mp hc'
  obtain ⟨e, he, hc'⟩ := Outcome.bind_eq_ok.mp hc'
  have h1 := call_depth hd
  have h2 := hf d e he
  have h3 := call_depth hc'
  simp [closed, opened] at h3
  omega

theorem code_sinks (c : Conv) (type : DirType) (args : List (List Char × Value)) (block : Option Node) :
    Sinks c 0 (convertCode type args block c) := by
  unfold convertCode
  refine Sinks.pre (fun l _ => ?_)
  exact startClose_sinks (c := c.started) rfl (fun c' => nested_sinks c' l block)

theorem instruction_sinks (c : Conv) (args : List (List Char × Value)) (block : Option Node) :
    Sinks c 0 (convertInstruction args block c) := by
  unfold convertInstruction
  refine Sinks.pre (fun l _ => ?_)
  match block with
  | none => exact Sinks.ub
  | some (.list ..) => exact Sinks.throws
  | some (.directive ..) => exact Sinks.throws
  | some (.text p len text) =>
    refine Sinks.bind (k := 0) (m := 0) (c := c.started) (call_sinks _ _ ?_) (fun c' _ => ?_)
    · unfold instructionCalls
      dsimp only
      split <;> rfl
    · unfold convertExtension
      split
      · exact Sinks.ok rfl
      · exact Sinks.throws
      · exact Sinks.ok rfl
      · exact call_sinks _ _ rfl

theorem begin_depth (order) (args : List (List Char × Value)) (block : Option Node) (tag : Tag) :
    opened (beginPassedThrough order args block tag) + lost args block = 1 ∧
      closed (beginPassedThrough order args block tag) = 0 := by
  unfold beginPassedThrough lost
  cases args with
  | nil => exact ⟨rfl, rfl⟩
  | cons a as =>
    cases block with
    | none => exact ⟨rfl, rfl⟩
    | some b => exact ⟨rfl, rfl⟩

theorem unclosed_titles {ns : List Node} (h : SaneNodes .meta_ ns) :
    unclosedIn ns = ((titles ns).map fun t => lost t.2.1 t.2.2).sum := by
  induction ns with
  | nil => rfl
  | cons n ns ih =>
    obtain ⟨h1, h2⟩ := h
    have ih := ih h2
    cases n with
    | list p len cs => simp [SaneNode] at h1
    | text p len s => simp [SaneNode] at h1
    | directive p len type name args block =>
      obtain ⟨e1, -, e3⟩ := h1
      have ht : type = .title ∨ type = .bms_function ∨ type = .c_equivalent := by
        cases type <;> simp [environmentOf] at e1 <;> simp
      have hc : contentTypeOf type = .text_span := by rcases ht with rfl | rfl | rfl <;> rfl
      rw [hc] at e3
      have hb : unclosedBlock block = 0 := by
        match block with
        | none => rfl
        | some (.text ..) => rfl
        | some (.list ..) => simp [SaneBlock, SaneInner] at e3
        | some (.directive ..) => simp [SaneBlock, SaneInner] at e3
      unfold unclosedIn unclosed
      rw [hb, ih]
      rcases ht with rfl | rfl | rfl
      · simp [titles]
      · simp [titles, isPassthrough]
      · simp [titles, isPassthrough]

theorem meta_sinks (c : Conv) (order) (p : Position) (block : Option Node) (hb : SaneBlock .meta_ block) :
    Sinks c (unclosedBlock block) (convertMeta order p block c) := by
  unfold convertMeta
  by_cases hst : (!c.atStart) = true
  · rw [if_pos hst]; exact Sinks.err
  rw [if_neg hst]
  match block with
  | none => exact Sinks.ok rfl
  | some (.text ..) => exact Sinks.throws
  | some (.directive ..) => exact Sinks.throws
  | some (.list p len cs) =>
    have hs : SaneNodes .meta_ cs := by
      rcases hb with ⟨-, hb⟩ | ⟨hb, -⟩
      · exact hb
      · cases hb
    unfold unclosedBlock unclosed
    rw [unclosed_titles hs]
    dsimp only
    rw [metaLoop_goes hs]
    cases ht : titles cs with
    | nil => exact Sinks.ok rfl
    | cons t ts =>
      obtain ⟨q, args, bl⟩ := t
      cases ts with
      | cons u us => exact Sinks.err
      | nil =>
        simp only [Outcome.ok_bind, List.map_cons, List.map_nil, List.sum_cons, List.sum_nil, Nat.add_zero]
        intro c' hc'
        have h1 := call_depth hc'
        have e1 : ∀ (a b : List HtmlCall), opened (a ++ b) = opened a + opened b := by
          intro a b; simp [opened]
        have e2 : ∀ (a b : List HtmlCall), closed (a ++ b) = closed a + closed b := by
          intro a b; simp [closed]
        rw [e1, e2] at h1
        have h2 := begin_depth order args bl ⟨"h1".toList, .in_line⟩
        have h3 : ∀ s : List Char, closed [.text s .in_line, .close ⟨"h1".toList, .in_line⟩] = 1 := fun _ => rfl
        have h4 : ∀ s : List Char, opened [.text s .in_line, .close ⟨"h1".toList, .in_line⟩] = 0 := fun _ => rfl
        rw [h3, h4] at h1
        have h5 : (if bl ≠ none then { c.started with title := blockText bl } else c.started).writer =
            c.writer := by split <;> rfl
        rw [h5] at h1
        omega

theorem pass_sinks (c : Conv) (order) (type : DirType) (args : List (List Char × Value)) (block : Option Node)
    {inner : Conv → Conversion Conv} {k : Nat} (hn : block = none → k = 0)
    (hi : ∀ c', Sinks c' k (inner c')) :
    Sinks c (lost args block + k) (convertPassthrough order type args block inner c) := by
  unfold convertPassthrough
  dsimp only
  refine Sinks.pre (fun _ _ => ?_)
  by_cases h : (block.isNone && args.isEmpty) = true
  · rw [if_pos h]
    simp only [Bool.and_eq_true, Option.isNone_iff_eq_none, List.isEmpty_iff] at h
    obtain ⟨rfl, rfl⟩ := h
    rw [hn rfl]
    exact call_sinks c.started _ rfl
  · rw [if_neg h]
    intro c' hc'
    obtain ⟨d, hd, hc'⟩ := Outcome.bind_eq_ok.mp hc'
    obtain ⟨e, he, hc'⟩ := Outcome.bind_eq_ok.mp hc'
    have h1 := call_depth hd
    have h2 := hi d e he
    have h3 := call_depth hc'
    have h4 := begin_depth order args block ⟨tagOf type, styleOf type⟩
    simp [closed, opened] at h3
    have h5 : c.started.writer.depth = c.writer.depth := rfl
    omega

theorem directive_sinks (c : Conv) (order) {p : Position} {type : DirType} {name : List Char}
    {args : List (List Char × Value)} {block : Option Node}
    (hb : SaneBlock (contentTypeOf type) block)
    (hi : isPassthrough type = true → ∀ c', Sinks c' (unclosedBlock block)
        (convertBlock order (styleOf type) (contentTypeOf type) block c')) :
    Sinks c (unclosed (.directive p len type name args block))
      (convertDirective order p type args block
        (convertBlock order (styleOf type) (contentTypeOf type) block) c) := by
  unfold unclosed convertDirective
  by_cases hp : isPassthrough type = true
  · rw [if_pos hp, if_pos (.inl hp)]
    exact pass_sinks c order type args block (by rintro rfl; rfl) (hi hp)
  · rw [if_neg hp]
    have text : ∀ ctx, (ctx = .raw ∨ ctx = .text_span) → SaneBlock ctx block → unclosedBlock block = 0 := by
      intro ctx hc hb
      match block with
      | none => rfl
      | some (.text ..) => rfl
      | some (.list ..) => rcases hc with rfl | rfl <;> simp [SaneBlock, SaneInner] at hb
      | some (.directive ..) => simp [SaneBlock, SaneInner] at hb
    cases type with
    | meta_ =>
      have := meta_sinks c order p block hb
      simpa [isPassthrough] using this
    | code =>
      simp only [isPassthrough, reduceCtorEq, Bool.false_eq_true, or_self, if_false, Nat.zero_add]
      match block with
      | none => exact code_sinks c _ args none
      | some (.text ..) => simp [SaneBlock, SaneInner, contentTypeOf] at hb
      | some (.directive ..) => simp [SaneBlock, SaneInner] at hb
      | some (.list p len cs) =>
        unfold convertCode
        refine Sinks.pre (fun l _ => Sinks.pre (fun c' _ => ?_))
        exact Sinks.throws
    | code_block =>
      rw [text .raw (.inl rfl) hb]
      exact code_sinks c _ args block
    | instruction =>
      rw [text .text_span (.inr rfl) hb]
      exact instruction_sinks c args block
    | item => exact Sinks.throws
    | note => exact Sinks.throws
    | title => exact Sinks.throws
    | bms_function => exact Sinks.throws
    | c_equivalent => exact Sinks.throws
    | _ => exact absurd rfl hp

theorem text_sinks (c : Conv) (style p len s next) : Sinks c 0 (convertText style p len s next c) := by
  unfold convertText
  cases hw : c.writer.writeInnerText s style with
  | ok x =>
    obtain ⟨w, n⟩ := x
    have e : w.depth = c.writer.depth := by
      have := C38_depth (w := c.writer) (w' := w) (cs := [.text s style]) (by
        change (c.writer.exec (.text s style) >>= fun w => Outcome.ok w) = _
        change (Outcome.map Prod.fst (c.writer.writeInnerText s style) >>= fun w => Outcome.ok w) = _
        rw [hw]; rfl)
      simpa [closed, opened] using this
    dsimp only
    match next with
    | none => exact Sinks.ok e
    | some (.text ..) => exact Sinks.throws
    | some (.list ..) => exact Sinks.throws
    | some (.directive q _ _ _ _ _) =>
      dsimp only
      split
      · exact Sinks.ok e
      · intro c' hc'
        have := call_sinks _ _ rfl c' hc'
        rw [← e]; exact this
  | err e => exact Sinks.throws
  | throws => exact Sinks.throws
  | ub => exact Sinks.ub

theorem gap_sinks (c : Conv) (prev : Option Node) (n : Node) : Sinks c 0 (gapBehind prev n c) := by
  match prev with
  | none => exact Sinks.ok rfl
  | some (.text ..) => exact Sinks.ok rfl
  | some (.list ..) => exact Sinks.ok rfl
  | some (.directive p len _ _ _ _) =>
    unfold gapBehind
    dsimp only
    cases hw : c.writer.writeSourceGap p len n.span.1 .in_line with
    | ok w => exact Sinks.ok (gap_depth hw)
    | err e => exact Sinks.throws
    | throws => exact Sinks.throws
    | ub => exact Sinks.ub

mutual

theorem children_sink {order} {style : Style} {ctx : ContentType} (hctx : ctx = .span ∨ ctx = .list)
    (prev : Option Node) (ns : List Node) (c : Conv) (hs : SaneNodes ctx ns) :
    Sinks c (unclosedIn ns) (convertChildren order style prev ns c) := by
  cases ns with
  | nil => unfold convertChildren unclosedIn; exact Sinks.ok rfl
  | cons n ns =>
    unfold convertChildren unclosedIn
    rw [← Nat.zero_add (unclosed n + _)]
    refine Sinks.bind (gap_sinks c prev n) (fun c' _ => ?_)
    refine Sinks.bind ?_ (fun c'' _ => children_sink hctx (some n) ns c'' hs.2)
    have hn := hs.1
    cases n with
    | list p len cs => simp [SaneNode] at hn
    | text p len s => unfold convertChild unclosed; exact text_sinks c' style p len s ns.head?
    | directive p len type name args block =>
      unfold convertChild
      refine Sinks.pre (fun _ _ => ?_)
      refine directive_sinks c' order hn.2.2 (fun hp c' => block_sink ?_ block c' hn.2.2)
      cases type <;> simp [isPassthrough] at hp <;> simp [contentTypeOf]

theorem block_sink {order} {style : Style} {ctx : ContentType}
    (hctx : ctx = .span ∨ ctx = .list ∨ ctx = .nothing) (block : Option Node) (c : Conv)
    (hs : SaneBlock ctx block) :
    Sinks c (unclosedBlock block) (convertBlock order style ctx block c) := by
  match block with
  | none => unfold convertBlock unclosedBlock; exact Sinks.ok rfl
  | some (.text p len s) =>
    rcases hctx with rfl | rfl | rfl <;> simp [SaneBlock, SaneInner] at hs
  | some (.directive p len ty name args bl) => simp [SaneBlock, SaneInner] at hs
  | some (.list p len cs) =>
    have hc : ctx = .span ∨ ctx = .list := by
      rcases hctx with rfl | rfl | rfl
      · exact .inl rfl
      · exact .inr rfl
      · simp [SaneBlock, SaneInner] at hs
    have hs' : SaneNodes ctx cs := by
      rcases hs with ⟨-, hs⟩ | ⟨hs, -⟩
      · exact hs
      · rcases hc with rfl | rfl <;> cases hs
    unfold convertBlock convertInner unclosedBlock unclosed
    rw [if_pos (by rcases hc with rfl | rfl <;> simp)]
    exact children_sink hc none cs c hs'

end

theorem top_sinks {order} (c : Conv) {n : Node} (hs : SaneTop n) : Sinks c (unclosed n) (convertTop order n c) := by
  cases n with
  | text p len s => simp [SaneTop] at hs
  | list p len cs =>
    unfold convertTop unclosed
    refine Sinks.pre (fun _ _ => ?_)
    exact startClose_sinks rfl (fun c' => children_sink (.inl rfl) none cs c' hs.2)
  | directive p len type name args block =>
    unfold convertTop
    refine Sinks.pre (fun _ _ => ?_)
    refine directive_sinks c order hs.2.2 (fun hp c' => block_sink ?_ block c' hs.2.2)
    cases type <;> simp [isPassthrough] at hp <;> simp [contentTypeOf]

theorem content_sinks {order} (ns : List Node) (c : Conv) (hs : SaneTops ns) :
    Sinks c (unclosedIn ns) (convertContent order ns c) := by
  induction ns generalizing c with
  | nil => unfold convertContent unclosedIn; exact Sinks.ok rfl
  | cons n ns ih =>
    unfold convertContent unclosedIn
    exact Sinks.bind (top_sinks c hs.1) (fun c' _ => ih c' hs.2)

theorem root_sinks {order} (root : Option Node) (c : Conv) (hs : SaneRoot root) :
    Sinks c (unclosedBlock root) (convertRoot order root c) := by
  match root with
  | none => exact Sinks.ok rfl
  | some (.list p len cs) => exact content_sinks cs c hs
  | some (.text p len s) => simp [SaneRoot] at hs
  | some (.directive p len ty name args bl) => simp [SaneRoot] at hs

/-- If a directive that is shown as a tag has arguments and no block, there is no page. -/
theorem doc_unclosed {order} {options : DocOptions} {root : Option Node} (hs : SaneRoot root)
    {w : HtmlWriter} (h : docToHtml order options root = .ok w) :
    EverywhereBlock (fun t a b => Closed t a b) root := by
  unfold docToHtml at h
  dsimp only at h
  obtain ⟨c1, h1, h⟩ := Outcome.bind_eq_ok.mp h
  obtain ⟨c2, h2, h⟩ := Outcome.bind_eq_ok.mp h
  obtain ⟨c3, h3, h⟩ := Outcome.bind_eq_ok.mp h
  have e1 := call_depth h1
  have e2 := root_sinks root c1 hs c2 h2
  have e3 := call_depth h3
  have hsheets : ∀ l : List (List Char), opened (l.map (fun sheet => .emptyAttrs ⟨"link".toList, .block⟩
        [("rel".toList, "stylesheet".toList), ("href".toList, sheet)])) = 0 ∧
      closed (l.map (fun sheet => .emptyAttrs ⟨"link".toList, .block⟩
        [("rel".toList, "stylesheet".toList), ("href".toList, sheet)])) = 0 := by
    intro l
    induction l with
    | nil => exact ⟨rfl, rfl⟩
    | cons a l ih => exact ih
  obtain ⟨z1, z2⟩ := hsheets options.stylesheets
  unfold headCalls at e1
  unfold opened closed at e1
  unfold opened at z1
  unfold closed at z2
  rw [List.countP_append, List.countP_append, List.countP_append, List.countP_append, z1, z2] at e1
  simp [closed, opened] at e1 e3
  have e4 : (HtmlWriter.create options.indentWidth).depth = 0 := rfl
  split at h
  · cases h
  · exact (unclosedBlock_zero root).mp (by omega)

end Bms.Bmd
