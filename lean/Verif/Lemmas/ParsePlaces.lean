import Verif.Lemmas.ParseRun
import Verif.Spec.Places

/-!
# Nodes are at the tokens that introduce them
-/

namespace Bms.Parse

open Spec

variable {α β : Type} {src : List Char} {nodes : List Node} {T : Token → Prop}

/-- The node is at the token that introduces it, one for which `T` holds. -/
def Placed (src : List Char) (nodes : List Node) (T : Token → Prop) (n : Node) : Prop :=
  (∃ t, T t ∧ n.pos = t.span ∧ IntroducedBy src nodes n t) ∧ Shaped n

/-- All nodes that a program adds are placed, and `Q` holds for what it returns; `nodes` are the nodes
in the end, and `T` holds for all tokens. -/
def Places (src : List Char) (nodes : List Node) (T : Token → Prop) :
    {α : Type} → Prog α → (α → Prop) → Prop
  | _, .ret a, Q => Q a
  | _, .fail _, _ => True
  | _, .throws, _ => True
  | _, .diverge, _ => True
  | _, .next p _ k, Q => Places src nodes T (k none) Q ∧
      ∀ t, T t → p t.type = true → Places src nodes T (k (some t)) Q
  | _, .peek1 k, Q => ∀ t, Places src nodes T (k t) Q
  | _, .push n k, Q => Placed src nodes T n ∧ ∀ h, nodes[h]? = some n → Places src nodes T (k h) Q
  | _, .extract t k, Q => Places src nodes T (k (wordOf src t)) Q
  | _, .commit k, Q => ∀ b, Places src nodes T (k b) Q
  | _, .attempt _ k, Q => ∀ b, Places src nodes T (k b) Q
  | _, .handle b e k, Q => ∃ R, Places src nodes T b R ∧ (∀ r, Places src nodes T (e r) Q) ∧
      ∀ a, R a → Places src nodes T (k a) Q

theorem Places.mono {p : Prog α} {Q Q' : α → Prop} (h : Places src nodes T p Q) (hq : ∀ a, Q a → Q' a) :
    Places src nodes T p Q' := by
  induction p with
  | ret a => exact hq a h
  | fail e => trivial
  | throws => trivial
  | diverge => trivial
  | next p i k ih => exact ⟨ih none h.1 hq, fun t h1 h2 => ih _ (h.2 t h1 h2) hq⟩
  | peek1 k ih => exact fun t => ih t (h t) hq
  | push n k ih => exact ⟨h.1, fun t ht => ih t (h.2 t ht) hq⟩
  | extract t k ih => exact ih _ h hq
  | commit k ih => exact fun t => ih t (h t) hq
  | attempt b k ihb ih => exact fun t => ih t (h t) hq
  | handle b e k ihb ihe ih =>
    obtain ⟨R, h1, h2, h3⟩ := h
    exact ⟨R, h1, fun r => ihe r (h2 r) hq, fun a ha => ih a (h3 a ha) hq⟩

theorem Places.bind {p : Prog α} {f : α → Prog β} {Q : α → Prop} {Q' : β → Prop}
    (hp : Places src nodes T p Q) (hf : ∀ a, Q a → Places src nodes T (f a) Q') :
    Places src nodes T (p.bind f) Q' := by
  induction p with
  | ret a => exact hf a hp
  | fail e => trivial
  | throws => trivial
  | diverge => trivial
  | next p i k ih => exact ⟨ih none hp.1 hf, fun t h1 h2 => ih _ (hp.2 t h1 h2) hf⟩
  | peek1 k ih => exact fun t => ih t (hp t) hf
  | push n k ih => exact ⟨hp.1, fun t ht => ih t (hp.2 t ht) hf⟩
  | extract t k ih => exact ih _ hp hf
  | commit k ih => exact fun t => ih t (hp t) hf
  | attempt b k ihb ih => exact fun t => ih t (hp t) hf
  | handle b e k ihb ihe ih =>
    obtain ⟨R, h1, h2, h3⟩ := hp
    exact ⟨R, h1, fun r => ihe r (h2 r) hf, fun a ha => ih a (h3 a ha) hf⟩

theorem prefix_getElem {n : Node} {xs ys zs : List Node} (h : xs ++ [n] <+: ys) (h' : ys <+: zs) :
    zs[xs.length]? = some n := by
  obtain ⟨a, rfl⟩ := h
  obtain ⟨b, rfl⟩ := h'
  simp

/-- What `Places` means. -/
theorem Places.run {p : Prog α} {Q : α → Prop} (hp : Places src nodes T p Q) {s s' : State}
    (hs : ∀ t ∈ s.rest, T t) (hn : ∀ n ∈ s.nodes, Placed src nodes T n) (hf : s'.nodes <+: nodes) :
    (∀ a, p.run src s = .ok a s' → Q a ∧ ∀ n ∈ s'.nodes, Placed src nodes T n) ∧
    (∀ e, p.run src s = .err e s' → ∀ n ∈ s'.nodes, Placed src nodes T n) := by
  induction p generalizing s s' with
  | ret a => exact ⟨fun a h => by cases h; exact ⟨hp, hn⟩, fun e h => by cases h⟩
  | fail e => exact ⟨fun a h => by (cases h), fun e h => by cases h; exact hn⟩
  | throws => exact ⟨fun a h => by (cases h), fun e h => by (cases h)⟩
  | diverge => exact ⟨fun a h => by (cases h), fun e h => by (cases h)⟩
  | next p i k ih =>
    simp only [Prog.run]
    cases hk : skipComments s.rest with
    | nil => exact ih none hp.1 (fun t ht => absurd ht List.not_mem_nil) hn hf
    | cons t ts =>
      have hm : ∀ x ∈ t :: ts, T x := fun x hx => hs x ((skipComments_suffix s.rest).mem (hk ▸ hx))
      by_cases hpt : p t.type = true
      · cases i <;> simp only [hpt, if_true, if_false, Bool.false_eq_true]
        · exact ih _ (hp.2 t (hm t List.mem_cons_self) hpt) hm hn hf
        · exact ih _ (hp.2 t (hm t List.mem_cons_self) hpt) (fun x hx => hm x (List.mem_cons_of_mem _ hx)) hn hf
      · simp only [hpt, if_false, Bool.false_eq_true]
        exact ih _ hp.1 hm hn hf
  | peek1 k ih => exact ih _ (hp _) hs hn hf
  | push n k ih =>
    have hn' : ∀ m ∈ s.nodes ++ [n], Placed src nodes T m := by
      intro m hm
      rcases List.mem_append.mp hm with hm | hm
      · exact hn m hm
      · rw [List.mem_singleton.mp hm]; exact hp.1
    constructor
    · intro a h
      have hm := (run_ok_mono (p := k s.nodes.length) (s := ⟨s.rest, s.nodes ++ [n]⟩) h).2
      exact (ih _ (hp.2 _ (prefix_getElem hm hf)) (s := ⟨s.rest, s.nodes ++ [n]⟩) hs hn' hf).1 a h
    · intro a h
      have hm := (run_err_mono (p := k s.nodes.length) (s := ⟨s.rest, s.nodes ++ [n]⟩) h).2
      exact (ih _ (hp.2 _ (prefix_getElem hm hf)) (s := ⟨s.rest, s.nodes ++ [n]⟩) hs hn' hf).2 a h
  | extract t k ih =>
    simp only [Prog.run]
    by_cases hl : t.pos.start ≤ src.length
    · rw [if_pos hl]; exact ih _ hp hs hn hf
    · rw [if_neg hl]; exact ⟨fun a h => by (cases h), fun e h => by (cases h)⟩
  | commit k ih => exact ih _ (hp _) hs hn hf
  | attempt b k ihb ih =>
    rw [run_attempt]
    cases hb : b.run src s with
    | ok r _ => exact ih _ (hp _) hs hn hf
    | err r _ => exact ih _ (hp _) hs hn hf
    | throws => exact ⟨fun a h => by (cases h), fun e h => by (cases h)⟩
    | diverge => exact ⟨fun a h => by (cases h), fun e h => by (cases h)⟩
  | handle b e k ihb ihe ih =>
    obtain ⟨R, h1, h2, h3⟩ := hp
    simp only [Prog.run]
    cases hb : b.run src s with
    | ok r s1 =>
      have hm := run_ok_mono hb
      have hs1 : ∀ t ∈ s1.rest, T t := fun t ht => hs t (hm.1.mem ht)
      constructor
      · intro a h
        have h4 := (ihb h1 hs hn ((run_ok_mono h).2.trans hf)).1 r hb
        exact (ih _ (h3 r h4.1) hs1 h4.2 hf).1 a h
      · intro a h
        have h4 := (ihb h1 hs hn ((run_err_mono h).2.trans hf)).1 r hb
        exact (ih _ (h3 r h4.1) hs1 h4.2 hf).2 a h
    | err r s1 =>
      have hm := run_err_mono hb
      have hs1 : ∀ t ∈ s1.rest, T t := fun t ht => hs t (hm.1.mem ht)
      constructor
      · intro a h
        have h4 := (ihb h1 hs hn ((run_ok_mono h).2.trans hf)).2 r hb
        exact (ihe _ (h2 r) hs1 h4 hf).1 a h
      · intro a h
        have h4 := (ihb h1 hs hn ((run_err_mono h).2.trans hf)).2 r hb
        exact (ihe _ (h2 r) hs1 h4 hf).2 a h
    | throws => exact ⟨fun a h => by (cases h), fun e h => by (cases h)⟩
    | diverge => exact ⟨fun a h => by (cases h), fun e h => by (cases h)⟩

theorem Places.expect {ty : TokenType} {f : Option Token → Prog β} {Q : β → Prop}
    (hn : Places src nodes T (f none) Q)
    (hs : ∀ t, T t ∧ t.type = ty → Places src nodes T (f (some t)) Q) :
    Places src nodes T ((expect ty).bind f) Q :=
  ⟨hn, fun t h1 h2 => hs t ⟨h1, by simpa using h2⟩⟩
theorem Places.expectIf {p : TokenType → Bool} {f : Option Token → Prog β} {Q : β → Prop}
    (hn : Places src nodes T (f none) Q) (hs : ∀ t, T t → Places src nodes T (f (some t)) Q) :
    Places src nodes T ((expectIf p).bind f) Q :=
  ⟨hn, fun t h1 _ => hs t h1⟩
theorem Places.require {r : GrammarRule} {ty : TokenType} :
    Places src nodes T (require r ty) fun t => T t ∧ t.type = ty :=
  ⟨trivial, fun _ h1 h2 => ⟨h1, by simpa using h2⟩⟩
theorem Places.peek {ty : TokenType} : Places src nodes T (Parse.peek ty) fun _ => True :=
  ⟨trivial, fun _ _ _ => trivial⟩
theorem Places.peekAny : Places src nodes T Parse.peekAny fun _ => True :=
  ⟨trivial, fun _ _ _ => trivial⟩
theorem Places.push {n : Node} (h : Placed src nodes T n) :
    Places src nodes T (Parse.push n) fun h => PlacedAt nodes n.pos h :=
  ⟨h, fun i hi => ⟨i, n, rfl, hi, rfl⟩⟩
theorem Places.pushOrNull {n : Option Node} (h : ∀ a, n = some a → Placed src nodes T a) :
    Places src nodes T (Parse.pushOrNull n) fun _ => True := by
  cases n with
  | none => trivial
  | some n => exact ⟨h n rfl, fun _ _ => trivial⟩
theorem Places.extract {t : Token} : Places src nodes T (Parse.extract t) fun s => s = wordOf src t := rfl
theorem Places.assert {c : Bool} : Places src nodes T (Parse.assert c) fun _ => True := by
  unfold Parse.assert; split <;> trivial
theorem Places.failed {e : RuleError} {Q : α → Prop} : Places src nodes T (.fail e : Prog α) Q := trivial
theorem Places.throws' {Q : α → Prop} : Places src nodes T (.throws : Prog α) Q := trivial

/-- Show that a new node is placed. -/
macro "placed" : tactic => `(tactic| (
  refine ⟨⟨_, ?_, rfl, ?_⟩, fun c hc => ?_⟩
  · simp_all
  · simp_all [IntroducedBy]
  · simpa [childCount] using hc))

open Lean in
/-- Prove `Places` for a member function from `Places` for the functions it calls. -/
macro "places" "[" ts:term,* "]" : tactic => do
  let alts ← ts.getElems.mapM fun t => `(tactic| exact $t)
  let all : Array (TSyntax `tactic) := alts
  let alts' ← ts.getElems.mapM fun t => `(tactic| refine Places.bind $t (fun _ _ => ?_))
  let all' : Array (TSyntax `tactic) := alts'
  `(tactic| (
    (try simp only [bind_eq, pure_eq])
    repeat' (with_reducible first
      | exact Places.failed | exact Places.throws'
      | (first $[| $all:tactic]*)
      | refine Places.expect ?_ (fun _ _ => ?_) | refine Places.expectIf ?_ (fun _ _ => ?_)
      | refine Places.bind Places.require (fun _ _ => ?_)
      | refine Places.bind Places.extract (fun _ _ => ?_)
      | refine Places.bind Places.assert (fun _ _ => ?_)
      | refine Places.bind Places.peek (fun _ _ => ?_)
      | refine Places.bind Places.peekAny (fun _ _ => ?_)
      | refine Places.bind (Places.push (by assumption)) (fun _ _ => ?_)
      | refine Places.bind (Places.pushOrNull (by assumption)) (fun _ _ => ?_)
      | (first $[| $all':tactic]*)
      | dsimp only
      | split)))

/-- What the recursive functions return. -/
def Returned (src : List Char) (nodes : List Node) (T : Token → Prop) : (r : Rule) → r.Result → Prop
  | .expression | .ifExpression | .ifStatement _ => Placed src nodes T
  | .arguments .. | .annotationArguments _ | .statements _ => fun _ => True
  | .declarations acc => fun (hs : List Handle) => acc <+: hs
  | .parameters _ | .annotations _ => fun (p : Span × List Handle) =>
    (∃ t, T t ∧ p.1 = t.span) ∧ ∃ hs h, p.2 = hs ++ [h] ∧ PlacedAt nodes p.1 h

/-- Annotations that are passed on are placed. -/
def Given (src : List Char) (nodes : List Node) (T : Token → Prop) : Rule → Prop
  | .ifStatement a => ∀ n, a = some n → Placed src nodes T n
  | _ => True

section
variable {rec : (r : Rule) → Prog r.Result}
  (h : ∀ r, Given src nodes T r → Places src nodes T (rec r) (Returned src nodes T r))
include h

theorem places_expression_rec : Places src nodes T (rec .expression) (Placed src nodes T) :=
  h .expression trivial

theorem places_parenthesized : Places src nodes T (matchParenthesized rec) (Placed src nodes T) := by
  unfold matchParenthesized
  places [places_expression_rec h]
  simpa [Places]

theorem places_primary : Places src nodes T (matchPrimary rec) (Placed src nodes T) := by
  unfold matchPrimary
  places [places_expression_rec h]
  · exact ⟨_, places_parenthesized h, fun _ => trivial, fun a ha => ha⟩
  · placed
  · placed

omit h in
theorem places_annotationArgument :
    Places src nodes T matchAnnotationArgument (Placed src nodes T) := by
  unfold matchAnnotationArgument
  simp only [bind_eq, pure_eq]
  refine Places.expect ?_ (fun k hk => ?_)
  · refine Places.bind (Q := fun s => s = []) rfl (fun s hs => ?_)
    refine Places.expectIf trivial (fun t ht => ?_)
    dsimp only
    refine Places.bind Places.extract (fun v hv => ?_)
    split
    · refine Places.bind Places.assert (fun _ _ => ?_)
      exact ⟨⟨t, ht, rfl, .inr ⟨hs, rfl⟩⟩, by simp [Shaped, childCount]⟩
    · exact ⟨⟨t, ht, rfl, .inr ⟨hs, rfl⟩⟩, by simp [Shaped, childCount]⟩
  · refine Places.bind Places.require (fun _ _ => ?_)
    refine Places.bind Places.extract (fun s hs => ?_)
    refine Places.expectIf trivial (fun t ht => ?_)
    dsimp only
    refine Places.bind Places.extract (fun v hv => ?_)
    split
    · refine Places.bind Places.assert (fun _ _ => ?_)
      exact ⟨⟨k, hk.1, rfl, .inl ⟨hk.2, hs⟩⟩, by simp [Shaped, childCount]⟩
    · exact ⟨⟨k, hk.1, rfl, .inl ⟨hk.2, hs⟩⟩, by simp [Shaped, childCount]⟩

theorem places_annotationArguments :
    Places src nodes T (matchAnnotationArguments rec) fun _ => True := by
  unfold matchAnnotationArguments
  have h1 : Places src nodes T (rec (.annotationArguments [])) fun _ => True := h (.annotationArguments []) trivial
  have h2 : Places src nodes T (matchAnnotationArgumentSequence rec) fun _ => True := by
    unfold matchAnnotationArgumentSequence
    exact Places.bind h1 fun _ _ => Places.bind Places.assert fun _ _ => trivial
  refine Places.expect trivial fun _ _ => Places.expect ?_ fun _ _ => trivial
  exact Places.bind h2 fun _ _ => Places.bind Places.require fun _ _ => trivial

theorem places_annotation : Places src nodes T (matchAnnotation rec) (Placed src nodes T) := by
  unfold matchAnnotation
  refine Places.bind Places.require fun a ha => Places.bind Places.require fun i hi => ?_
  exact ⟨_, places_annotationArguments h, fun _ => trivial, fun args _ => ⟨⟨a, ha.1, rfl, ha.2⟩, by simp [Shaped, childCount]⟩⟩

theorem places_annotationSequence : Places src nodes T (matchAnnotationSequence rec) (Placed src nodes T) := by
  unfold matchAnnotationSequence
  refine Places.bind (h (.annotations []) trivial) fun p hp => ?_
  obtain ⟨⟨t, ht, h1⟩, hs, x, h2, h3⟩ := hp
  refine Places.bind Places.assert fun _ _ => ?_
  exact ⟨⟨t, ht, h1, x, hs, h2, h3⟩, by simp [Shaped, childCount]⟩

theorem places_call : Places src nodes T (matchFunctionCall rec) fun n =>
    Placed src nodes T n ∧ ∀ b, Placed src nodes T ⟨n.pos, match n.kind with
      | .function_call_expression x _ => .function_call_expression x b
      | k => k, n.children⟩ := by
  unfold matchFunctionCall
  refine Places.bind Places.require fun i hi => Places.bind Places.require fun _ _ => ?_
  refine Places.bind (Q := fun _ => True) (h (.arguments false []) trivial) fun _ _ => ?_
  refine Places.bind (Q := fun o => ∀ a, o = some a → Placed src nodes T a) ?_ fun o ho => ?_
  · refine Places.bind Places.peek fun b _ => ?_
    cases b
    · exact fun _ h => by cases h
    · exact Places.bind (places_annotationSequence h) fun a ha => fun b hb => by cases hb; exact ha
  · refine Places.bind Places.extract fun s hs => ?_
    refine Places.bind (Places.pushOrNull ho) fun _ _ => ?_
    exact ⟨⟨⟨i, hi.1, rfl, hi.2, hs⟩, by simp [Shaped, childCount]⟩, fun b => ⟨⟨i, hi.1, rfl, hi.2, hs⟩, by simp [Shaped, childCount]⟩⟩

theorem places_callExpression : Places src nodes T (matchFunctionCall rec) (Placed src nodes T) :=
  (places_call h).mono fun _ h => h.1

theorem places_postfix : Places src nodes T (matchPostfix rec) (Placed src nodes T) := by
  unfold matchPostfix
  refine Places.bind Places.peek fun b _ => ?_
  split
  · intro t
    show Places _ _ _ (if _ then _ else _) _
    places [places_callExpression h, places_primary h]
  · exact places_primary h

theorem places_prefix : Places src nodes T (matchPrefix rec) (Placed src nodes T) := by
  unfold matchPrefix mkPrefix
  places [places_postfix h]
  placed

theorem places_arithmetic : Places src nodes T (matchArithmetic rec) (Placed src nodes T) := by
  unfold matchArithmetic mkBinary
  places [places_prefix h]
  · simpa [Places]
  · placed

theorem places_comparison : Places src nodes T (matchComparison rec) (Placed src nodes T) := by
  unfold matchComparison mkBinary
  places [places_arithmetic h]
  placed

theorem places_binary : Places src nodes T (matchBinary rec) (Placed src nodes T) := by
  unfold matchBinary
  intro b
  show Places _ _ _ (if _ then _ else _) _
  unfold mkBinary
  places [places_comparison h, places_prefix h]
  · simpa [Places]
  · placed

theorem Placed.first {n l : Node} (hl : Placed src nodes T l) (hp : n.pos = l.pos)
    (hk : n.kind = .program ∨ n.kind = .conversion_expression ∨ n.kind = .if_expression)
    {x : Handle} {hs : List Handle} (hc : n.children = x :: hs) (hx : PlacedAt nodes l.pos x)
    (hn : Shaped n) : Placed src nodes T n := by
  obtain ⟨⟨t, ht, h1, -⟩, -⟩ := hl
  refine ⟨⟨t, ht, hp.trans h1, ?_⟩, hn⟩
  rcases hk with hk | hk | hk <;> simp only [IntroducedBy, hk] <;> exact ⟨x, hs, hc, hp ▸ hx⟩

theorem places_ifExpression : Places src nodes T (matchIfExpression rec) (Placed src nodes T) := by
  unfold matchIfExpression mkIfExpression
  have h1 : Places src nodes T (rec .ifExpression) (Placed src nodes T) := h .ifExpression trivial
  refine Places.bind (places_binary h) fun l hl => ?_
  refine Places.expect hl fun _ _ => ?_
  refine Places.bind (places_binary h) fun c hc => ?_
  refine Places.bind Places.require fun _ _ => Places.bind h1 fun r hr => ?_
  refine Places.bind (Places.push hl) fun x hx => Places.bind (Places.push hc) fun _ _ =>
    Places.bind (Places.push hr) fun _ _ => ?_
  refine Places.bind Places.assert fun _ _ => Places.bind Places.assert fun _ _ =>
    Places.bind Places.assert fun _ _ => ?_
  exact Placed.first h hl rfl (.inr (.inr rfl)) rfl hx (by simp [Shaped, childCount])

theorem places_type : Places src nodes T (matchType rec) (Placed src nodes T) := by
  unfold matchType mkType
  places [places_parenthesized h] <;> placed

theorem places_conversion : Places src nodes T (matchConversion rec) (Placed src nodes T) := by
  unfold matchConversion mkConversion
  refine Places.bind (places_prefix h) fun l hl => ?_
  refine Places.bind Places.require fun _ _ => Places.bind (places_type h) fun r hr => ?_
  refine Places.bind (Places.push hl) fun x hx => Places.bind (Places.push hr) fun _ _ => ?_
  refine Places.bind Places.assert fun _ _ => Places.bind Places.assert fun _ _ => ?_
  exact Placed.first h hl rfl (.inr (.inl rfl)) rfl hx (by simp [Shaped, childCount])

theorem places_expression : Places src nodes T (matchExpression rec) (Placed src nodes T) := by
  unfold matchExpression
  have h1 : Places src nodes T (rec .ifExpression) (Placed src nodes T) := h .ifExpression trivial
  intro b
  show Places _ _ _ (if _ then _ else _) _
  places [places_conversion h, h1]

theorem places_initializer : Places src nodes T (matchInitializer rec) (Placed src nodes T) := by
  unfold matchInitializer; places [places_expression_rec h]

theorem places_optionalType : Places src nodes T (matchOptionalType rec) fun _ => True := by
  unfold matchOptionalType
  refine Places.expect trivial fun _ _ => ?_
  exact Places.bind (places_type h) fun t ht => (Places.push ht).mono fun _ _ => trivial

theorem places_let {a : Option Node} (ha : ∀ n, a = some n → Placed src nodes T n) :
    Places src nodes T (matchLet rec a) (Placed src nodes T) := by
  unfold matchLet mkLet
  refine Places.bind Places.require fun t ht => Places.bind Places.require fun _ _ => ?_
  refine Places.bind Places.extract fun _ _ => Places.bind (places_optionalType h) fun _ _ => ?_
  refine Places.bind (Q := fun _ => True) ?_ fun _ _ => ?_
  · split
    · trivial
    · exact Places.peek
  refine Places.bind (Q := fun _ => True) ?_ fun _ _ => ?_
  · split
    · exact Places.bind (places_initializer h) fun t ht => (Places.push ht).mono fun _ _ => trivial
    · trivial
  refine Places.bind Places.require fun _ _ => Places.bind (Places.pushOrNull ha) fun _ _ => ?_
  refine Places.bind Places.assert fun _ _ => ?_
  exact ⟨⟨t, ht.1, rfl, ht.2⟩, by simp [Shaped, childCount]⟩

theorem places_const {a : Option Node} (ha : ∀ n, a = some n → Placed src nodes T n) :
    Places src nodes T (matchConst rec a) (Placed src nodes T) := by
  unfold matchConst mkConst
  places [places_optionalType h, places_initializer h]
  placed

theorem places_staticAssert : Places src nodes T (matchStaticAssert rec) (Placed src nodes T) := by
  unfold matchStaticAssert mkStaticAssert
  places [places_parenthesized h]
  placed

theorem places_assignment {a : Option Node} (ha : ∀ n, a = some n → Placed src nodes T n) :
    Places src nodes T (matchAssignment rec a) (Placed src nodes T) := by
  unfold matchAssignment mkAssignment
  places [places_expression_rec h]
  placed

theorem places_assignmentStatement {a : Option Node} (ha : ∀ n, a = some n → Placed src nodes T n) :
    Places src nodes T (matchAssignmentStatement rec a) (Placed src nodes T) := by
  unfold matchAssignmentStatement
  refine Places.bind (places_assignment h ha) fun n hn => Places.bind Places.require fun _ _ => hn

theorem no_annotation : ∀ n, (none : Option Node) = some n → Placed src nodes T n := fun _ h => by cases h

theorem places_assignmentOrCall : Places src nodes T (matchAssignmentOrCall rec) (Placed src nodes T) := by
  unfold matchAssignmentOrCall
  refine Places.bind Places.peekAny fun t _ => ?_
  split
  · trivial
  · intro t
    show Places _ _ _ (if _ then _ else _) _
    split
    · exact places_assignmentStatement h (no_annotation h)
    · unfold matchCallStatement
      refine Places.bind (Q := fun n => _) (Places.bind (places_call h) fun n hn =>
        Places.bind Places.require fun _ _ => hn) fun n hn => ?_
      unfold setIsStatement
      cases hk : n.kind <;> dsimp only <;> try trivial
      have := hn.2 true
      rw [hk] at this
      exact this

theorem places_return : Places src nodes T (matchReturn rec) (Placed src nodes T) := by
  unfold matchReturn
  places [places_expression_rec h] <;> placed

theorem places_block : Places src nodes T (matchBlock rec) (Placed src nodes T) := by
  unfold matchBlock
  have h1 : Places src nodes T (rec (.statements [])) fun _ => True := h (.statements []) trivial
  places [h1]
  placed

theorem places_else : Places src nodes T (matchElse rec) (Placed src nodes T) := by
  unfold matchElse
  have h1 : Places src nodes T (rec (.ifStatement none)) (Placed src nodes T) :=
    h (.ifStatement none) (no_annotation h)
  places [h1, places_block h]

theorem places_if {a : Option Node} (ha : ∀ n, a = some n → Placed src nodes T n) :
    Places src nodes T (matchIf rec a) (Placed src nodes T) := by
  unfold matchIf mkIf
  refine Places.bind Places.require fun t ht => Places.bind (places_expression_rec h) fun _ _ => ?_
  refine Places.bind (places_block h) fun _ _ => ?_
  refine Places.bind (Q := fun _ => True) ?_ fun _ _ => ?_
  · refine Places.bind Places.peek fun _ _ => ?_
    split
    · exact Places.bind (places_else h) fun t ht => (Places.push ht).mono fun _ _ => trivial
    · trivial
  places [trivial]
  exact ⟨⟨t, ht.1, rfl, ht.2⟩, by simp [Shaped, childCount]⟩

theorem places_while {a : Option Node} (ha : ∀ n, a = some n → Placed src nodes T n) :
    Places src nodes T (matchWhile rec a) (Placed src nodes T) := by
  unfold matchWhile mkWhile
  places [places_expression_rec h, places_block h]
  placed

theorem some_annotation {a : Node} (ha : Placed src nodes T a) :
    ∀ n, some a = some n → Placed src nodes T n := fun _ h => by cases h; exact ha

theorem places_annotatedStatement {a : Node} (ha : Placed src nodes T a) :
    Places src nodes T (matchAnnotatedStatement rec a) (Placed src nodes T) := by
  unfold matchAnnotatedStatement
  have ha := some_annotation h ha
  refine Places.bind Places.peekAny fun t _ => ?_
  split
  · exact places_const h ha
  · exact places_let h ha
  · exact h (.ifStatement (some a)) ha
  · exact places_while h ha
  · exact places_assignmentStatement h ha
  · trivial

omit h in
theorem places_break : Places src nodes T matchBreak (Placed src nodes T) := by
  unfold matchBreak; places [trivial]; placed
omit h in
theorem places_continue : Places src nodes T matchContinue (Placed src nodes T) := by
  unfold matchContinue; places [trivial]; placed

theorem places_statement : Places src nodes T (matchStatement rec) (Placed src nodes T) := by
  unfold matchStatement
  have hn := no_annotation (src := src) (nodes := nodes) (T := T) h
  refine Places.bind Places.peekAny fun t _ => ?_
  split
  · exact Places.bind (places_annotationSequence h) fun a ha => places_annotatedStatement h ha
  · exact places_let h hn
  · exact places_const h hn
  · exact places_staticAssert h
  · exact places_break
  · exact places_continue
  · exact places_return h
  · exact h (.ifStatement none) hn
  · exact places_while h hn
  · exact places_block h
  · exact places_assignmentOrCall h
  · trivial

theorem places_parameter : Places src nodes T (matchParameter rec) (Placed src nodes T) := by
  unfold matchParameter mkParameter
  places [places_type h]
  placed

theorem places_parameterSequence : Places src nodes T (matchParameterSequence rec) (Placed src nodes T) := by
  unfold matchParameterSequence
  refine Places.bind (h (.parameters []) trivial) fun p hp => ?_
  obtain ⟨⟨t, ht, h1⟩, hs, x, h2, h3⟩ := hp
  refine Places.bind Places.assert fun _ _ => ?_
  exact ⟨⟨t, ht, h1, x, hs, h2, h3⟩, by simp [Shaped, childCount]⟩

theorem places_requires : Places src nodes T (matchRequires rec) (Placed src nodes T) := by
  unfold matchRequires; places [places_expression_rec h]

theorem places_function {a : Option Node} (ha : ∀ n, a = some n → Placed src nodes T n) :
    Places src nodes T (matchFunction rec a) (Placed src nodes T) := by
  unfold matchFunction mkFunction
  refine Places.bind Places.require fun t ht => Places.bind Places.require fun _ _ => ?_
  refine Places.bind Places.require fun _ _ => ?_
  refine Places.bind (Q := fun _ => True) ?_ fun _ _ => ?_
  · refine Places.bind Places.peek fun _ _ => ?_
    split
    · trivial
    · exact Places.bind (places_parameterSequence h) fun t ht => (Places.push ht).mono fun _ _ => trivial
  refine Places.bind Places.require fun _ _ => Places.bind Places.require fun _ _ => ?_
  refine Places.bind (places_type h) fun _ _ => ?_
  refine Places.bind (Q := fun _ => True) ?_ fun _ _ => ?_
  · refine Places.bind Places.peek fun _ _ => ?_
    split
    · exact Places.bind (places_requires h) fun t ht => (Places.push ht).mono fun _ _ => trivial
    · trivial
  places [places_block h]
  exact ⟨⟨t, ht.1, rfl, ht.2⟩, by simp [Shaped, childCount]⟩

theorem places_annotatedDeclaration {a : Node} (ha : Placed src nodes T a) :
    Places src nodes T (matchAnnotatedDeclaration rec a) (Placed src nodes T) := by
  unfold matchAnnotatedDeclaration
  have ha := some_annotation h ha
  refine Places.bind Places.peek fun t _ => ?_
  split
  · exact places_const h ha
  · refine Places.bind Places.peek fun t _ => ?_
    split
    · exact places_function h ha
    · trivial

theorem places_declaration : Places src nodes T (matchDeclaration rec) (Placed src nodes T) := by
  unfold matchDeclaration
  have hn := no_annotation (src := src) (nodes := nodes) (T := T) h
  refine Places.bind Places.peekAny fun t _ => ?_
  split
  · exact Places.bind (places_annotationSequence h) fun a ha => places_annotatedDeclaration h ha
  · exact places_const h hn
  · exact places_function h hn
  · exact places_staticAssert h
  · trivial

theorem places_program : Places src nodes T (matchProgram rec) (Placed src nodes T) := by
  unfold matchProgram
  refine Places.bind (places_declaration h) fun d hd => ?_
  refine Places.bind (Places.push hd) fun x hx => ?_
  refine Places.bind (h (.declarations [x]) trivial) fun hs hp => ?_
  obtain ⟨ys, rfl⟩ := hp
  exact Placed.first h hd rfl (.inl rfl) rfl hx (by simp [Shaped, childCount])

theorem places_body (r : Rule) (hr : Given src nodes T r) :
    Places src nodes T (body rec r) (Returned src nodes T r) := by
  cases r <;> simp only [body]
  · exact places_expression h
  · exact places_ifExpression h
  · rename_i demand acc
    unfold argumentsLoop
    have h1 : Places src nodes T ((rec .expression).bind fun arg => (push arg).bind fun x =>
        (expect .comma).bind fun comma => rec (.arguments comma.isSome (acc ++ [x]))) fun _ => True := by
      refine Places.bind (places_expression_rec h) fun a ha => Places.bind (Places.push ha) fun x _ => ?_
      exact Places.expect (h (.arguments _ _) trivial) fun t _ => h (.arguments _ _) trivial
    dsimp only
    split
    · exact h1
    · exact Places.expect h1 fun _ _ => trivial
  · rename_i acc
    unfold parametersLoop
    refine Places.bind (places_parameter h) fun p hp => Places.bind (Places.push hp) fun x hx => ?_
    refine Places.expect ?_ fun _ _ => ?_
    · obtain ⟨⟨t, ht, h1, -⟩, -⟩ := hp
      exact ⟨⟨t, ht, h1⟩, acc, x, rfl, hx⟩
    · exact h (.parameters _) trivial
  · rename_i acc
    unfold annotationsLoop
    refine Places.bind (places_annotation h) fun p hp => Places.bind (Places.push hp) fun x hx => ?_
    refine Places.bind Places.peek fun b _ => ?_
    split
    · exact h (.annotations _) trivial
    · obtain ⟨⟨t, ht, h1, -⟩, -⟩ := hp
      exact ⟨⟨t, ht, h1⟩, acc, x, rfl, hx⟩
  · unfold annotationArgumentsLoop
    refine Places.bind places_annotationArgument fun p hp => Places.bind (Places.push hp) fun x hx => ?_
    exact Places.expect trivial fun _ _ => h (.annotationArguments _) trivial
  · exact places_if h hr
  · unfold statementsLoop
    refine Places.expect ?_ fun _ _ => trivial
    refine Places.bind (places_statement h) fun p hp => Places.bind (Places.push hp) fun x hx => ?_
    exact h (.statements _) trivial
  · rename_i acc
    unfold declarationsLoop
    refine Places.bind Places.peekAny fun t _ => ?_
    split
    · exact List.prefix_refl _
    · refine Places.bind (places_declaration h) fun p hp => Places.bind (Places.push hp) fun x hx => ?_
      exact (h (.declarations _) trivial).mono fun hs hp => (List.prefix_append acc [x]).trans hp

end

theorem places_parseRule (n : Nat) (r : Rule) (hr : Given src nodes T r) :
    Places src nodes T (parseRule n r) (Returned src nodes T r) := by
  induction n generalizing r with
  | zero => trivial
  | succ n ih => exact places_body ih r hr

/-- The nodes of a parsed program are placed. -/
theorem parse_placed {ts : List Token} {root : Nat} (hp : parse src ts = .ok nodes root) :
    ∀ n ∈ nodes, Placed src nodes (· ∈ ts) n := by
  unfold parse at hp
  cases hr : (matchProgram (parseRule (3 * ts.length + 3))).run src ⟨ts, []⟩ with
  | ok n s =>
    rw [hr] at hp
    cases hp
    have h1 := ((places_program (src := src) (nodes := s.nodes ++ [n]) (T := (· ∈ ts))
      (places_parseRule _)).run (s := ⟨ts, []⟩) (s' := s) (fun _ h => h) (fun a ha => absurd ha List.not_mem_nil)
      (List.prefix_append _ _)).1 n hr
    intro m hm
    rcases List.mem_append.mp hm with hm | hm
    · exact h1.2 m hm
    · rw [List.mem_singleton.mp hm]; exact h1.1
  | err e s => rw [hr] at hp; cases hp
  | throws => rw [hr] at hp; cases hp
  | diverge => rw [hr] at hp; cases hp

end Bms.Parse
