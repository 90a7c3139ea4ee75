import Mathlib.Data.List.Forall2
import Verif.Lemmas.ParseFuel
import Verif.Spec.Grammar

/-!
# The parser does the same for tokens that are the same but for their places
-/

namespace Bms.Parse

open Spec

variable {α β : Type} {src src' : List Char}

/-- Tokens of two texts with the same type and, if it matters, the same text. -/
structure SameToken (src src' : List Char) (t t' : Token) : Prop where
  type : t.type = t'.type
  text : t.type ∈ textual → tokenText src t = tokenText src' t'
  start : t.pos.start ≤ src.length
  start' : t'.pos.start ≤ src'.length

/-- Nodes that are the same but for their places. -/
structure SameNode (n n' : Node) : Prop where
  kind : n.kind = n'.kind
  children : n.children = n'.children

/-- States that are the same but for places. -/
structure SameState (src src' : List Char) (s s' : State) : Prop where
  rest : List.Forall₂ (SameToken src src') s.rest s'.rest
  clean : ∀ t ∈ s.rest, t.type.isComment = false
  nodes : List.Forall₂ SameNode s.nodes s'.nodes

/-- Results that are the same but for places. -/
inductive SameRes (src src' : List Char) (R : α → α → Prop) : Res α → Res α → Prop
  | ok {a a' s s'} : R a a' → SameState src src' s s' → SameRes src src' R (.ok a s) (.ok a' s')
  | err {e s s'} : SameState src src' s s' → SameRes src src' R (.err e s) (.err e s')
  | throws : SameRes src src' R .throws .throws
  | diverge : SameRes src src' R .diverge .diverge

/-- Programs that do the same but for places. -/
def Alike (src src' : List Char) (R : α → α → Prop) (p p' : Prog α) : Prop :=
  ∀ s s', SameState src src' s s' → SameRes src src' R (p.run src s) (p'.run src' s')

variable {R : α → α → Prop} {Q : β → β → Prop}

namespace Alike

theorem ret {a a' : α} (h : R a a') : Alike src src' R (.ret a) (.ret a') := fun _ _ hs => .ok h hs

theorem fail {e : RuleError} : Alike src src' R (.fail e) (.fail e) := fun _ _ hs => .err hs

theorem throws : Alike src src' R (.throws) (.throws) := fun _ _ _ => .throws

theorem diverge : Alike src src' R (.diverge) (.diverge) := fun _ _ _ => .diverge

theorem bind {p p' : Prog α} {f f' : α → Prog β} (hp : Alike src src' R p p')
    (hf : ∀ a a', R a a' → Alike src src' Q (f a) (f' a')) : Alike src src' Q (p.bind f) (p'.bind f') := by
  intro s s' hs
  rw [run_bind, run_bind]
  have := hp s s' hs
  cases hr : p.run src s <;> cases hr' : p'.run src' s' <;> rw [hr, hr'] at this <;> cases this
  · rename_i h1 h2; exact hf _ _ h1 _ _ h2
  · rename_i h1; exact .err h1
  · exact .throws
  · exact .diverge

theorem handle {p p' : Prog α} {e e' : RuleError → Prog β} {k k' : α → Prog β} (hp : Alike src src' R p p')
    (he : ∀ x, Alike src src' Q (e x) (e' x)) (hk : ∀ a a', R a a' → Alike src src' Q (k a) (k' a')) :
    Alike src src' Q (.handle p e k) (.handle p' e' k') := by
  intro s s' hs
  simp only [Prog.run]
  have := hp s s' hs
  cases hr : p.run src s <;> cases hr' : p'.run src' s' <;> rw [hr, hr'] at this <;> cases this
  · rename_i h1 h2; exact hk _ _ h1 _ _ h2
  · rename_i h1; exact he _ _ _ h1
  · exact .throws
  · exact .diverge

theorem attempt {p p' : Prog Bool} {k k' : Bool → Prog α} (hp : Alike src src' Eq p p')
    (hk : ∀ b, Alike src src' R (k b) (k' b)) : Alike src src' R (.attempt p k) (.attempt p' k') := by
  intro s s' hs
  rw [run_attempt, run_attempt]
  have := hp s s' hs
  cases hr : p.run src s <;> cases hr' : p'.run src' s' <;> rw [hr, hr'] at this <;> cases this
  · rename_i h2 _; subst h2; exact hk _ _ _ hs
  · exact hk _ _ _ hs
  · exact .throws
  · exact .diverge

theorem next {p : TokenType → Bool} {i : Bool} {k k' : Option Token → Prog α} (hn : Alike src src' R (k none) (k' none))
    (hk : ∀ t t', SameToken src src' t t' → p t.type = true → Alike src src' R (k (some t)) (k' (some t'))) :
    Alike src src' R (.next p i k) (.next p i k') := by
  intro s s' hs
  obtain ⟨rest, nodes⟩ := s
  obtain ⟨rest', nodes'⟩ := s'
  obtain ⟨h1, h2, h3⟩ := hs
  simp only at h1 h2 h3
  have hc : ∀ t ∈ rest', t.type.isComment = false := by
    clear hn hk h3
    induction h1 with
    | nil => intro t ht; cases ht
    | cons ht _ ih =>
      intro t hm
      rcases List.mem_cons.1 hm with rfl | hm
      · rw [← ht.type]; exact h2 _ List.mem_cons_self
      · exact ih (fun t ht => h2 t (List.mem_cons_of_mem _ ht)) t hm
  have e : ∀ {l : List Token}, (∀ t ∈ l, t.type.isComment = false) → skipComments l = l := by
    intro l hl
    cases l with
    | nil => rfl
    | cons t l => simp [skipComments, hl t List.mem_cons_self]
  simp only [Prog.run, e h2, e hc]
  cases h1 with
  | nil => exact hn _ _ ⟨.nil, (fun t ht => by cases ht), h3⟩
  | @cons t t' ts ts' ht hts =>
    simp only [← ht.type]
    have hs' : SameState src src' ⟨t :: ts, nodes⟩ ⟨t' :: ts', nodes'⟩ := ⟨.cons ht hts, h2, h3⟩
    by_cases hp : p t.type = true
    · cases i <;> simp only [hp, if_true, if_false, Bool.false_eq_true]
      · exact hk _ _ ht hp _ _ hs'
      · exact hk _ _ ht hp _ _ ⟨hts, fun x hx => h2 x (List.mem_cons_of_mem _ hx), h3⟩
    · simp only [hp, if_false, Bool.false_eq_true]
      exact hn _ _ hs'

theorem peek1 {k k' : Option Token → Prog α}
    (hk : ∀ t t', t.map (·.type) = t'.map (·.type) → Alike src src' R (k t) (k' t')) :
    Alike src src' R (.peek1 k) (.peek1 k') := by
  intro s s' hs
  simp only [Prog.run]
  refine hk _ _ ?_ _ _ hs
  obtain ⟨h1, h2, h3⟩ := hs
  generalize s.rest = rest at h1 h2
  generalize s'.rest = rest' at h1
  cases h1 with
  | nil => rfl
  | @cons t t' ts ts' ht hts =>
    have a1 := h2 t List.mem_cons_self
    have a2 := ht.type ▸ a1
    simp only [peekToken1, skipComments, List.dropWhile_cons, a1, a2, Bool.false_eq_true, if_false, peekToken]
    cases hts with
    | nil => rfl
    | @cons u u' us us' hu hus =>
      have b1 := h2 u (List.mem_cons_of_mem _ List.mem_cons_self)
      have b2 := hu.type ▸ b1
      simp [b2, hu.type]

theorem push {n n' : Node} {k k' : Nat → Prog α} (hn : SameNode n n') (hk : ∀ h, Alike src src' R (k h) (k' h)) :
    Alike src src' R (.push n k) (.push n' k') := by
  intro s s' hs
  simp only [Prog.run]
  rw [hs.nodes.length_eq]
  exact hk _ _ _ ⟨hs.rest, hs.clean, List.rel_append hs.nodes (.cons hn .nil)⟩

theorem extract {t t' : Token} {k k' : List Char → Prog α} (ht : SameToken src src' t t') (hx : t.type ∈ textual)
    (hk : ∀ w, Alike src src' R (k w) (k' w)) : Alike src src' R (.extract t k) (.extract t' k') := by
  intro s s' hs
  simp only [Prog.run, if_pos ht.start, if_pos ht.start']
  have := ht.text hx
  simp only [tokenText] at this
  rw [this]
  exact hk _ _ _ hs

theorem shouldCommit_same : ∀ {ts ts' : List Token}, List.Forall₂ (SameToken src src') ts ts' → ∀ l,
    shouldCommit l ts = shouldCommit l ts' := by
  intro ts ts' h
  induction h with
  | nil => intro l; rfl
  | cons ht _ ih =>
    intro l
    unfold shouldCommit
    simp only [ht.type, ih]

theorem commit {k k' : Bool → Prog α} (hk : ∀ b, Alike src src' R (k b) (k' b)) :
    Alike src src' R (.commit k) (.commit k') := by
  intro s s' hs
  simp only [Prog.run]
  rw [shouldCommit_same hs.rest]
  exact hk _ _ _ hs

/-! ## Elementary operations -/

theorem expect {t : TokenType} {f f' : Option Token → Prog β} (hn : Alike src src' Q (f none) (f' none))
    (hf : ∀ x x', SameToken src src' x x' → x.type = t → Alike src src' Q (f (some x)) (f' (some x'))) :
    Alike src src' Q ((Parse.expect t).bind f) ((Parse.expect t).bind f') :=
  next hn fun x x' h1 h2 => hf x x' h1 (by simpa using h2)

theorem expectIf {p : TokenType → Bool} {f f' : Option Token → Prog β} (hn : Alike src src' Q (f none) (f' none))
    (hf : ∀ x x', SameToken src src' x x' → p x.type = true → Alike src src' Q (f (some x)) (f' (some x'))) :
    Alike src src' Q ((Parse.expectIf p).bind f) ((Parse.expectIf p).bind f') :=
  next hn hf

theorem peek {t : TokenType} {f f' : Bool → Prog β} (h1 : Alike src src' Q (f true) (f' true))
    (h2 : Alike src src' Q (f false) (f' false)) :
    Alike src src' Q ((Parse.peek t).bind f) ((Parse.peek t).bind f') :=
  next h2 fun _ _ _ _ => h1

theorem peek' {t : TokenType} : Alike src src' Eq (Parse.peek t) (Parse.peek t) :=
  next (.ret rfl) fun _ _ _ _ => .ret rfl

theorem peekAny {f f' : Option TokenType → Prog β} (h : ∀ o, Alike src src' Q (f o) (f' o)) :
    Alike src src' Q (Parse.peekAny.bind f) (Parse.peekAny.bind f') :=
  next (h none) fun t t' ht _ => by
    show Alike src src' Q (f (some t.type)) (f' (some t'.type))
    rw [ht.type]
    exact h _

theorem require {r : GrammarRule} {t : TokenType} {f f' : Token → Prog β}
    (hf : ∀ x x', SameToken src src' x x' → x.type = t → Alike src src' Q (f x) (f' x')) :
    Alike src src' Q ((Parse.require r t).bind f) ((Parse.require r t).bind f') :=
  next .fail fun x x' h1 h2 => hf x x' h1 (by simpa using h2)

theorem pushB {n n' : Node} {f f' : Handle → Prog β} (hn : SameNode n n')
    (hf : ∀ h : Nat, Alike src src' Q (f (some h)) (f' (some h))) :
    Alike src src' Q ((Parse.push n).bind f) ((Parse.push n').bind f') :=
  push hn hf

theorem push' {n n' : Node} (hn : SameNode n n') : Alike src src' Eq (Parse.push n) (Parse.push n') :=
  push hn fun _ => .ret rfl

/-- Optional nodes that are the same. -/
inductive SameOption : Option Node → Option Node → Prop
  | none : SameOption none none
  | some {n n'} : SameNode n n' → SameOption (some n) (some n')

theorem pushOrNull {n n' : Option Node} {f f' : Handle → Prog β} (hn : SameOption n n')
    (hf : ∀ h, Alike src src' Q (f h) (f' h)) :
    Alike src src' Q ((Parse.pushOrNull n).bind f) ((Parse.pushOrNull n').bind f') := by
  cases hn with
  | none => exact hf _
  | some h => exact push h fun _ => hf _

theorem extractB {t t' : Token} {f f' : List Char → Prog β} (ht : SameToken src src' t t') (hx : t.type ∈ textual)
    (hf : ∀ w, Alike src src' Q (f w) (f' w)) :
    Alike src src' Q ((Parse.extract t).bind f) ((Parse.extract t').bind f') :=
  extract ht hx hf

theorem assert {b : Bool} {f f' : Unit → Prog β} (hf : Alike src src' Q (f ()) (f' ())) :
    Alike src src' Q ((Parse.assert b).bind f) ((Parse.assert b).bind f') := by
  cases b
  · exact throws
  · exact hf

theorem bindEq {p p' : Prog α} {f f' : α → Prog β} (hp : Alike src src' Eq p p')
    (hf : ∀ a, Alike src src' Q (f a) (f' a)) : Alike src src' Q (p.bind f) (p'.bind f') :=
  bind hp fun a a' h => by subst h; exact hf a

theorem commitB {f f' : Bool → Prog β} (h1 : Alike src src' Q (f true) (f' true))
    (h2 : Alike src src' Q (f false) (f' false)) :
    Alike src src' Q ((Prog.commit Prog.ret).bind f) ((Prog.commit Prog.ret).bind f') :=
  commit fun b => by cases b <;> assumption

theorem peek1B {f f' : Option Token → Prog β}
    (hk : ∀ t t', t.map (·.type) = t'.map (·.type) → Alike src src' Q (f t) (f' t')) :
    Alike src src' Q ((Prog.peek1 Prog.ret).bind f) ((Prog.peek1 Prog.ret).bind f') :=
  peek1 hk

end Alike

theorem isLiteral_textual {t : TokenType} (h : t.isLiteral = true) : t ∈ textual := by
  cases t <;> first | decide | cases h

theorem identifier_textual {t : TokenType} (h : t = .identifier) : t ∈ textual := by
  subst h; decide

open Lean in
/-- Prove that a member function does the same from facts about the functions it calls. -/
macro "alike" "[" ts:term,* "]" : tactic => do
  let alts ← ts.getElems.mapM fun t => `(tactic| exact $t)
  let all : Array (TSyntax `tactic) := alts
  `(tactic| (
    (try simp only [bind_eq, pure_eq])
    repeat' (with_reducible first
      | assumption
      | (first $[| $all:tactic]*)
      | exact Alike.fail
      | exact Alike.throws
      | exact Alike.peek'
      | refine Alike.push' ?_
      | exact isLiteral_textual (by assumption)
      | exact identifier_textual (by assumption)
      | exact ⟨rfl, rfl⟩
      | refine Alike.ret ?_
      | exact rfl
      | exact Alike.SameOption.none
      | refine Alike.SameOption.some ?_
      | refine Alike.require (fun _ _ _ _ => ?_)
      | refine Alike.expect ?_ (fun _ _ _ _ => ?_)
      | refine Alike.expectIf ?_ (fun _ _ _ _ => ?_)
      | refine Alike.peek ?_ ?_
      | refine Alike.pushB ?_ (fun _ => ?_)
      | refine Alike.pushOrNull ?_ (fun _ => ?_)
      | refine Alike.extractB ?_ ?_ (fun _ => ?_)
      | refine Alike.assert ?_
      | refine Alike.commitB ?_ ?_
      | refine Alike.bind (R := SameNode) ?_ (fun _ _ _ => ?_)
      | refine Alike.bind (R := Alike.SameOption) ?_ (fun _ _ _ => ?_)
      | refine Alike.bindEq ?_ (fun _ => ?_)
      | dsimp only
      | simp only [↓reduceIte, Bool.false_eq_true])))

/-- The functions for the cases do the same. -/
structure SameRec (src src' : List Char) (rec : (r : Rule) → Prog r.Result) : Prop where
  expression : Alike src src' SameNode (rec .expression) (rec .expression)
  ifExpression : Alike src src' SameNode (rec .ifExpression) (rec .ifExpression)
  arguments : ∀ d acc, Alike (α := List Handle) src src' Eq (rec (.arguments d acc)) (rec (.arguments d acc))
  parameters : ∀ acc, Alike (α := Span × List Handle) src src' (fun a b : Span × List Handle => a.2 = b.2)
    (rec (.parameters acc)) (rec (.parameters acc))
  annotations : ∀ acc, Alike (α := Span × List Handle) src src' (fun a b : Span × List Handle => a.2 = b.2)
    (rec (.annotations acc)) (rec (.annotations acc))
  annotationArguments : ∀ acc, Alike (α := List Handle) src src' Eq (rec (.annotationArguments acc)) (rec (.annotationArguments acc))
  ifStatement : ∀ {a a'}, Alike.SameOption a a' →
    Alike src src' SameNode (rec (.ifStatement a)) (rec (.ifStatement a'))
  statements : ∀ acc, Alike (α := List Handle) src src' Eq (rec (.statements acc)) (rec (.statements acc))
  declarations : ∀ acc, Alike (α := List Handle) src src' Eq (rec (.declarations acc)) (rec (.declarations acc))

section
variable {rec : (r : Rule) → Prog r.Result} (h : SameRec src src' rec)

/-- Nodes made with an operator. -/
theorem alike_mkPrefix {p p' : Span} {op op' : TokenType} (e : op = op') (o : Handle) :
    Alike src src' SameNode (mkPrefix p op o) (mkPrefix p' op' o) := by
  subst e; unfold mkPrefix; alike []

theorem alike_mkBinary {p p' : Span} {op op' : TokenType} (e : op = op') (l r : Handle) :
    Alike src src' SameNode (mkBinary p l r op) (mkBinary p' l r op') := by
  subst e; unfold mkBinary; alike []

include h

theorem alike_parenthesized : Alike src src' SameNode (matchParenthesized rec) (matchParenthesized rec) := by
  unfold matchParenthesized; alike [h.expression]

theorem alike_primary : Alike src src' SameNode (matchPrimary rec) (matchPrimary rec) := by
  unfold matchPrimary
  alike []
  · refine Alike.handle (alike_parenthesized h) (fun _ => .fail) (fun _ _ ha => .ret ha)
  · rename_i hx _ _; exact ⟨by simp only [hx.type], rfl⟩

omit h in
theorem alike_annotationArgument : Alike src src' SameNode matchAnnotationArgument matchAnnotationArgument := by
  unfold matchAnnotationArgument
  simp only [bind_eq, pure_eq]
  refine Alike.expect ?_ fun x x' hx tx => ?_
  · simp only [Option.isSome_none, Bool.false_eq_true, if_false, Prog.bind]
    refine Alike.expectIf .fail fun y y' hy ty => ?_
    alike []
    rw [← hy.type]
    split <;> alike []
  · simp only [Option.isSome_some, if_true]
    alike []
    rename_i hy _ _
    rw [← hy.type]
    split <;> alike []

theorem alike_annotation : Alike src src' SameNode (matchAnnotation rec) (matchAnnotation rec) := by
  unfold matchAnnotation
  alike []
  refine Alike.handle (R := Eq) ?_ (fun _ => ?_) (fun a a' ha => ?_)
  · unfold matchAnnotationArguments matchAnnotationArgumentSequence; alike [h.annotationArguments _]
  · alike []
  · subst ha; alike []

theorem alike_annotationSequence :
    Alike src src' SameNode (matchAnnotationSequence rec) (matchAnnotationSequence rec) := by
  unfold matchAnnotationSequence
  simp only [bind_eq, pure_eq]
  refine Alike.bind (h.annotations _) fun a a' ha => ?_
  obtain ⟨x, y⟩ := a
  obtain ⟨x', y'⟩ := a'
  simp only at ha
  subst ha
  alike []

theorem alike_call : Alike src src' SameNode (matchFunctionCall rec) (matchFunctionCall rec) := by
  unfold matchFunctionCall; alike [h.arguments _ _, alike_annotationSequence h]

theorem alike_postfix : Alike src src' SameNode (matchPostfix rec) (matchPostfix rec) := by
  unfold matchPostfix
  simp only [bind_eq]
  refine Alike.peek ?_ (alike_primary h)
  simp only [if_true]
  refine Alike.peek1B fun t t' ht => ?_
  rw [ht]
  split
  · exact alike_call h
  · exact alike_primary h

theorem alike_prefix : Alike src src' SameNode (matchPrefix rec) (matchPrefix rec) := by
  unfold matchPrefix
  alike [alike_postfix h, alike_mkPrefix (SameToken.type (by assumption)) _]

theorem alike_arithmetic : Alike src src' SameNode (matchArithmetic rec) (matchArithmetic rec) := by
  unfold matchArithmetic
  alike [alike_prefix h, alike_mkBinary (SameToken.type (by assumption)) _ _]

theorem alike_comparison : Alike src src' SameNode (matchComparison rec) (matchComparison rec) := by
  unfold matchComparison
  alike [alike_arithmetic h, alike_mkBinary (SameToken.type (by assumption)) _ _]

theorem alike_binary : Alike src src' SameNode (matchBinary rec) (matchBinary rec) := by
  unfold matchBinary
  alike [alike_comparison h, alike_prefix h, alike_mkBinary (SameToken.type (by assumption)) _ _]

theorem alike_ifExpression : Alike src src' SameNode (matchIfExpression rec) (matchIfExpression rec) := by
  unfold matchIfExpression mkIfExpression; alike [alike_binary h, h.ifExpression]

theorem alike_type : Alike src src' SameNode (matchType rec) (matchType rec) := by
  unfold matchType mkType; alike [alike_parenthesized h]

theorem alike_conversion : Alike src src' SameNode (matchConversion rec) (matchConversion rec) := by
  unfold matchConversion mkConversion; alike [alike_prefix h, alike_type h]

theorem alike_expression : Alike src src' SameNode (matchExpression rec) (matchExpression rec) := by
  unfold matchExpression
  refine Alike.attempt ?_ fun b => ?_
  · alike [alike_prefix h]
  · simp only [Prog.bind]
    cases b <;> alike [alike_conversion h, h.ifExpression]

theorem alike_initializer : Alike src src' SameNode (matchInitializer rec) (matchInitializer rec) := by
  unfold matchInitializer; alike [h.expression]

theorem alike_optionalType : Alike src src' Eq (matchOptionalType rec) (matchOptionalType rec) := by
  unfold matchOptionalType; alike [alike_type h]

theorem alike_let {a a' : Option Node} (ha : Alike.SameOption a a') :
    Alike src src' SameNode (matchLet rec a) (matchLet rec a') := by
  unfold matchLet mkLet
  alike [alike_optionalType h, alike_initializer h]
  · split <;> alike []
  · split <;> alike [alike_initializer h]

theorem alike_const {a a' : Option Node} (ha : Alike.SameOption a a') :
    Alike src src' SameNode (matchConst rec a) (matchConst rec a') := by
  unfold matchConst mkConst; alike [alike_optionalType h, alike_initializer h]

theorem alike_staticAssert : Alike src src' SameNode (matchStaticAssert rec) (matchStaticAssert rec) := by
  unfold matchStaticAssert mkStaticAssert; alike [alike_parenthesized h]

theorem alike_assignmentStatement {a a' : Option Node} (ha : Alike.SameOption a a') :
    Alike src src' SameNode (matchAssignmentStatement rec a) (matchAssignmentStatement rec a') := by
  unfold matchAssignmentStatement matchAssignment mkAssignment; alike [h.expression]

theorem alike_assignmentOrCall :
    Alike src src' SameNode (matchAssignmentOrCall rec) (matchAssignmentOrCall rec) := by
  unfold matchAssignmentOrCall matchCallStatement
  simp only [bind_eq, pure_eq]
  refine Alike.peekAny fun o => ?_
  by_cases ho : o = some .identifier
  · simp only [ho, ne_eq, not_true_eq_false, if_false]
    refine Alike.peek1B fun t t' ht => ?_
    rw [ht]
    split
    · exact alike_assignmentStatement h .none
    · alike [alike_call h]
      rename_i n n' hn
      unfold setIsStatement
      rw [← hn.kind]
      cases n.kind <;> first | exact Alike.throws | exact Alike.ret ⟨rfl, hn.children⟩
  · simp only [ho, ne_eq, not_false_eq_true, if_true]
    exact Alike.fail

theorem alike_return : Alike src src' SameNode (matchReturn rec) (matchReturn rec) := by
  unfold matchReturn; alike [h.expression]

theorem alike_block : Alike src src' SameNode (matchBlock rec) (matchBlock rec) := by
  unfold matchBlock; alike [h.statements _]

theorem alike_if {a a' : Option Node} (ha : Alike.SameOption a a') :
    Alike src src' SameNode (matchIf rec a) (matchIf rec a') := by
  unfold matchIf matchElse mkIf; alike [h.expression, alike_block h, h.ifStatement .none]

theorem alike_while {a a' : Option Node} (ha : Alike.SameOption a a') :
    Alike src src' SameNode (matchWhile rec a) (matchWhile rec a') := by
  unfold matchWhile mkWhile; alike [h.expression, alike_block h]

omit h in
theorem alike_break : Alike src src' SameNode matchBreak matchBreak := by
  unfold matchBreak; alike []

omit h in
theorem alike_continue : Alike src src' SameNode matchContinue matchContinue := by
  unfold matchContinue; alike []

theorem alike_annotatedStatement {a a' : Node} (ha : SameNode a a') :
    Alike src src' SameNode (matchAnnotatedStatement rec a) (matchAnnotatedStatement rec a') := by
  unfold matchAnnotatedStatement
  refine Alike.peekAny fun o => ?_
  rcases o with _ | t
  · exact Alike.fail
  cases t <;> first
    | exact Alike.fail
    | exact alike_const h (.some ha)
    | exact alike_let h (.some ha)
    | exact h.ifStatement (.some ha)
    | exact alike_while h (.some ha)
    | exact alike_assignmentStatement h (.some ha)

theorem alike_statement : Alike src src' SameNode (matchStatement rec) (matchStatement rec) := by
  unfold matchStatement
  refine Alike.peekAny fun o => ?_
  rcases o with _ | t
  · exact Alike.fail
  cases t <;> first
    | exact Alike.fail
    | exact alike_let h .none
    | exact alike_const h .none
    | exact alike_staticAssert h
    | exact alike_break
    | exact alike_continue
    | exact alike_return h
    | exact h.ifStatement .none
    | exact alike_while h .none
    | exact alike_block h
    | exact alike_assignmentOrCall h
    | exact Alike.bind (alike_annotationSequence h) fun _ _ ha => alike_annotatedStatement h ha

theorem alike_parameter : Alike src src' SameNode (matchParameter rec) (matchParameter rec) := by
  unfold matchParameter mkParameter; alike [alike_type h]

theorem alike_parameterSequence :
    Alike src src' SameNode (matchParameterSequence rec) (matchParameterSequence rec) := by
  unfold matchParameterSequence
  simp only [bind_eq, pure_eq]
  refine Alike.bind (h.parameters _) fun a a' ha => ?_
  obtain ⟨x, y⟩ := a
  obtain ⟨x', y'⟩ := a'
  simp only at ha
  subst ha
  alike []

theorem alike_function {a a' : Option Node} (ha : Alike.SameOption a a') :
    Alike src src' SameNode (matchFunction rec a) (matchFunction rec a') := by
  unfold matchFunction matchRequires mkFunction
  alike [alike_parameterSequence h, h.expression, alike_type h, alike_block h]

theorem alike_declaration : Alike src src' SameNode (matchDeclaration rec) (matchDeclaration rec) := by
  unfold matchDeclaration
  refine Alike.peekAny fun o => ?_
  rcases o with _ | t
  · exact Alike.fail
  cases t <;> first
    | exact Alike.fail
    | exact alike_const h .none
    | exact alike_function h .none
    | exact alike_staticAssert h
    | skip
  refine Alike.bind (alike_annotationSequence h) fun _ _ ha => ?_
  unfold matchAnnotatedDeclaration
  alike [alike_const h (.some ha), alike_function h (.some ha)]

theorem alike_program : Alike src src' SameNode (matchProgram rec) (matchProgram rec) := by
  unfold matchProgram; alike [alike_declaration h, h.declarations _]

theorem sameRec_body : SameRec src src' (body rec) := by
  constructor
  · exact alike_expression h
  · exact alike_ifExpression h
  · intro d acc
    change Alike (α := List Handle) src src' Eq (argumentsLoop rec d acc) (argumentsLoop rec d acc)
    unfold argumentsLoop
    cases d <;> alike [h.expression]
    all_goals exact h.arguments _ _
  · intro acc
    change Alike (α := Span × List Handle) src src' _ (parametersLoop rec acc) (parametersLoop rec acc)
    unfold parametersLoop
    alike [alike_parameter h, h.parameters _]
  · intro acc
    change Alike (α := Span × List Handle) src src' _ (annotationsLoop rec acc) (annotationsLoop rec acc)
    unfold annotationsLoop
    alike [alike_annotation h, h.annotations _]
  · intro acc
    change Alike (α := List Handle) src src' Eq (annotationArgumentsLoop rec acc) (annotationArgumentsLoop rec acc)
    unfold annotationArgumentsLoop
    alike [alike_annotationArgument]
    exact h.annotationArguments _
  · intro a a' ha
    exact alike_if h ha
  · intro acc
    change Alike (α := List Handle) src src' Eq (statementsLoop rec acc) (statementsLoop rec acc)
    unfold statementsLoop
    alike [alike_statement h]
    exact h.statements _
  · intro acc
    change Alike (α := List Handle) src src' Eq (declarationsLoop rec acc) (declarationsLoop rec acc)
    unfold declarationsLoop
    simp only [bind_eq, pure_eq]
    refine Alike.peekAny fun o => ?_
    cases o <;> alike [alike_declaration h]
    exact h.declarations _

end

theorem sameRec (n : Nat) : SameRec src src' (parseRule n) := by
  induction n with
  | zero => constructor <;> intros <;> exact Alike.diverge
  | succ n ih => exact sameRec_body ih

end Bms.Parse
