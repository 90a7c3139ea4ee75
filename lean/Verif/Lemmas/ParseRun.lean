import Verif.Lemmas.Parse

/-!
# The parser looks before it fails, consumes tokens, and terminates
-/

namespace Bms.Parse

variable {α β : Type}

/-! ## Failures -/

theorem Looks.expect {t : TokenType} {f : Option Token → Prog β} {b : Bool}
    (hn : Looks (f none) true) (hs : ∀ t, Looks (f (some t)) false) :
    Looks ((expect t).bind f) b := ⟨hn, hs⟩
theorem Looks.expectIf {p : TokenType → Bool} {f : Option Token → Prog β} {b : Bool}
    (hn : Looks (f none) true) (hs : ∀ t, Looks (f (some t)) false) :
    Looks ((expectIf p).bind f) b := ⟨hn, hs⟩
theorem Looks.peek {t : TokenType} {f : Bool → Prog β} {b : Bool}
    (h : ∀ r, Looks (f r) true) : Looks ((peek t).bind f) b := ⟨h _, fun _ => h _⟩
theorem Looks.peekAny {f : Option TokenType → Prog β} {b : Bool}
    (h : ∀ r, Looks (f r) true) : Looks (peekAny.bind f) b := ⟨h _, fun _ => h _⟩
theorem Looks.require' {r : GrammarRule} {t : TokenType} {b : Bool} : Looks (require r t) b :=
  ⟨rfl, fun _ => trivial⟩
theorem Looks.ret' {a : α} {b : Bool} : Looks (.ret a) b := trivial
theorem Looks.throws' {b : Bool} : Looks (.throws : Prog α) b := trivial
theorem Looks.fail' {e : RuleError} : Looks (.fail e : Prog α) true := rfl
theorem Looks.push' {n : Node} {b : Bool} : Looks (push n) b := fun _ => trivial
theorem Looks.pushOrNull' {n : Option Node} {b : Bool} : Looks (pushOrNull n) b := by
  cases n with
  | none => trivial
  | some n => exact Looks.push'
theorem Looks.extract' {t : Token} {b : Bool} : Looks (extract t) b := fun _ => trivial
theorem Looks.assert' {c : Bool} {b : Bool} : Looks (assert c) b := by
  unfold assert; split <;> trivial
theorem Looks.peek' {t : TokenType} {b : Bool} : Looks (Parse.peek t) b :=
  ⟨trivial, fun _ => trivial⟩
theorem Looks.keep {p : Prog α} {f : α → Prog β} (hp : Looks p true)
    (hf : ∀ a, Looks (f a) false) : Looks (p.bind f) true := hp.bind hf

open Lean in
/-- Prove `Looks` for a member function from `Looks` for the functions it calls. -/
macro "looks" "[" ts:term,* "]" : tactic => do
  let alts ← ts.getElems.mapM fun t => `(tactic| exact Looks.weaken $t)
  let all : Array (TSyntax `tactic) := alts
  `(tactic| (
    (try simp only [bind_eq, pure_eq])
    repeat' (with_reducible first
      | exact Looks.ret' | exact Looks.throws' | exact Looks.fail'
      | exact Looks.require' | exact Looks.push' | exact Looks.pushOrNull' | exact Looks.extract'
      | exact Looks.assert' | exact Looks.peek'
      | (first $[| $all:tactic]*)
      | refine Looks.expect ?_ (fun _ => ?_) | refine Looks.expectIf ?_ (fun _ => ?_)
      | refine Looks.peek (fun _ => ?_) | refine Looks.peekAny (fun _ => ?_)
      | refine Looks.bind ?_ (fun _ => ?_)
      | dsimp only
      | split)))

section
variable {rec : (r : Rule) → Prog r.Result} (h : ∀ r, Looks (rec r) false)
include h

theorem looks_parenthesized : Looks (matchParenthesized rec) false := by
  unfold matchParenthesized; looks [h _]

theorem looks_primary : Looks (matchPrimary rec) false := by
  unfold matchPrimary
  refine Looks.expectIf ?_ (fun t => ?_)
  · refine Looks.expect ?_ (fun t => ?_)
    · exact ⟨(looks_parenthesized h).weaken, fun _ => rfl, fun _ => trivial⟩
    · looks [h _]
  · looks [h _]

omit h in
theorem looks_annotationArgument : Looks matchAnnotationArgument false := by
  unfold matchAnnotationArgument
  refine Looks.expect ?_ (fun t => ?_)
  · looks [trivial]
  · looks [trivial]

theorem looks_annotationArguments : Looks (matchAnnotationArguments rec) false := by
  unfold matchAnnotationArguments matchAnnotationArgumentSequence
  looks [h _]

theorem looks_annotation : Looks (matchAnnotation rec) false := by
  unfold matchAnnotation
  refine Looks.bind Looks.require' fun _ => Looks.bind Looks.require' fun _ => ?_
  exact ⟨looks_annotationArguments h, fun _ => fun _ => trivial, fun _ => fun _ => trivial⟩

theorem looks_annotationSequence : Looks (matchAnnotationSequence rec) false := by
  unfold matchAnnotationSequence; looks [h _]

theorem looks_call : Looks (matchFunctionCall rec) false := by
  unfold matchFunctionCall; looks [h _, looks_annotationSequence h]

theorem looks_postfix : Looks (matchPostfix rec) false := by
  unfold matchPostfix
  refine Looks.peek fun b => ?_
  split
  · intro t
    show Looks (if _ then _ else _) _
    looks [looks_call h, looks_primary h]
  · looks [looks_primary h]

theorem looks_prefix : Looks (matchPrefix rec) false := by
  unfold matchPrefix mkPrefix; looks [looks_postfix h]

theorem looks_arithmetic : Looks (matchArithmetic rec) false := by
  unfold matchArithmetic mkBinary; looks [looks_prefix h]

theorem looks_comparison : Looks (matchComparison rec) false := by
  unfold matchComparison mkBinary; looks [looks_arithmetic h]

theorem looks_binary : Looks (matchBinary rec) false := by
  unfold matchBinary
  intro b
  show Looks (if _ then _ else _) _
  unfold mkBinary
  looks [looks_prefix h, looks_comparison h]

theorem looks_ifExpression : Looks (matchIfExpression rec) false := by
  unfold matchIfExpression mkIfExpression; looks [looks_binary h, h _]

theorem looks_type : Looks (matchType rec) false := by
  unfold matchType mkType; looks [looks_parenthesized h]

theorem looks_conversion : Looks (matchConversion rec) false := by
  unfold matchConversion mkConversion; looks [looks_prefix h, looks_type h]

theorem looks_expression : Looks (matchExpression rec) false := by
  unfold matchExpression
  intro b
  show Looks (if _ then _ else _) _
  looks [looks_conversion h, h _]

theorem looks_initializer : Looks (matchInitializer rec) false := by
  unfold matchInitializer; looks [h _]

theorem looks_optionalType : Looks (matchOptionalType rec) false := by
  unfold matchOptionalType; looks [looks_type h]

theorem looks_let (a : Option Node) : Looks (matchLet rec a) false := by
  unfold matchLet mkLet; looks [looks_optionalType h, looks_initializer h]

theorem looks_const (a : Option Node) : Looks (matchConst rec a) false := by
  unfold matchConst mkConst; looks [looks_optionalType h, looks_initializer h]

theorem looks_staticAssert : Looks (matchStaticAssert rec) false := by
  unfold matchStaticAssert mkStaticAssert; looks [looks_parenthesized h]

theorem looks_assignment (a : Option Node) : Looks (matchAssignment rec a) false := by
  unfold matchAssignment mkAssignment; looks [h _]

theorem looks_assignmentStatement (a : Option Node) :
    Looks (matchAssignmentStatement rec a) false := by
  unfold matchAssignmentStatement; looks [looks_assignment h a]

theorem looks_callStatement : Looks (matchCallStatement rec) false := by
  unfold matchCallStatement; looks [looks_call h]

omit h in
theorem looks_setIsStatement (n : Node) : Looks (setIsStatement n) false := by
  unfold setIsStatement; split <;> trivial

theorem looks_assignmentOrCall : Looks (matchAssignmentOrCall rec) false := by
  unfold matchAssignmentOrCall
  refine Looks.peekAny fun t => ?_
  split
  · exact rfl
  · intro t
    show Looks (if _ then _ else _) _
    looks [looks_assignmentStatement h _, looks_callStatement h, looks_setIsStatement _]

theorem looks_return : Looks (matchReturn rec) false := by
  unfold matchReturn; looks [h _]

theorem looks_block : Looks (matchBlock rec) false := by
  unfold matchBlock; looks [h _]

theorem looks_else : Looks (matchElse rec) false := by
  unfold matchElse; looks [h _, looks_block h]

theorem looks_if (a : Option Node) : Looks (matchIf rec a) false := by
  unfold matchIf mkIf; looks [h _, looks_block h, looks_else h]

theorem looks_while (a : Option Node) : Looks (matchWhile rec a) false := by
  unfold matchWhile mkWhile; looks [h _, looks_block h]

theorem looks_annotatedStatement (a : Node) : Looks (matchAnnotatedStatement rec a) false := by
  unfold matchAnnotatedStatement
  looks [h _, looks_const h _, looks_let h _, looks_while h _, looks_assignmentStatement h _]

omit h in
theorem looks_break : Looks matchBreak false := by unfold matchBreak; looks [trivial]
omit h in
theorem looks_continue : Looks matchContinue false := by unfold matchContinue; looks [trivial]

theorem looks_statement : Looks (matchStatement rec) false := by
  unfold matchStatement
  looks [h _, looks_const h _, looks_let h _, looks_while h _, looks_staticAssert h, looks_break,
    looks_continue, looks_return h, looks_block h, looks_assignmentOrCall h,
    looks_annotationSequence h, looks_annotatedStatement h _]

theorem looks_parameter : Looks (matchParameter rec) false := by
  unfold matchParameter mkParameter; looks [looks_type h]

theorem looks_parameterSequence : Looks (matchParameterSequence rec) false := by
  unfold matchParameterSequence; looks [h _]

theorem looks_requires : Looks (matchRequires rec) false := by
  unfold matchRequires; looks [h _]

theorem looks_function (a : Option Node) : Looks (matchFunction rec a) false := by
  unfold matchFunction mkFunction
  looks [looks_parameterSequence h, looks_type h, looks_requires h, looks_block h]

theorem looks_annotatedDeclaration (a : Node) : Looks (matchAnnotatedDeclaration rec a) false := by
  unfold matchAnnotatedDeclaration; looks [looks_const h _, looks_function h _]

theorem looks_declaration : Looks (matchDeclaration rec) false := by
  unfold matchDeclaration
  looks [looks_const h _, looks_function h _, looks_staticAssert h, looks_annotationSequence h,
    looks_annotatedDeclaration h _]

theorem looks_program : Looks (matchProgram rec) false := by
  unfold matchProgram; looks [looks_declaration h, h _]

theorem looks_body (r : Rule) : Looks (body rec r) false := by
  cases r <;> simp only [body]
  · exact looks_expression h
  · exact looks_ifExpression h
  · unfold argumentsLoop; looks [h _]
  · unfold parametersLoop; looks [h _, looks_parameter h]
  · unfold annotationsLoop; looks [h _, looks_annotation h]
  · unfold annotationArgumentsLoop; looks [h _, looks_annotationArgument]
  · exact looks_if h _
  · unfold statementsLoop; looks [h _, looks_statement h]
  · unfold declarationsLoop; looks [h _, looks_declaration h]

end

theorem looks_parseRule (n : Nat) (r : Rule) : Looks (parseRule n r) false := by
  induction n generalizing r with
  | zero => trivial
  | succ n ih => exact looks_body ih r

/-! ## Consumption of tokens -/

theorem Eats.require' {r : GrammarRule} {t : TokenType} : Eats (require r t) :=
  Eats.next Eats.fail fun _ => .inl rfl
theorem Eats.require {r : GrammarRule} {t : TokenType} {f : Token → Prog β} :
    Eats ((require r t).bind f) := Eats.require'.bind_left
theorem Eats.expect {t : TokenType} {f : Option Token → Prog β} (hn : Eats (f none)) :
    Eats ((expect t).bind f) := Eats.next hn fun _ => .inl rfl
theorem Eats.expectIf {p : TokenType → Bool} {f : Option Token → Prog β} (hn : Eats (f none)) :
    Eats ((expectIf p).bind f) := Eats.next hn fun _ => .inl rfl

open Lean in
/-- Prove `Eats` for a member function from `Eats` for functions it calls. -/
macro "eats" "[" ts:term,* "]" : tactic => do
  let alts ← ts.getElems.mapM fun t => `(tactic| exact $t)
  let alts' ← ts.getElems.mapM fun t => `(tactic| exact Eats.bind_left $t)
  let all : Array (TSyntax `tactic) := alts ++ alts'
  `(tactic| (
    (try simp only [bind_eq, pure_eq])
    repeat' (with_reducible first
      | exact Eats.fail | exact Eats.throws | exact Eats.require' | exact Eats.require
      | (first $[| $all:tactic]*)
      | refine Eats.expect ?_ | refine Eats.expectIf ?_
      | refine Eats.bind_right (fun _ => ?_)
      | dsimp only
      | split)))

section
variable {rec : (r : Rule) → Prog r.Result}

/-- The cases whose functions always consume a token: all but the loop over declarations, which
stops at the end of the input. -/
def Rule.eats : Rule → Bool
  | .declarations _ => false
  | _ => true

theorem eats_parenthesized : Eats (matchParenthesized rec) := Eats.require

theorem eats_primary : Eats (matchPrimary rec) := by
  unfold matchPrimary
  refine Eats.expectIf (Eats.expect ?_)
  exact Eats.handle eats_parenthesized fun _ => Eats.fail

theorem eats_annotationArgument : Eats matchAnnotationArgument := by
  unfold matchAnnotationArgument
  refine Eats.expect ?_
  eats [Eats.fail]

theorem eats_annotation : Eats (matchAnnotation rec) := Eats.require
theorem eats_call : Eats (matchFunctionCall rec) := Eats.require

theorem eats_postfix : Eats (matchPostfix rec) := by
  unfold matchPostfix
  refine Eats.bind_right fun b => ?_
  split
  · refine Eats.bind_right fun b => ?_
    eats [eats_call, eats_primary]
  · exact eats_primary

theorem eats_prefix : Eats (matchPrefix rec) := by
  unfold matchPrefix
  exact Eats.expectIf eats_postfix

theorem eats_arithmetic : Eats (matchArithmetic rec) := eats_prefix.bind_left
theorem eats_comparison : Eats (matchComparison rec) := eats_arithmetic.bind_left

theorem eats_binary : Eats (matchBinary rec) := by
  unfold matchBinary
  eats [eats_prefix, eats_comparison]

theorem eats_ifExpression : Eats (matchIfExpression rec) := eats_binary.bind_left

theorem eats_type : Eats (matchType rec) := by
  unfold matchType; eats [Eats.fail]

theorem eats_conversion : Eats (matchConversion rec) := eats_prefix.bind_left

theorem eats_expression (h : Eats (rec .ifExpression)) : Eats (matchExpression rec) := by
  unfold matchExpression; eats [eats_conversion, h]

theorem eats_let (a : Option Node) : Eats (matchLet rec a) := Eats.require
theorem eats_const (a : Option Node) : Eats (matchConst rec a) := Eats.require
theorem eats_staticAssert : Eats (matchStaticAssert rec) := Eats.require
theorem eats_assignmentStatement (a : Option Node) : Eats (matchAssignmentStatement rec a) :=
  Eats.bind_left Eats.require
theorem eats_assignmentOrCall : Eats (matchAssignmentOrCall rec) := by
  unfold matchAssignmentOrCall matchCallStatement
  eats [eats_assignmentStatement _, eats_call.bind_left]
theorem eats_return : Eats (matchReturn rec) := Eats.require
theorem eats_break : Eats matchBreak := Eats.require
theorem eats_continue : Eats matchContinue := Eats.require
theorem eats_block : Eats (matchBlock rec) := Eats.require
theorem eats_if (a : Option Node) : Eats (matchIf rec a) := Eats.require
theorem eats_while (a : Option Node) : Eats (matchWhile rec a) := Eats.require
theorem eats_parameter : Eats (matchParameter rec) := Eats.require
theorem eats_function (a : Option Node) : Eats (matchFunction rec a) := Eats.require

variable (h : ∀ r : Rule, r.eats = true → Eats (rec r))
include h

theorem eats_annotationSequence : Eats (matchAnnotationSequence rec) := (h _ rfl).bind_left

theorem eats_statement : Eats (matchStatement rec) := by
  unfold matchStatement
  eats [h _ rfl, eats_const _, eats_let _, eats_while _, eats_staticAssert, eats_break,
    eats_continue, eats_return, eats_block, eats_assignmentOrCall, eats_annotationSequence h]

theorem eats_declaration : Eats (matchDeclaration rec) := by
  unfold matchDeclaration
  eats [eats_const _, eats_function _, eats_staticAssert, eats_annotationSequence h]

theorem eats_body (r : Rule) (hr : r.eats = true) : Eats (body rec r) := by
  cases r <;> simp only [body]
  · exact eats_expression (h _ rfl)
  · exact eats_ifExpression
  · unfold argumentsLoop; eats [h _ rfl]
  · exact eats_parameter.bind_left
  · exact eats_annotation.bind_left
  · exact eats_annotationArgument.bind_left
  · exact eats_if _
  · unfold statementsLoop; eats [eats_statement h]
  · cases hr

end

theorem eats_parseRule (n : Nat) (r : Rule) (hr : r.eats = true) : Eats (parseRule n r) := by
  induction n generalizing r with
  | zero => exact Eats.diverge
  | succ n ih => exact eats_body ih r hr

/-! ## Termination -/

theorem Halts.require' {m : Nat} {r : GrammarRule} {t : TokenType} : Halts m (require r t) :=
  Halts.next Halts.fail fun _ _ _ => Halts.ret
theorem Halts.require {m : Nat} {r : GrammarRule} {t : TokenType} {f : Token → Prog β}
    (h : ∀ t m', m' < m → Halts m' (f t)) : Halts m ((require r t).bind f) :=
  Halts.require'.bind_eats Eats.require' fun m' hm t => h t m' hm
theorem Halts.expect {m : Nat} {t : TokenType} {f : Option Token → Prog β}
    (hn : Halts m (f none)) (h : ∀ t m', m' < m → Halts m' (f (some t))) :
    Halts m ((expect t).bind f) := Halts.next hn h
theorem Halts.expectIf {m : Nat} {p : TokenType → Bool} {f : Option Token → Prog β}
    (hn : Halts m (f none)) (h : ∀ t m', m' < m → Halts m' (f (some t))) :
    Halts m ((expectIf p).bind f) := Halts.next hn h
theorem Halts.expect' {m : Nat} {t : TokenType} : Halts m (Parse.expect t) :=
  Halts.next Halts.ret fun _ _ _ => Halts.ret
theorem Halts.peek' {m : Nat} {t : TokenType} : Halts m (Parse.peek t) :=
  Halts.next Halts.ret fun _ => Halts.ret
theorem Halts.peekAny' {m : Nat} : Halts m Parse.peekAny :=
  Halts.next Halts.ret fun _ => Halts.ret
theorem Halts.push' {m : Nat} {n : Node} : Halts m (Parse.push n) := Halts.push fun _ => Halts.ret
theorem Halts.pushOrNull' {m : Nat} {n : Option Node} : Halts m (pushOrNull n) := by
  cases n with
  | none => exact Halts.ret
  | some n => exact Halts.push'
theorem Halts.extract' {m : Nat} {t : Token} : Halts m (Parse.extract t) :=
  Halts.extract fun _ => Halts.ret
theorem Halts.assert' {m : Nat} {c : Bool} : Halts m (assert c) := by
  unfold assert; split
  · exact Halts.ret
  · exact Halts.throws
theorem Halts.commit' {m : Nat} : Halts m (.commit .ret) := Halts.commit fun _ => Halts.ret
theorem Halts.peek1' {m : Nat} : Halts m (.peek1 .ret) := Halts.peek1 fun _ => Halts.ret

open Lean in
/-- Prove `Halts` for a member function from `Halts` for the functions it calls. -/
macro "halts" "[" ts:term,* "]" : tactic => do
  let alts ← ts.getElems.mapM fun t => `(tactic| (apply $t; done))
  let alts' ← ts.getElems.mapM fun t => `(tactic| (apply $t; first | assumption | omega))
  let all : Array (TSyntax `tactic) := alts ++ alts'
  `(tactic| (
    (try simp only [bind_eq, pure_eq])
    repeat' (with_reducible first
      | exact Halts.ret | exact Halts.throws | exact Halts.fail
      | exact Halts.require' | exact Halts.push' | exact Halts.pushOrNull' | exact Halts.extract'
      | exact Halts.assert' | exact Halts.peek' | exact Halts.peekAny' | exact Halts.commit'
      | exact Halts.peek1' | exact Halts.expect'
      | (first $[| $all:tactic]*)
      | refine Halts.require (fun _ _ _ => ?_)
      | refine Halts.expect ?_ (fun _ _ _ => ?_) | refine Halts.expectIf ?_ (fun _ _ _ => ?_)
      | refine Halts.bind ?_ (fun _ => ?_)
      | dsimp only
      | split)))

section
variable {rec : (r : Rule) → Prog r.Result} {m : Nat}

/-- With fewer than `m` tokens left, the functions for the cases halt. -/
abbrev Ready (rec : (r : Rule) → Prog r.Result) (m : Nat) : Prop :=
  ∀ (r : Rule) (m' : Nat), m' < m → Halts m' (rec r)

theorem Ready.mono {m' : Nat} (h : Ready rec m) (hm : m' ≤ m) : Ready rec m' :=
  fun r k hk => h r k (by omega)

theorem halts_parenthesized (h : Ready rec m) : Halts m (matchParenthesized rec) := by
  unfold matchParenthesized; halts [h]

theorem halts_primary (h : Ready rec m) : Halts m (matchPrimary rec) := by
  unfold matchPrimary
  refine Halts.expectIf ?_ (fun _ _ _ => ?_)
  · refine Halts.expect ?_ (fun _ _ _ => ?_)
    · exact Halts.handle (halts_parenthesized h) (fun _ => Halts.fail) (fun _ => Halts.ret)
    · halts [h]
  · halts [h]

theorem halts_annotationArgument : Halts m matchAnnotationArgument := by
  unfold matchAnnotationArgument
  refine Halts.expect ?_ (fun _ _ _ => ?_) <;> halts [Halts.ret]

theorem halts_annotationArguments (h : Ready rec m) : Halts m (matchAnnotationArguments rec) := by
  unfold matchAnnotationArguments matchAnnotationArgumentSequence; halts [h]

theorem halts_annotation (h : Ready rec m) : Halts m (matchAnnotation rec) := by
  unfold matchAnnotation
  refine Halts.require fun _ _ _ => Halts.require fun _ _ _ => ?_
  refine Halts.handle (halts_annotationArguments (h.mono (by omega))) (fun _ => ?_) (fun _ => ?_)
  · halts [h]
  · halts [h]

theorem halts_annotationSequence (h : Halts m (rec (.annotations []))) :
    Halts m (matchAnnotationSequence rec) := by
  unfold matchAnnotationSequence; halts [h]

theorem halts_annotationSequence' (h : Ready rec m) {m' : Nat} (hm : m' < m) :
    Halts m' (matchAnnotationSequence rec) := halts_annotationSequence (h _ _ hm)

theorem halts_call (h : Ready rec m) : Halts m (matchFunctionCall rec) := by
  unfold matchFunctionCall; halts [h, halts_annotationSequence' h]

theorem halts_postfix (h : Ready rec m) : Halts m (matchPostfix rec) := by
  unfold matchPostfix; halts [halts_call h, halts_primary h]

theorem halts_postfix' (h : Ready rec m) {m' : Nat} (hm : m' < m) : Halts m' (matchPostfix rec) :=
  halts_postfix (h.mono (by omega))

theorem halts_prefix (h : Ready rec m) : Halts m (matchPrefix rec) := by
  unfold matchPrefix mkPrefix; halts [halts_postfix h, halts_postfix' h]

theorem halts_prefix' (h : Ready rec m) {m' : Nat} (hm : m' < m) : Halts m' (matchPrefix rec) :=
  halts_prefix (h.mono (by omega))

theorem halts_arithmetic (h : Ready rec m) : Halts m (matchArithmetic rec) := by
  unfold matchArithmetic mkBinary; halts [halts_prefix h, halts_prefix' h]

theorem halts_arithmetic' (h : Ready rec m) {m' : Nat} (hm : m' < m) :
    Halts m' (matchArithmetic rec) := halts_arithmetic (h.mono (by omega))

theorem halts_comparison (h : Ready rec m) : Halts m (matchComparison rec) := by
  unfold matchComparison mkBinary; halts [halts_arithmetic h, halts_arithmetic' h]

theorem halts_binary (h : Ready rec m) : Halts m (matchBinary rec) := by
  unfold matchBinary mkBinary; halts [halts_prefix h, halts_prefix' h, halts_comparison h]

theorem halts_binary' (h : Ready rec m) {m' : Nat} (hm : m' < m) : Halts m' (matchBinary rec) :=
  halts_binary (h.mono (by omega))

theorem halts_ifExpression (h : Ready rec m) : Halts m (matchIfExpression rec) := by
  unfold matchIfExpression mkIfExpression; halts [halts_binary h, halts_binary' h, h]

theorem halts_type (h : Ready rec m) : Halts m (matchType rec) := by
  unfold matchType mkType
  halts [fun m' (hm : m' < m) => halts_parenthesized (h.mono (Nat.le_of_lt hm))]

theorem halts_type' (h : Ready rec m) {m' : Nat} (hm : m' < m) : Halts m' (matchType rec) :=
  halts_type (h.mono (by omega))

theorem halts_conversion (h : Ready rec m) : Halts m (matchConversion rec) := by
  unfold matchConversion mkConversion; halts [halts_prefix h, halts_type' h]

theorem halts_expression (h : Ready rec m) (hl : Halts m (rec .ifExpression)) :
    Halts m (matchExpression rec) := by
  unfold matchExpression
  refine Halts.attempt ?_ (fun _ => ?_)
  · halts [halts_prefix h]
  · show Halts m (if _ then _ else _)
    halts [halts_conversion h, hl]

theorem halts_initializer (h : Ready rec m) : Halts m (matchInitializer rec) := by
  unfold matchInitializer; halts [h]

theorem halts_initializer' (h : Ready rec m) {m' : Nat} (hm : m' < m) :
    Halts m' (matchInitializer rec) := halts_initializer (h.mono (by omega))

theorem halts_optionalType (h : Ready rec m) : Halts m (matchOptionalType rec) := by
  unfold matchOptionalType; halts [halts_type' h]

theorem halts_optionalType' (h : Ready rec m) {m' : Nat} (hm : m' < m) :
    Halts m' (matchOptionalType rec) := halts_optionalType (h.mono (by omega))

theorem halts_let (h : Ready rec m) (a : Option Node) : Halts m (matchLet rec a) := by
  unfold matchLet mkLet; halts [halts_optionalType' h, halts_initializer' h]

theorem halts_const (h : Ready rec m) (a : Option Node) : Halts m (matchConst rec a) := by
  unfold matchConst mkConst; halts [halts_optionalType' h, halts_initializer' h]

theorem halts_staticAssert (h : Ready rec m) : Halts m (matchStaticAssert rec) := by
  unfold matchStaticAssert mkStaticAssert
  halts [fun m' (hm : m' < m) => halts_parenthesized (h.mono (Nat.le_of_lt hm))]

theorem halts_assignmentStatement (h : Ready rec m) (a : Option Node) :
    Halts m (matchAssignmentStatement rec a) := by
  unfold matchAssignmentStatement matchAssignment mkAssignment; halts [h]

theorem halts_setIsStatement (n : Node) : Halts m (setIsStatement n) := by
  unfold setIsStatement; split
  · exact Halts.ret
  · exact Halts.throws

theorem halts_assignmentOrCall (h : Ready rec m) : Halts m (matchAssignmentOrCall rec) := by
  unfold matchAssignmentOrCall matchCallStatement
  halts [halts_assignmentStatement h, halts_call h, halts_setIsStatement]

theorem halts_return (h : Ready rec m) : Halts m (matchReturn rec) := by
  unfold matchReturn; halts [h]
theorem halts_break : Halts m matchBreak := by unfold matchBreak; halts [Halts.ret]
theorem halts_continue : Halts m matchContinue := by unfold matchContinue; halts [Halts.ret]

theorem halts_block (h : Ready rec m) : Halts m (matchBlock rec) := by
  unfold matchBlock; halts [h]

theorem halts_block' (h : Ready rec m) {m' : Nat} (hm : m' < m) : Halts m' (matchBlock rec) :=
  halts_block (h.mono (by omega))

theorem halts_else' (h : Ready rec m) {m' : Nat} (hm : m' < m) : Halts m' (matchElse rec) := by
  have h := h.mono (Nat.le_of_lt hm)
  unfold matchElse; halts [h, halts_block' h]

theorem halts_if (h : Ready rec m) (a : Option Node) : Halts m (matchIf rec a) := by
  unfold matchIf mkIf; halts [h, halts_block' h, halts_else' h]

theorem halts_while (h : Ready rec m) (a : Option Node) : Halts m (matchWhile rec a) := by
  unfold matchWhile mkWhile; halts [h, halts_block' h]

theorem halts_annotatedStatement (h : Ready rec m) (hl : ∀ a, Halts m (rec (.ifStatement a)))
    (a : Node) : Halts m (matchAnnotatedStatement rec a) := by
  unfold matchAnnotatedStatement
  halts [hl, halts_const h, halts_let h, halts_while h, halts_assignmentStatement h]

theorem halts_statement (h : Ready rec m) (hl : ∀ a, Halts m (rec (.ifStatement a)))
    (hl' : Halts m (rec (.annotations []))) : Halts m (matchStatement rec) := by
  unfold matchStatement
  halts [hl, halts_const h, halts_let h, halts_while h, halts_staticAssert h, halts_break,
    halts_continue, halts_return h, halts_block h, halts_assignmentOrCall h,
    halts_annotationSequence hl', halts_annotatedStatement h hl]

theorem halts_parameter (h : Ready rec m) : Halts m (matchParameter rec) := by
  unfold matchParameter mkParameter; halts [halts_type' h]

theorem halts_parameterSequence' (h : Ready rec m) {m' : Nat} (hm : m' < m) :
    Halts m' (matchParameterSequence rec) := by
  unfold matchParameterSequence; halts [h]

theorem halts_requires' (h : Ready rec m) {m' : Nat} (hm : m' < m) :
    Halts m' (matchRequires rec) := by
  have h := h.mono (Nat.le_of_lt hm)
  unfold matchRequires; halts [h]

theorem halts_function (h : Ready rec m) (a : Option Node) : Halts m (matchFunction rec a) := by
  unfold matchFunction mkFunction
  halts [halts_parameterSequence' h, halts_type' h, halts_requires' h, halts_block' h]

theorem halts_annotatedDeclaration (h : Ready rec m) (a : Node) :
    Halts m (matchAnnotatedDeclaration rec a) := by
  unfold matchAnnotatedDeclaration; halts [halts_const h, halts_function h]

theorem halts_declaration (h : Ready rec m) (hl : Halts m (rec (.annotations []))) :
    Halts m (matchDeclaration rec) := by
  unfold matchDeclaration
  halts [halts_const h, halts_function h, halts_staticAssert h, halts_annotationSequence hl,
    halts_annotatedDeclaration h]

/-- Calls between the cases without consuming a token go from higher to lower rank. -/
def Rule.rank : Rule → Nat
  | .expression | .statements _ | .declarations _ => 1
  | .arguments _ _ => 2
  | _ => 0

theorem halts_body {r : Rule} (h : Ready rec m) (hl : ∀ r' : Rule, r'.rank < r.rank →
      Halts m (rec r')) (he : ∀ r : Rule, r.eats = true → Eats (rec r)) :
    Halts m (body rec r) := by
  cases r <;> simp only [body]
  · exact halts_expression h (hl _ (by decide))
  · exact halts_ifExpression h
  · unfold argumentsLoop
    have more : ∀ acc, Halts m ((rec .expression).bind fun arg => (push arg).bind fun h =>
        (expect .comma).bind fun comma => rec (.arguments comma.isSome (acc ++ [h]))) := by
      intro acc
      refine Halts.bind_eats (hl _ (by simp [Rule.rank])) (he _ rfl) fun m' hm _ => ?_
      refine Halts.bind Halts.push' fun _ => Halts.bind Halts.expect' fun _ => h _ _ hm
    simp only [bind_eq, pure_eq]
    split
    · exact more _
    · exact Halts.expect (more _) fun _ _ _ => Halts.ret
  · unfold parametersLoop; halts [h, halts_parameter h]
  · unfold annotationsLoop
    refine Halts.bind_eats (halts_annotation h) eats_annotation fun m' hm a => ?_
    halts [h]
  · unfold annotationArgumentsLoop; halts [h, halts_annotationArgument]
  · exact halts_if h _
  · unfold statementsLoop
    refine Halts.expect ?_ fun _ _ _ => Halts.ret
    refine Halts.bind_eats (halts_statement h (fun _ => hl _ (by simp [Rule.rank]))
      (hl _ (by simp [Rule.rank]))) (eats_statement he) fun m' hm a => ?_
    halts [h]
  · unfold declarationsLoop
    refine Halts.bind Halts.peekAny' fun o => ?_
    cases o with
    | none => exact Halts.ret
    | some t =>
      refine Halts.bind_eats (halts_declaration h (hl _ (by simp [Rule.rank])))
        (eats_declaration he) fun m' hm a => ?_
      halts [h]

end

theorem rank_le (r : Rule) : r.rank ≤ 2 := by cases r <;> simp [Rule.rank]

theorem halts_parseRule (n m : Nat) (r : Rule) (h : 3 * m + r.rank < n) :
    Halts m (parseRule n r) := by
  induction n generalizing m r with
  | zero => omega
  | succ n ih =>
    refine halts_body (fun r' m' hm => ih m' r' ?_) (fun r' hr => ih m r' (by omega))
      (eats_parseRule n)
    have := rank_le r'
    omega

theorem halts_program (n m : Nat) (h : 3 * m + 2 < n) : Halts m (matchProgram (parseRule n)) := by
  unfold matchProgram
  refine Halts.bind (halts_declaration (fun r m' hm => halts_parseRule n m' r ?_)
    (halts_parseRule n m _ ?_)) fun _ => Halts.bind Halts.push' fun _ =>
      Halts.bind (halts_parseRule n m _ ?_) fun _ => Halts.ret
  · have := rank_le r; omega
  · simp only [Rule.rank]; omega
  · simp only [Rule.rank]; omega

end Bms.Parse
