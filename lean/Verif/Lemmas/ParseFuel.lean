import Verif.Lemmas.ParseRun

/-!
# The bound on the nesting depth does not change results
-/

namespace Bms.Parse

variable {α β : Type}

/-- The runs of `p` that end are those of `q`. -/
def Refines (p q : Prog α) : Prop :=
  ∀ (src : List Char) (s : State), p.run src s = .diverge ∨ p.run src s = q.run src s

theorem Refines.refl {p : Prog α} : Refines p p := fun _ _ => .inr rfl

theorem Refines.trans {p q r : Prog α} (h : Refines p q) (h' : Refines q r) : Refines p r := by
  intro src s
  rcases h src s with h | h
  · exact .inl h
  · rw [h]; exact h' src s

theorem Refines.diverge {p : Prog α} : Refines .diverge p := fun _ _ => .inl rfl

theorem Refines.bind {p q : Prog α} {f g : α → Prog β} (hp : Refines p q)
    (hf : ∀ a, Refines (f a) (g a)) : Refines (p.bind f) (q.bind g) := by
  intro src s
  rw [run_bind, run_bind]
  rcases hp src s with h | h
  · rw [h]; exact .inl rfl
  · rw [h]
    cases q.run src s with
    | ok a s' => exact hf a src s'
    | err e s' => exact .inr rfl
    | throws => exact .inr rfl
    | diverge => exact .inr rfl

theorem Refines.handle {p q : Prog α} {e e' : RuleError → Prog β} {k k' : α → Prog β}
    (hp : Refines p q) (he : ∀ x, Refines (e x) (e' x)) (hk : ∀ a, Refines (k a) (k' a)) :
    Refines (.handle p e k) (.handle q e' k') := by
  intro src s
  simp only [Prog.run]
  rcases hp src s with h | h
  · rw [h]; exact .inl rfl
  · rw [h]
    cases q.run src s with
    | ok a s' => exact hk a src s'
    | err x s' => exact he x src s'
    | throws => exact .inr rfl
    | diverge => exact .inr rfl

theorem Refines.attempt {p q : Prog Bool} {k k' : Bool → Prog α}
    (hp : Refines p q) (hk : ∀ a, Refines (k a) (k' a)) :
    Refines (.attempt p k) (.attempt q k') := by
  intro src s
  rw [run_attempt, run_attempt]
  rcases hp src s with h | h
  · rw [h]; exact .inl rfl
  · rw [h]
    cases q.run src s with
    | ok a s' => exact hk a src s
    | err x s' => exact hk false src s
    | throws => exact .inr rfl
    | diverge => exact .inr rfl

open Lean in
/-- Prove `Refines` for a member function from `Refines` for the functions it calls. -/
macro "refines" "[" ts:term,* "]" : tactic => do
  let alts ← ts.getElems.mapM fun t => `(tactic| exact $t)
  let all : Array (TSyntax `tactic) := alts
  `(tactic| (
    (try simp only [bind_eq, pure_eq])
    repeat' (with_reducible first
      | exact Refines.refl
      | (first $[| $all:tactic]*)
      | refine Refines.bind ?_ (fun _ => ?_)
      | refine Refines.handle ?_ (fun _ => ?_) (fun _ => ?_)
      | refine Refines.attempt ?_ (fun _ => ?_)
      | dsimp only
      | split)))

section
variable {rec rec' : (r : Rule) → Prog r.Result} (h : ∀ r, Refines (rec r) (rec' r))
include h

theorem refines_parenthesized : Refines (matchParenthesized rec) (matchParenthesized rec') := by
  unfold matchParenthesized; refines [h _]

theorem refines_primary : Refines (matchPrimary rec) (matchPrimary rec') := by
  unfold matchPrimary; refines [refines_parenthesized h]

theorem refines_annotation : Refines (matchAnnotation rec) (matchAnnotation rec') := by
  unfold matchAnnotation matchAnnotationArguments matchAnnotationArgumentSequence; refines [h _]

theorem refines_annotationSequence :
    Refines (matchAnnotationSequence rec) (matchAnnotationSequence rec') := by
  unfold matchAnnotationSequence; refines [h _]

theorem refines_call : Refines (matchFunctionCall rec) (matchFunctionCall rec') := by
  unfold matchFunctionCall; refines [h _, refines_annotationSequence h]

theorem refines_postfix : Refines (matchPostfix rec) (matchPostfix rec') := by
  unfold matchPostfix; refines [refines_call h, refines_primary h]

theorem refines_prefix : Refines (matchPrefix rec) (matchPrefix rec') := by
  unfold matchPrefix; refines [refines_postfix h]

theorem refines_arithmetic : Refines (matchArithmetic rec) (matchArithmetic rec') := by
  unfold matchArithmetic; refines [refines_prefix h]

theorem refines_comparison : Refines (matchComparison rec) (matchComparison rec') := by
  unfold matchComparison; refines [refines_arithmetic h]

theorem refines_binary : Refines (matchBinary rec) (matchBinary rec') := by
  unfold matchBinary; refines [refines_comparison h, refines_prefix h]

theorem refines_ifExpression : Refines (matchIfExpression rec) (matchIfExpression rec') := by
  unfold matchIfExpression; refines [refines_binary h, h _]

theorem refines_type : Refines (matchType rec) (matchType rec') := by
  unfold matchType; refines [refines_parenthesized h]

theorem refines_conversion : Refines (matchConversion rec) (matchConversion rec') := by
  unfold matchConversion; refines [refines_prefix h, refines_type h]

theorem refines_expression : Refines (matchExpression rec) (matchExpression rec') := by
  unfold matchExpression
  refine Refines.attempt ?_ fun _ => ?_
  · refines [refines_prefix h]
  · simp only [Prog.bind]
    refines [refines_conversion h, h _]

theorem refines_initializer : Refines (matchInitializer rec) (matchInitializer rec') := by
  unfold matchInitializer; refines [h _]

theorem refines_optionalType : Refines (matchOptionalType rec) (matchOptionalType rec') := by
  unfold matchOptionalType; refines [refines_type h]

theorem refines_let (a : Option Node) : Refines (matchLet rec a) (matchLet rec' a) := by
  unfold matchLet; refines [refines_optionalType h, refines_initializer h]

theorem refines_const (a : Option Node) : Refines (matchConst rec a) (matchConst rec' a) := by
  unfold matchConst; refines [refines_optionalType h, refines_initializer h]

theorem refines_staticAssert : Refines (matchStaticAssert rec) (matchStaticAssert rec') := by
  unfold matchStaticAssert; refines [refines_parenthesized h]

theorem refines_assignmentStatement (a : Option Node) :
    Refines (matchAssignmentStatement rec a) (matchAssignmentStatement rec' a) := by
  unfold matchAssignmentStatement matchAssignment; refines [h _]

theorem refines_assignmentOrCall :
    Refines (matchAssignmentOrCall rec) (matchAssignmentOrCall rec') := by
  unfold matchAssignmentOrCall matchCallStatement
  refines [refines_assignmentStatement h _, refines_call h]

theorem refines_return : Refines (matchReturn rec) (matchReturn rec') := by
  unfold matchReturn; refines [h _]

theorem refines_block : Refines (matchBlock rec) (matchBlock rec') := by
  unfold matchBlock; refines [h _]

theorem refines_if (a : Option Node) : Refines (matchIf rec a) (matchIf rec' a) := by
  unfold matchIf matchElse; refines [h _, refines_block h]

theorem refines_while (a : Option Node) : Refines (matchWhile rec a) (matchWhile rec' a) := by
  unfold matchWhile; refines [h _, refines_block h]

theorem refines_statement : Refines (matchStatement rec) (matchStatement rec') := by
  unfold matchStatement matchAnnotatedStatement
  refines [h _, refines_block h, refines_while h _, refines_let h _, refines_const h _,
    refines_annotationSequence h, refines_assignmentStatement h _, refines_assignmentOrCall h,
    refines_return h, refines_staticAssert h]

theorem refines_parameter : Refines (matchParameter rec) (matchParameter rec') := by
  unfold matchParameter; refines [refines_type h]

theorem refines_function (a : Option Node) :
    Refines (matchFunction rec a) (matchFunction rec' a) := by
  unfold matchFunction matchParameterSequence matchRequires
  refines [h _, refines_type h, refines_block h]

theorem refines_declaration : Refines (matchDeclaration rec) (matchDeclaration rec') := by
  unfold matchDeclaration matchAnnotatedDeclaration
  refines [refines_function h _, refines_const h _, refines_staticAssert h,
    refines_annotationSequence h]

theorem refines_program : Refines (matchProgram rec) (matchProgram rec') := by
  unfold matchProgram; refines [h _, refines_declaration h]

theorem refines_body (r : Rule) : Refines (body rec r) (body rec' r) := by
  cases r <;> simp only [body]
  · exact refines_expression h
  · exact refines_ifExpression h
  · unfold argumentsLoop; refines [h _]
  · unfold parametersLoop; refines [h _, refines_parameter h]
  · unfold annotationsLoop; refines [h _, refines_annotation h]
  · unfold annotationArgumentsLoop; refines [h _]
  · exact refines_if h _
  · unfold statementsLoop; refines [h _, refines_statement h]
  · unfold declarationsLoop; refines [h _, refines_declaration h]

end

theorem refines_succ (n : Nat) : ∀ r, Refines (parseRule n r) (parseRule (n + 1) r) := by
  induction n with
  | zero => exact fun r => Refines.diverge
  | succ n ih => exact refines_body ih

theorem refines_le {n m : Nat} (h : n ≤ m) : ∀ r, Refines (parseRule n r) (parseRule m r) := by
  induction h with
  | refl => exact fun _ => Refines.refl
  | step _ ih => exact fun r => (ih r).trans (refines_succ _ r)

/-- Enough depth. -/
theorem run_program_fuel {n m : Nat} (src : List Char) (s : State)
    (hn : 3 * s.rest.length + 2 < n) (hm : n ≤ m) :
    (matchProgram (parseRule m)).run src s = (matchProgram (parseRule n)).run src s := by
  rcases refines_program (refines_le hm) src s with h | h
  · exact absurd h (halts_program n _ hn src s (Nat.le_refl _))
  · exact h.symm

/-- With enough depth, the function for a case can be replaced by its definition. -/
theorem run_unfold {n : Nat} (src : List Char) (r : Rule) (s : State)
    (hn : 3 * s.rest.length + r.rank < n) :
    (parseRule n r).run src s = (body (parseRule n) r).run src s := by
  rcases refines_succ n r src s with h | h
  · exact absurd h (halts_parseRule n _ r hn src s (Nat.le_refl _))
  · exact h

end Bms.Parse
