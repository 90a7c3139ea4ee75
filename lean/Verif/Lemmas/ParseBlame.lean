import Verif.Lemmas.ParseRun

/-!
# The token that is blamed for an error is not one of those that are expected

Except for primary expressions, for which errors in parentheses are replaced.
-/

namespace Bms.Parse

variable {α β : Type} {src : List Char}

/-- Failures say what is expected, and `out` holds for what is expected: these are the types that the
next token does not have. -/
def Blame {α : Type} : Prog α → (TokenType → Prop) → Prop
  | .ret _, _ => True
  | .fail e, out => e.expected ≠ [] ∧ (e.rule = .primary_expression ∨ ∀ t ∈ e.expected, out t)
  | .throws, _ => True
  | .diverge, _ => True
  | .next p i k, out => Blame (k none) (fun ty => out ty ∨ p ty = true) ∧
      ∀ t, p t.type = true → ¬ out t.type →
        Blame (k (some t)) (fun ty => i = false ∧ ty ≠ t.type)
  | .peek1 k, out => ∀ t, Blame (k t) out
  | .push _ k, out => ∀ h, Blame (k h) out
  | .extract _ k, out => ∀ s, Blame (k s) out
  | .commit k, out => ∀ b, Blame (k b) out
  | .attempt _ k, out => ∀ b, Blame (k b) out
  | .handle _ e k, _ => (∀ r, Blame (e r) fun _ => False) ∧ ∀ a, Blame (k a) fun _ => False

theorem Blame.mono {p : Prog α} {out out' : TokenType → Prop} (h : Blame p out)
    (ho : ∀ t, out t → out' t) : Blame p out' := by
  induction p generalizing out out' with
  | ret a => trivial
  | fail e => exact ⟨h.1, h.2.imp id fun h t ht => ho t (h t ht)⟩
  | throws => trivial
  | diverge => trivial
  | next p i k ih =>
    exact ⟨ih none h.1 fun t ht => ht.imp (ho t) id,
      fun t h1 h2 => ih _ (h.2 t h1 fun h3 => h2 (ho _ h3)) fun _ h => h⟩
  | peek1 k ih => exact fun t => ih t (h t) ho
  | push n k ih => exact fun t => ih t (h t) ho
  | extract t k ih => exact fun t => ih t (h t) ho
  | commit k ih => exact fun t => ih t (h t) ho
  | attempt b k ihb ih => exact fun t => ih t (h t) ho
  | handle b e k ihb ihe ih => exact h

theorem Blame.weaken {p : Prog α} {out : TokenType → Prop} (h : Blame p fun _ => False) :
    Blame p out := h.mono fun _ h => h.elim

theorem Blame.bind {p : Prog α} {f : α → Prog β} {out : TokenType → Prop} (hp : Blame p out)
    (hf : ∀ a, Blame (f a) fun _ => False) : Blame (p.bind f) out := by
  induction p generalizing out with
  | ret a => exact (hf a).weaken
  | fail e => exact hp
  | throws => trivial
  | diverge => trivial
  | next p i k ih => exact ⟨ih none hp.1 hf, fun t h1 h2 => ih (some t) (hp.2 t h1 h2) hf⟩
  | peek1 k ih => exact fun t => ih t (hp t) hf
  | push n k ih => exact fun t => ih t (hp t) hf
  | extract t k ih => exact fun t => ih t (hp t) hf
  | commit k ih => exact fun t => ih t (hp t) hf
  | attempt b k ihb ih => exact fun t => ih t (hp t) hf
  | handle b e k ihb ihe ih => exact ⟨fun r => ihe r (hp.1 r) hf, fun r => ih r (hp.2 r) hf⟩

/-- What `Blame` means for an error. -/
theorem Blame.err {p : Prog α} {out : TokenType → Prop} (hp : Blame p out) {s s' : State}
    {e : RuleError} (hs : ∀ t ts, skipComments s.rest = t :: ts → ¬ out t.type)
    (h : p.run src s = .err e s') :
    e.expected ≠ [] ∧ (e.rule ≠ .primary_expression →
      ∀ t ts, skipComments s'.rest = t :: ts → t.type ∉ e.expected) := by
  induction p generalizing s s' out e with
  | ret a => cases h
  | fail e =>
    cases h
    exact ⟨hp.1, fun hr t ts ht hm => hs t ts ht (hp.2.resolve_left hr _ hm)⟩
  | throws => cases h
  | diverge => cases h
  | next p i k ih =>
    simp only [Prog.run] at h
    cases hk : skipComments s.rest with
    | nil =>
      rw [hk] at h
      exact ih none hp.1 (fun t ts ht => by cases ht) h
    | cons t ts =>
      rw [hk] at h
      have hc := skipComments_of_cons hk
      by_cases hpt : p t.type = true
      · cases i <;> simp only [hpt, if_true, if_false, Bool.false_eq_true] at h
        · refine ih _ (hp.2 t hpt (hs t ts hk)) (fun t' ts' ht' => ?_) h
          have ht' : skipComments (t :: ts) = t' :: ts' := ht'
          rw [hc, List.cons.injEq] at ht'
          rw [ht'.1]
          exact fun h => h.2 rfl
        · exact ih _ (hp.2 t hpt (hs t ts hk)) (fun t' ts' ht' h => by cases h.1) h
      · simp only [hpt, if_false, Bool.false_eq_true] at h
        refine ih _ hp.1 (fun t' ts' ht' => ?_) h
        have ht' : skipComments (t :: ts) = t' :: ts' := ht'
        rw [hc, List.cons.injEq] at ht'
        rw [← ht'.1]
        exact fun h => h.elim (hs t ts hk) hpt
  | peek1 k ih => exact ih _ (hp _) hs h
  | push n k ih => exact ih _ (hp _) (s := ⟨s.rest, s.nodes ++ [n]⟩) hs h
  | extract t k ih =>
    simp only [Prog.run] at h
    split at h
    · exact ih _ (hp _) hs h
    · cases h
  | commit k ih => exact ih _ (hp _) hs h
  | attempt b k ihb ih =>
    rw [run_attempt] at h
    cases hb : b.run src s with
    | ok r _ => rw [hb] at h; exact ih _ (hp _) hs h
    | err r _ => rw [hb] at h; exact ih _ (hp _) hs h
    | throws => rw [hb] at h; cases h
    | diverge => rw [hb] at h; cases h
  | handle b e k ihb ihe ih =>
    simp only [Prog.run] at h
    cases hb : b.run src s with
    | ok r s1 => rw [hb] at h; exact ih _ (hp.2 r) (fun _ _ _ h => h) h
    | err r s1 => rw [hb] at h; exact ihe _ (hp.1 r) (fun _ _ _ h => h) h
    | throws => rw [hb] at h; cases h
    | diverge => rw [hb] at h; cases h

theorem Blame.expect {t : TokenType} {f : Option Token → Prog β} {out : TokenType → Prop}
    (hn : Blame (f none) (fun ty => out ty ∨ ty = t))
    (hs : ∀ t, Blame (f (some t)) fun _ => False) :
    Blame ((expect t).bind f) out :=
  ⟨hn.mono fun _ h => h.imp id fun h => by simp [h], fun t _ _ => (hs t).weaken⟩
theorem Blame.expectIf {p : TokenType → Bool} {f : Option Token → Prog β} {out : TokenType → Prop}
    (hn : Blame (f none) (fun ty => out ty ∨ p ty = true))
    (hs : ∀ t, Blame (f (some t)) fun _ => False) :
    Blame ((expectIf p).bind f) out := ⟨hn, fun t _ _ => (hs t).weaken⟩
theorem Blame.peek {t : TokenType} {f : Bool → Prog β} {out : TokenType → Prop}
    (ht : Blame (f true) fun _ => False) (hf : Blame (f false) fun ty => out ty ∨ ty = t) :
    Blame ((peek t).bind f) out :=
  ⟨hf.mono fun _ h => h.imp id fun h => by simp [h], fun _ _ _ => ht.weaken⟩
theorem Blame.peekAny {f : Option TokenType → Prog β} {out : TokenType → Prop}
    (hn : Blame (f none) fun _ => True) (hs : ∀ t, Blame (f (some t)) fun ty => ty ≠ t) :
    Blame (peekAny.bind f) out :=
  ⟨hn.mono fun _ _ => .inr rfl, fun t _ _ => (hs t.type).mono fun _ h => ⟨rfl, h⟩⟩
theorem Blame.require' {r : GrammarRule} {t : TokenType} {out : TokenType → Prop} :
    Blame (require r t) out :=
  ⟨⟨by simp, .inr fun ty hty => .inr (by simpa using hty)⟩, fun _ _ _ => trivial⟩
theorem Blame.ret' {a : α} {out : TokenType → Prop} : Blame (.ret a) out := trivial
theorem Blame.throws' {out : TokenType → Prop} : Blame (.throws : Prog α) out := trivial
theorem Blame.failAll {e : RuleError} (h : e.expected ≠ []) :
    Blame (.fail e : Prog α) fun _ => True := ⟨h, .inr fun _ _ => trivial⟩
theorem Blame.failAt {e : RuleError} {ty : TokenType} (h : e.expected ≠ []) (ht : ty ∉ e.expected) :
    Blame (.fail e : Prog α) fun t => t ≠ ty :=
  ⟨h, .inr fun t hm he => ht (he ▸ hm)⟩
theorem Blame.push' {n : Node} {out : TokenType → Prop} : Blame (push n) out := fun _ => trivial
theorem Blame.pushOrNull' {n : Option Node} {out : TokenType → Prop} :
    Blame (pushOrNull n) out := by
  cases n with
  | none => trivial
  | some n => exact Blame.push'
theorem Blame.extract' {t : Token} {out : TokenType → Prop} : Blame (extract t) out :=
  fun _ => trivial
theorem Blame.assert' {c : Bool} {out : TokenType → Prop} : Blame (assert c) out := by
  unfold assert; split <;> trivial
theorem Blame.peek' {t : TokenType} {out : TokenType → Prop} : Blame (Parse.peek t) out :=
  ⟨trivial, fun _ _ _ => trivial⟩

open Lean in
/-- Prove `Blame` for a member function from `Blame` for the functions it calls. -/
macro "blame" "[" ts:term,* "]" : tactic => do
  let alts ← ts.getElems.mapM fun t => `(tactic| exact Blame.weaken $t)
  let all : Array (TSyntax `tactic) := alts
  `(tactic| (
    (try simp only [bind_eq, pure_eq])
    repeat' (with_reducible first
      | exact Blame.ret' | exact Blame.throws'
      | exact Blame.require' | exact Blame.push' | exact Blame.pushOrNull' | exact Blame.extract'
      | exact Blame.assert' | exact Blame.peek'
      | (first $[| $all:tactic]*)
      | refine Blame.expect ?_ (fun _ => ?_) | refine Blame.expectIf ?_ (fun _ => ?_)
      | refine Blame.bind ?_ (fun _ => ?_)
      | dsimp only
      | split)))

section
variable {rec : (r : Rule) → Prog r.Result} (h : ∀ r, Blame (rec r) fun _ => False)
include h

theorem blame_parenthesized : Blame (matchParenthesized rec) fun _ => False := by
  unfold matchParenthesized; blame [h _]

omit h in
theorem blame_primary : Blame (matchPrimary rec) fun _ => False := by
  unfold matchPrimary
  refine Blame.expectIf ?_ (fun t => ?_)
  · refine Blame.expect ?_ (fun t => ?_)
    · exact ⟨fun _ => ⟨by decide, .inl rfl⟩, fun _ => trivial⟩
    · blame [h _]
  · blame [h _]

omit h in
theorem blame_annotationArgument : Blame matchAnnotationArgument fun _ => False := by
  unfold matchAnnotationArgument
  refine Blame.expect ?_ (fun t => ?_)
  · refine Blame.expectIf (f := _) ?_ (fun t => ?_)
    · refine ⟨by decide, .inr ?_⟩
      simp [TokenType.isLiteral]
    · blame [trivial]
  · refine Blame.bind Blame.require' fun _ => ?_
    refine Blame.bind Blame.extract' fun _ => ?_
    refine Blame.expectIf ?_ (fun t => ?_)
    · refine ⟨by simp, .inr ?_⟩
      simp [TokenType.isLiteral]
    · blame [trivial]

theorem blame_annotationArguments : Blame (matchAnnotationArguments rec) fun _ => False := by
  unfold matchAnnotationArguments matchAnnotationArgumentSequence
  blame [h _]

omit h in
theorem blame_annotation : Blame (matchAnnotation rec) fun _ => False := by
  unfold matchAnnotation
  refine Blame.bind Blame.require' fun _ => Blame.bind Blame.require' fun _ => ?_
  exact ⟨fun _ => fun _ => trivial, fun _ => fun _ => trivial⟩

theorem blame_annotationSequence : Blame (matchAnnotationSequence rec) fun _ => False := by
  unfold matchAnnotationSequence; blame [h _]

theorem blame_call : Blame (matchFunctionCall rec) fun _ => False := by
  unfold matchFunctionCall; blame [h _, blame_annotationSequence h]

theorem blame_postfix : Blame (matchPostfix rec) fun _ => False := by
  unfold matchPostfix
  refine Blame.peek ?_ ?_
  · intro t
    show Blame (if _ then _ else _) _
    blame [blame_call h, blame_primary]
  · exact Blame.weaken blame_primary

theorem blame_prefix : Blame (matchPrefix rec) fun _ => False := by
  unfold matchPrefix mkPrefix; blame [blame_postfix h]

theorem blame_arithmetic : Blame (matchArithmetic rec) fun _ => False := by
  unfold matchArithmetic mkBinary; blame [blame_prefix h]

theorem blame_comparison : Blame (matchComparison rec) fun _ => False := by
  unfold matchComparison mkBinary
  refine Blame.bind (blame_arithmetic h) fun _ => ?_
  refine Blame.expectIf ?_ fun _ => ?_
  · refine ⟨by decide, .inr ?_⟩
    simp [comparisonExpected, TokenType.isComparisonOperator]
  · blame [blame_arithmetic h]

theorem blame_binary : Blame (matchBinary rec) fun _ => False := by
  unfold matchBinary
  intro b
  show Blame (if _ then _ else _) _
  unfold mkBinary
  blame [blame_prefix h, blame_comparison h]

theorem blame_ifExpression : Blame (matchIfExpression rec) fun _ => False := by
  unfold matchIfExpression mkIfExpression; blame [blame_binary h, h _]

theorem blame_type : Blame (matchType rec) fun _ => False := by
  unfold matchType mkType
  refine Blame.expect (Blame.expect (Blame.expect (Blame.expect ?_ fun _ => ?_) fun _ => ?_)
    fun _ => ?_) fun _ => ?_
  · refine ⟨by decide, .inr ?_⟩
    simp
  · blame [blame_parenthesized h]
  · blame [blame_parenthesized h]
  · blame [blame_parenthesized h]
  · blame [blame_parenthesized h]

theorem blame_conversion : Blame (matchConversion rec) fun _ => False := by
  unfold matchConversion mkConversion; blame [blame_prefix h, blame_type h]

theorem blame_expression : Blame (matchExpression rec) fun _ => False := by
  unfold matchExpression
  intro b
  show Blame (if _ then _ else _) _
  blame [blame_conversion h, h _]

theorem blame_initializer : Blame (matchInitializer rec) fun _ => False := by
  unfold matchInitializer; blame [h _]

theorem blame_optionalType : Blame (matchOptionalType rec) fun _ => False := by
  unfold matchOptionalType; blame [blame_type h]

theorem blame_let (a : Option Node) : Blame (matchLet rec a) fun _ => False := by
  unfold matchLet mkLet; blame [blame_optionalType h, blame_initializer h]

theorem blame_const (a : Option Node) : Blame (matchConst rec a) fun _ => False := by
  unfold matchConst mkConst; blame [blame_optionalType h, blame_initializer h]

theorem blame_staticAssert : Blame (matchStaticAssert rec) fun _ => False := by
  unfold matchStaticAssert mkStaticAssert; blame [blame_parenthesized h]

theorem blame_assignment (a : Option Node) : Blame (matchAssignment rec a) fun _ => False := by
  unfold matchAssignment mkAssignment; blame [h _]

theorem blame_assignmentStatement (a : Option Node) :
    Blame (matchAssignmentStatement rec a) fun _ => False := by
  unfold matchAssignmentStatement; blame [blame_assignment h a]

theorem blame_callStatement : Blame (matchCallStatement rec) fun _ => False := by
  unfold matchCallStatement; blame [blame_call h]

omit h in
theorem blame_setIsStatement (n : Node) : Blame (setIsStatement n) fun _ => False := by
  unfold setIsStatement; split <;> trivial

theorem blame_assignmentOrCall : Blame (matchAssignmentOrCall rec) fun _ => False := by
  unfold matchAssignmentOrCall
  refine Blame.peekAny (Blame.failAll (by simp)) fun t => ?_
  by_cases ht : t = .identifier
  · rw [if_neg (by simp [ht])]
    intro t
    show Blame (if _ then _ else _) _
    blame [blame_assignmentStatement h _, blame_callStatement h, blame_setIsStatement _]
  · rw [if_pos (by simp [ht])]
    exact Blame.failAt (by simp) (by simpa using ht)

theorem blame_return : Blame (matchReturn rec) fun _ => False := by
  unfold matchReturn; blame [h _]

theorem blame_block : Blame (matchBlock rec) fun _ => False := by
  unfold matchBlock; blame [h _]

theorem blame_else : Blame (matchElse rec) fun _ => False := by
  unfold matchElse; blame [h _, blame_block h]

theorem blame_if (a : Option Node) : Blame (matchIf rec a) fun _ => False := by
  unfold matchIf mkIf; blame [h _, blame_block h, blame_else h]

theorem blame_while (a : Option Node) : Blame (matchWhile rec a) fun _ => False := by
  unfold matchWhile mkWhile; blame [h _, blame_block h]

theorem blame_annotatedStatement (a : Node) :
    Blame (matchAnnotatedStatement rec a) fun _ => False := by
  unfold matchAnnotatedStatement
  refine Blame.peekAny (Blame.failAll (by decide)) fun t => ?_
  cases t <;> dsimp only <;> first
    | exact (h _).weaken
    | exact (blame_const h _).weaken
    | exact (blame_let h _).weaken
    | exact (blame_while h _).weaken
    | exact (blame_assignmentStatement h _).weaken
    | exact Blame.failAt (by decide) (by decide)

omit h in
theorem blame_break : Blame matchBreak fun _ => False := by unfold matchBreak; blame [trivial]
omit h in
theorem blame_continue : Blame matchContinue fun _ => False := by
  unfold matchContinue; blame [trivial]

theorem blame_statement : Blame (matchStatement rec) fun _ => False := by
  unfold matchStatement
  refine Blame.peekAny (Blame.failAll (by decide)) fun t => ?_
  cases t <;> dsimp only <;> first
    | exact (h _).weaken
    | exact (blame_const h _).weaken
    | exact (blame_let h _).weaken
    | exact (blame_while h _).weaken
    | exact (blame_staticAssert h).weaken
    | exact blame_break.weaken
    | exact blame_continue.weaken
    | exact (blame_return h).weaken
    | exact (blame_block h).weaken
    | exact (blame_assignmentOrCall h).weaken
    | exact ((blame_annotationSequence h).bind fun _ => blame_annotatedStatement h _).weaken
    | exact Blame.failAt (by decide) (by decide)

theorem blame_parameter : Blame (matchParameter rec) fun _ => False := by
  unfold matchParameter mkParameter; blame [blame_type h]

theorem blame_parameterSequence : Blame (matchParameterSequence rec) fun _ => False := by
  unfold matchParameterSequence; blame [h _]

theorem blame_requires : Blame (matchRequires rec) fun _ => False := by
  unfold matchRequires; blame [h _]

theorem blame_function (a : Option Node) : Blame (matchFunction rec a) fun _ => False := by
  unfold matchFunction mkFunction
  blame [blame_parameterSequence h, blame_type h, blame_requires h, blame_block h]

theorem blame_annotatedDeclaration (a : Node) :
    Blame (matchAnnotatedDeclaration rec a) fun _ => False := by
  unfold matchAnnotatedDeclaration
  refine Blame.peek (blame_const h _) (Blame.peek (blame_function h _) ?_)
  refine ⟨by decide, .inr ?_⟩
  simp

theorem blame_declaration : Blame (matchDeclaration rec) fun _ => False := by
  unfold matchDeclaration
  refine Blame.peekAny (Blame.failAll (by decide)) fun t => ?_
  cases t <;> dsimp only <;> first
    | exact (blame_const h _).weaken
    | exact (blame_function h _).weaken
    | exact (blame_staticAssert h).weaken
    | exact ((blame_annotationSequence h).bind fun _ => blame_annotatedDeclaration h _).weaken
    | exact Blame.failAt (by decide) (by decide)

theorem blame_program : Blame (matchProgram rec) fun _ => False := by
  unfold matchProgram; blame [blame_declaration h, h _]

theorem blame_body (r : Rule) : Blame (body rec r) fun _ => False := by
  cases r <;> simp only [body]
  · exact blame_expression h
  · exact blame_ifExpression h
  · unfold argumentsLoop; blame [h _]
  · unfold parametersLoop; blame [h _, blame_parameter h]
  · unfold annotationsLoop; blame [h _, blame_annotation]
  · unfold annotationArgumentsLoop; blame [h _, blame_annotationArgument]
  · exact blame_if h _
  · unfold statementsLoop; blame [h _, blame_statement h]
  · unfold declarationsLoop
    refine Blame.peekAny trivial fun t => ?_
    blame [h _, blame_declaration h]

end

theorem blame_parseRule (n : Nat) (r : Rule) : Blame (parseRule n r) fun _ => False := by
  induction n generalizing r with
  | zero => trivial
  | succ n ih => exact blame_body ih r

/-- The token that is blamed. -/
theorem parse_blame {src : List Char} {ts : List Token} {e : ParseError}
    (h : parse src ts = .err e) :
    e.expected ≠ [] ∧
    ∃ rest, rest <:+ ts ∧ skipComments rest = rest ∧
      e.token = (rest.head?).getD Token.default ∧
      (e.rule ≠ .primary_expression → ∀ t ts, rest = t :: ts → t.type ∉ e.expected) := by
  unfold parse at h
  cases hr : (matchProgram (parseRule (3 * ts.length + 3))).run src ⟨ts, []⟩ with
  | ok n s => rw [hr] at h; cases h
  | err r s =>
    have h1 := (looks_program (looks_parseRule _)).err (fun h => by cases h) hr
    have h2 := (blame_program (blame_parseRule _)).err (fun _ _ _ h => h) hr
    rw [h1] at h2
    have h3 := (run_err_mono hr).1
    rw [hr] at h
    cases h
    exact ⟨h2.1, s.rest, h3, h1, rfl, h2.2⟩
  | throws => rw [hr] at h; cases h
  | diverge => rw [hr] at h; cases h

end Bms.Parse
