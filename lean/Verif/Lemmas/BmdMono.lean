import Verif.Lemmas.BmdText

/-! More steps do not change what the BMD parser does. -/

namespace Bms.Bmd

/-- `y` agrees with `x` where `x` ends. -/
def Upto (x y : PM α) : Prop := ∀ s, x s = .diverge ∨ x s = y s

theorem Upto.refl (x : PM α) : Upto x x := fun _ => .inr rfl

theorem upto_out (y : PM α) : Upto PM.outOfSteps y := fun _ => .inl rfl

theorem Upto.bind {x y : PM α} {f g : α → PM β} (h : Upto x y) (hf : ∀ a, Upto (f a) (g a)) :
    Upto (x >>= f) (y >>= g) := by
  intro s
  rw [run_bind, run_bind]
  rcases h s with h | h
  · rw [h]; exact .inl rfl
  · rw [← h]
    cases x s with
    | ok a s' => exact hf a s'
    | _ => exact .inr rfl

theorem Upto.ite {c : Prop} [Decidable c] {x y x' y' : PM α} (h : Upto x x') (h' : Upto y y') :
    Upto (if c then x else y) (if c then x' else y') := by
  split
  · exact h
  · exact h'

theorem Upto.iteBool {c : Bool} {x y x' y' : PM α} (h : Upto x x') (h' : Upto y y') :
    Upto (if c then x else y) (if c then x' else y') := h.ite h'

theorem Upto.inside {x y : PM (Option Node)} (h : Upto x y) :
    Upto (matchInsideBlock x) (matchInsideBlock y) := by
  unfold matchInsideBlock
  exact (Upto.refl _).bind fun s => (Upto.refl _).bind fun raw => (Upto.refl _).bind fun _ =>
    h.bind fun _ => .refl _

theorem argumentsLoop_upto (n : Nat) : ∀ args, Upto (argumentsLoop n args) (argumentsLoop (n + 1) args) := by
  induction n with
  | zero => intro args; exact upto_out _
  | succ n ih =>
    intro args
    rw [argumentsLoop, argumentsLoop]
    refine (Upto.refl _).bind fun _ => (Upto.refl _).bind fun _ => (Upto.refl _).bind fun x => ?_
    cases x
    refine (Upto.refl _).bind fun _ => (Upto.refl _).bind fun _ => (Upto.refl _).bind fun _ =>
      (Upto.refl _).bind fun _ => Upto.ite (.refl _) ?_
    refine (Upto.refl _).bind fun _ => (Upto.refl _).bind fun _ => Upto.ite (.refl _) ?_
    exact Upto.ite ((Upto.refl _).bind fun _ => ih _) (.refl _)

/-- All functions agree with themselves with one more step. -/
structure AllUpto (n : Nat) : Prop where
  whole : Upto (matchContent n) (matchContent (n + 1))
  content : ∀ i e p st, Upto (contentLoop n i e p st) (contentLoop (n + 1) i e p st)
  next : ∀ i e p st, Upto (contentNext n i e p st) (contentNext (n + 1) i e p st)
  paragraph : Upto (matchParagraph n) (matchParagraph (n + 1))
  loop : ∀ i e, Upto (paragraphLoop n i e) (paragraphLoop (n + 1) i e)
  element : ∀ i e, Upto (paragraphElement n i e) (paragraphElement (n + 1) i e)
  directive : ∀ c, Upto (matchDirective n c) (matchDirective (n + 1) c)
  block : ∀ c, Upto (matchDirectiveContent n c) (matchDirectiveContent (n + 1) c)
  span : ∀ d, Upto (spanInside n d) (spanInside (n + 1) d)
  inside : Upto (blockInside n) (blockInside (n + 1))
  directives : ∀ t, Upto (directivesInside n t) (directivesInside (n + 1) t)
  list : ∀ t i e, Upto (directivesLoop n t i e) (directivesLoop (n + 1) t i e)

theorem matchArguments_upto (n : Nat) : Upto (matchArguments n) (matchArguments (n + 1)) := by
  unfold matchArguments
  exact (Upto.refl _).bind fun _ => (argumentsLoop_upto n []).bind fun _ => .refl _

theorem all_upto (n : Nat) : AllUpto n := by
  induction n with
  | zero => constructor <;> intros <;> intro s <;> left <;> simp [matchContent, contentLoop,
      contentNext, matchParagraph, paragraphLoop, paragraphElement, matchDirective,
      matchDirectiveContent, spanInside, blockInside, directivesInside, directivesLoop, PM.outOfSteps]
  | succ n ih =>
    constructor
    · rw [matchContent, matchContent]
      exact (Upto.refl _).bind fun _ => ih.content _ _ _ _
    · intro i e p st
      rw [contentLoop, contentLoop]
      refine (Upto.refl _).bind fun s => Upto.ite (.refl _) ?_
      refine (Upto.refl _).bind fun _ => Upto.ite ?_ ?_
      · refine (ih.directive _).bind fun x => ?_
        obtain ⟨type, node⟩ := x
        refine (Upto.refl _).bind fun here => ?_
        cases environmentOf type with
        | list => exact .refl _
        | meta_ => exact .refl _
        | paragraph => exact ih.next _ _ _ _
        | content =>
          cases breakParagraph e p st here.pos with
          | mk a b => exact ih.next _ _ _ _
      · refine (Upto.refl _).bind fun x => ?_
        cases x with
        | none => exact .refl _
        | some t => exact ih.next _ _ _ _
    · intro i e p st
      rw [contentNext, contentNext]
      refine (Upto.refl _).bind fun broken => (Upto.refl _).bind fun here => Upto.ite ?_ ?_
      · cases breakParagraph e p st here.pos with
        | mk a b => exact ih.content _ _ _ _
      · exact ih.content _ _ _ _
    · rw [matchParagraph, matchParagraph]
      exact (Upto.refl _).bind fun _ => ih.loop _ _
    · intro i e
      rw [paragraphLoop, paragraphLoop]
      refine (Upto.refl _).bind fun s => Upto.ite (.refl _) (Upto.ite ?_ (ih.element _ _))
      exact (Upto.refl _).bind fun _ => Upto.ite (.refl _) (ih.element _ _)
    · intro i e
      rw [paragraphElement, paragraphElement]
      refine (Upto.refl _).bind fun x => ?_
      cases x with
      | some t => exact ih.loop _ _
      | none =>
        refine (Upto.refl _).bind fun s => Upto.ite ?_ (ih.loop _ _)
        refine (ih.directive _).bind fun x => ?_
        cases x
        exact ih.loop _ _
    · intro c
      rw [matchDirective, matchDirective]
      refine (Upto.refl _).bind fun _ => (Upto.refl _).bind fun s => (Upto.refl _).bind fun _ =>
        (Upto.refl _).bind fun x => ?_
      cases x with
      | mk a name =>
        simp only
        cases directiveTypeById name with
        | ub => exact .refl _
        | missing => exact .refl _
        | found type =>
          refine Upto.ite (.refl _) ((Upto.refl _).bind fun s1 => ?_)
          have hblock : ∀ args, Upto
              (do let s2 ← PM.get
                  let block ← if s2.peek '{' then matchDirectiveContent n (contentTypeOf type)
                    else Pure.pure none
                  let s3 ← PM.get
                  return (type, Node.directive s.pos (s3.pos.start - s.pos.start) type name args block))
              (do let s2 ← PM.get
                  let block ← if s2.peek '{' then matchDirectiveContent (n + 1) (contentTypeOf type)
                    else Pure.pure none
                  let s3 ← PM.get
                  return (type, Node.directive s.pos (s3.pos.start - s.pos.start) type name args
                    block)) := by
            intro args
            refine (Upto.refl _).bind fun s2 => Upto.ite ?_ (.refl _)
            exact (ih.block _).bind fun _ => .refl _
          exact Upto.ite ((matchArguments_upto n).bind hblock) ((Upto.refl _).bind hblock)
    · intro c
      cases c <;> rw [matchDirectiveContent, matchDirectiveContent]
      case nothing => exact .refl _
      case raw => exact .refl _
      case text_span => exact (ih.span _).inside
      case span => exact (ih.span _).inside
      case block => exact ih.inside.inside
      case meta_ => exact (ih.directives _).inside
      case list => exact (ih.directives _).inside
    · intro d
      rw [spanInside, spanInside]
      refine (Upto.refl _).bind fun broken => Upto.ite (.refl _) ?_
      cases d with
      | false => exact .refl _
      | true => exact ih.paragraph.bind fun _ => .refl _
    · rw [blockInside, blockInside]
      exact (Upto.refl _).bind fun _ => ih.whole
    · intro t
      rw [directivesInside, directivesInside]
      exact (Upto.refl _).bind fun _ => (Upto.refl _).bind fun _ => ih.list _ _ _
    · intro t i e
      rw [directivesLoop, directivesLoop]
      refine (Upto.refl _).bind fun s => Upto.ite (.refl _) (Upto.ite (.refl _) ?_)
      refine (ih.directive _).bind fun x => ?_
      cases x
      exact (Upto.refl _).bind fun _ => ih.list _ _ _

/-- What `parse` does within `n` steps it does within more steps. -/
theorem parse_mono {source : List Char} {n m : Nat} (hnm : n ≤ m) (h : parse n source ≠ .diverge) :
    parse m source = parse n source := by
  induction hnm with
  | refl => rfl
  | @step k _ ih =>
    have : Upto (matchDocument k) (matchDocument (k + 1)) := by
      unfold matchDocument
      exact (Upto.refl _).bind fun _ => (Upto.refl _).bind fun _ => Upto.ite (.refl _) (all_upto k).whole
    rcases this ⟨⟨0, 0, 0⟩, source⟩ with hd | hd
    · exact absurd (ih ▸ hd) h
    · rw [← ih]; exact hd.symm

end Bms.Bmd
