import Verif.Spec.Bmd
import Verif.Lemmas.Text
import Mathlib.Tactic.Tauto

/-! Lemmas about the lexical functions of the BMD parser: blanks, texts, raw blocks. -/

namespace Bms.Bmd

/-! ### Positions -/

theorem advance_eq (p : Position) (c : Char) : p.advance c = stepPos c p := by
  unfold Position.advance stepPos
  split
  · next h => subst h; rfl
  · split
    · next h => subst h; rfl
    · split
      · next h => subst h; rfl
      · split <;> simp_all

theorem after_append (p : Position) (a b : List Char) : after p (a ++ b) = after (after p a) b := by
  induction a generalizing p with
  | nil => rfl
  | cons c cs ih => exact ih _

theorem after_cons (p : Position) (c : Char) (a : List Char) :
    after p (c :: a) = after (p.advance c) a := by rw [advance_eq]; rfl

theorem stepPos_start (c : Char) (p : Position) : (stepPos c p).start = p.start + 1 := by
  unfold stepPos; split <;> rfl

theorem after_start (p : Position) (t : List Char) : (after p t).start = p.start + t.length := by
  induction t generalizing p with
  | nil => rfl
  | cons c cs ih =>
    show (after (stepPos c p) cs).start = _
    rw [ih, stepPos_start, List.length_cons]; omega

theorem isSpace_iff (c : Char) : isSpace c = true ↔ Space c := by
  unfold isSpace Space
  simp only [Bool.or_eq_true, decide_eq_true_eq]
  constructor
  · rintro (((h | h) | h) | h) <;> simp [h]
  · rintro (h | h | h | h) <;> simp [h]

theorem isEscapeable_iff (c : Char) : isEscapeable c = true ↔ Escapeable c := by
  unfold isEscapeable Escapeable
  simp only [Bool.or_eq_true, decide_eq_true_eq]
  constructor
  · rintro ((h | h) | h) <;> simp [h]
  · rintro (h | h | h) <;> simp [h]

theorem space_newline : Space '\n' := by unfold Space; simp

theorem not_space_slash : ¬ Space '/' := by unfold Space; decide

theorem commentStart_iff (c d : Char) (ds : List Char) :
    CommentStart (c :: d :: ds) ↔ c = '/' ∧ (d = '/' ∨ d = '*') := by
  unfold CommentStart
  constructor
  · rintro ⟨u, h | h⟩ <;> cases h <;> simp
  · rintro ⟨rfl, rfl | rfl⟩
    · exact ⟨ds, .inl rfl⟩
    · exact ⟨ds, .inr rfl⟩

theorem not_commentStart_nil : ¬ CommentStart [] := by rintro ⟨u, h | h⟩ <;> cases h

theorem not_commentStart_one (c : Char) : ¬ CommentStart [c] := by rintro ⟨u, h | h⟩ <;> cases h

theorem not_commentStart_of_ne {c : Char} (h : c ≠ '/') (t : List Char) : ¬ CommentStart (c :: t) := by
  rintro ⟨u, h' | h'⟩ <;> cases h' <;> exact h rfl

theorem noBlank_nil : NoBlank [] := ⟨by simp, not_commentStart_nil⟩

theorem possibleDirective_iff (t : List Char) : possibleDirective t = true ↔ DirectiveStart t := by
  unfold DirectiveStart
  match t with
  | [] => simp [possibleDirective]
  | [c] =>
    simp only [possibleDirective, decide_eq_true_eq, List.cons.injEq]
    exact ⟨fun h => ⟨[], ⟨h, rfl⟩, by simp⟩, fun ⟨_, h, _⟩ => h.1⟩
  | c :: d :: ds =>
    simp only [possibleDirective, Bool.and_eq_true, decide_eq_true_eq, Bool.not_eq_true',
      List.cons.injEq]
    rw [← Bool.not_eq_true, isEscapeable_iff]
    constructor
    · rintro ⟨rfl, h⟩
      exact ⟨d :: ds, ⟨rfl, rfl⟩, fun e he => by simp at he; subst he; exact h⟩
    · rintro ⟨u, ⟨rfl, rfl⟩, h⟩
      exact ⟨rfl, h d rfl⟩

/-! ### Running -/

theorem run_bind (x : PM α) (f : α → PM β) (s : St) : (x >>= f) s =
    match x s with
    | .ok a s' => f a s'
    | .err c r p => .err c r p
    | .throws => .throws
    | .ub => .ub
    | .diverge => .diverge := rfl

theorem run_pure (a : α) (s : St) : (pure a : PM α) s = .ok a s := rfl

theorem run_get (s : St) : PM.get s = .ok s s := rfl

theorem run_set (s s' : St) : PM.set s' s = .ok () s' := rfl

theorem run_fail (c : Code) (r : Rule) (s : St) : (PM.fail c r : PM α) s = .err c r s.pos := rfl

theorem run_require (b : Bool) (s : St) : PM.require b s = if b then .ok () s else .throws := rfl

theorem run_ite (b : Prop) [Decidable b] (x y : PM α) (s : St) :
    (if b then x else y) s = if b then x s else y s := by split <;> rfl

/-! ### Empty lines -/

/-- The pieces go on with spaces up to a newline. -/
def StartsNewline (ps : List (List Char)) : Prop :=
  ∃ ws b, ps = ws ++ ['\n'] :: b ∧ ∀ w ∈ ws, ∃ c, Space c ∧ w = [c]

theorem startsNewline_cons (x : List Char) (ps : List (List Char)) :
    StartsNewline (x :: ps) ↔ x = ['\n'] ∨ ((∃ c, Space c ∧ x = [c]) ∧ StartsNewline ps) := by
  constructor
  · rintro ⟨ws, b, h, hw⟩
    match ws with
    | [] => left; simp at h; exact h.1
    | w :: ws =>
      simp only [List.cons_append, List.cons.injEq] at h
      right
      obtain ⟨rfl, rfl⟩ := h
      exact ⟨hw _ (by simp), ws, b, rfl, fun w h => hw w (by simp [h])⟩
  · rintro (rfl | ⟨hx, ws, b, rfl, hw⟩)
    · exact ⟨[], ps, rfl, by simp⟩
    · exact ⟨x :: ws, b, rfl, by
        intro w h
        rcases List.mem_cons.1 h with rfl | h
        · exact hx
        · exact hw w h⟩

theorem emptyLine_cons (x : List Char) (ps : List (List Char)) :
    EmptyLine (x :: ps) ↔ ((x = ['\n'] ∨ LineComment x) ∧ StartsNewline ps) ∨ EmptyLine ps := by
  constructor
  · rintro ⟨a, y, ws, b, h, hy, hw⟩
    match a with
    | [] =>
      simp only [List.nil_append, List.cons.injEq] at h
      obtain ⟨rfl, rfl⟩ := h
      exact .inl ⟨hy, ws, b, rfl, hw⟩
    | z :: a =>
      simp only [List.cons_append, List.cons.injEq] at h
      obtain ⟨rfl, rfl⟩ := h
      exact .inr ⟨a, y, ws, b, rfl, hy, hw⟩
  · rintro (⟨hx, ws, b, rfl, hw⟩ | ⟨a, y, ws, b, rfl, hy, hw⟩)
    · exact ⟨[], x, ws, b, rfl, hx, hw⟩
    · exact ⟨x :: a, y, ws, b, rfl, hy, hw⟩

theorem not_emptyLine_nil : ¬ EmptyLine [] := by
  rintro ⟨a, y, ws, b, h, -⟩
  cases a <;> simp at h

theorem not_startsNewline_nil : ¬ StartsNewline [] := by
  rintro ⟨ws, b, h, -⟩
  cases ws <;> simp at h

/-- The pieces contain an empty line, where a newline may be pending from before. -/
def Pending (pending : Prop) (ps : List (List Char)) : Prop :=
  EmptyLine ps ∨ (pending ∧ StartsNewline ps)

theorem pending_nil (P : Prop) : ¬ Pending P [] := by
  rintro (h | ⟨_, h⟩)
  · exact not_emptyLine_nil h
  · exact not_startsNewline_nil h

theorem lineComment_ne_single {x : List Char} (h : LineComment x) (c : Char) : x ≠ [c] := by
  obtain ⟨b, -, rfl⟩ := h
  simp

theorem blockComment_ne_single {x : List Char} (h : BlockComment x) (c : Char) : x ≠ [c] := by
  obtain ⟨b, rfl, -⟩ := h
  simp

theorem blockComment_not_line {x : List Char} (h : BlockComment x) : ¬ LineComment x := by
  obtain ⟨b, rfl, -⟩ := h
  rintro ⟨b', -, h⟩
  simp at h

theorem pending_space (P : Prop) {c : Char} (hc : Space c) (hn : c ≠ '\n') (ps : List (List Char)) :
    Pending P ([c] :: ps) ↔ Pending P ps := by
  unfold Pending
  rw [emptyLine_cons, startsNewline_cons]
  have h1 : [c] ≠ ['\n'] := by simpa using hn
  have h2 : ¬ LineComment [c] := fun h => lineComment_ne_single h c rfl
  have h3 : ∃ d, Space d ∧ [c] = [d] := ⟨c, hc, rfl⟩
  tauto

theorem pending_newline (P : Prop) (ps : List (List Char)) :
    Pending P (['\n'] :: ps) ↔ P ∨ Pending True ps := by
  unfold Pending
  rw [emptyLine_cons, startsNewline_cons]
  tauto

theorem pending_line (P : Prop) {x : List Char} (h : LineComment x) (ps : List (List Char)) :
    Pending P (x :: ps) ↔ Pending True ps := by
  unfold Pending
  rw [emptyLine_cons, startsNewline_cons]
  have h1 : x ≠ ['\n'] := lineComment_ne_single h _
  have h2 : ¬ ∃ c, Space c ∧ x = [c] := fun ⟨c, _, hc⟩ => lineComment_ne_single h c hc
  tauto

theorem pending_comment (P : Prop) {x : List Char} (h : BlockComment x) (ps : List (List Char)) :
    Pending P (x :: ps) ↔ Pending False ps := by
  unfold Pending
  rw [emptyLine_cons, startsNewline_cons]
  have h1 : x ≠ ['\n'] := blockComment_ne_single h _
  have h2 : ¬ ∃ c, Space c ∧ x = [c] := fun ⟨c, _, hc⟩ => blockComment_ne_single h c hc
  have h3 := blockComment_not_line h
  simp only [h1, h2, h3, false_or, false_and, and_false]

theorem pending_false (ps : List (List Char)) : Pending False ps ↔ EmptyLine ps := by
  unfold Pending; tauto

/-- The end of a block comment: `*/` occurs at the end and nowhere else. -/
def ClosesOnce (body : List Char) : Prop := ∀ a b, body ++ ['*', '/'] = a ++ '*' :: '/' :: b → b = []

theorem closesOnce_nil : ClosesOnce [] := by
  intro a b h
  match a with
  | [] => simp at h; exact h
  | [x] => simp at h
  | x :: y :: a => simp at h

theorem closesOnce_cons {c d : Char} {body : List Char}
    (h : ClosesOnce body) (hd : (body ++ ['*', '/']).head? = some d) (hn : ¬ (c = '*' ∧ d = '/')) :
    ClosesOnce (c :: body) := by
  intro a b he
  match a with
  | [] =>
    simp only [List.cons_append, List.nil_append, List.cons.injEq] at he
    obtain ⟨rfl, he⟩ := he
    rw [he] at hd
    simp at hd
    exact absurd ⟨rfl, hd.symm⟩ hn
  | x :: a =>
    simp only [List.cons_append, List.cons.injEq] at he
    exact h a b he.2

/-! ### Blanks -/

/-- What the loop of `match_blank` does: a blank up to something else, or the text ends within a
comment, or right after a comment starts. -/
def BlankRes (rule : Rule) (P : Prop) (broken : Bool) (t : List Char) (p : Position) :
    Res Bool → Prop
  | .ok b s => ∃ ps, BlankPieces ps ∧ t = ps.flatten ++ s.rest ∧ s.pos = after p ps.flatten ∧
      NoBlank s.rest ∧ (b = true ↔ broken = true ∨ Pending P ps)
  | .err c r q => c = .unterminated_comment ∧ r = rule ∧ q = after p t
  | .throws => ∃ pre d, t = pre ++ ['/', d] ∧ (d = '/' ∨ d = '*')
  | _ => False

theorem blankRes_cons {rule : Rule} {P Q : Prop} {broken broken' : Bool} {x t : List Char}
    {p : Position} {r : Res Bool} (hx : BlankPiece x)
    (hp : ∀ ps, (broken = true ∨ Pending P ps) ↔ (broken' = true ∨ Pending Q (x :: ps)))
    (h : BlankRes rule P broken t (after p x) r) : BlankRes rule Q broken' (x ++ t) p r := by
  match r, h with
  | .ok b s, ⟨ps, h1, h2, h3, h4, h5⟩ =>
    refine ⟨x :: ps, ?_, ?_, ?_, h4, ?_⟩
    · intro y hy
      rcases List.mem_cons.1 hy with rfl | hy
      · exact hx
      · exact h1 y hy
    · rw [h2]; simp
    · rw [h3, List.flatten_cons, after_append]
    · rw [h5]; exact hp ps
  | .err c r q, ⟨h1, h2, h3⟩ => exact ⟨h1, h2, by rw [h3, after_append]⟩
  | .throws, ⟨pre, d, h1, h2⟩ => exact ⟨x ++ pre, d, by rw [h1]; simp, h2⟩

theorem blankLine_eq (rule : Rule) (broken : Bool) (t : List Char) (p : Position) :
    (blankLine rule broken t p = .err .unterminated_comment rule (after p t)) ∨
    ∃ body r, t = body ++ '\n' :: r ∧ '\n' ∉ body ∧
      blankLine rule broken t p = blankLoop rule 1 broken r (after p (body ++ ['\n'])) := by
  induction t generalizing p with
  | nil => left; rw [blankLine]; rfl
  | cons c cs ih =>
    rw [blankLine]
    by_cases h : c = '\n'
    · subst h
      right
      exact ⟨[], cs, rfl, by simp, by rw [if_pos rfl, List.nil_append, after_cons]; rfl⟩
    · rw [if_neg h]
      rcases ih (p.advance c) with h1 | ⟨body, r, h1, h2, h3⟩
      · left; rw [h1, after_cons]
      · right
        refine ⟨c :: body, r, by rw [h1]; rfl, ?_, ?_⟩
        · simp only [List.mem_cons, not_or]; exact ⟨fun h' => h h'.symm, h2⟩
        · rw [h3, List.cons_append, after_cons]

theorem blankComment_eq (rule : Rule) (broken : Bool) (t : List Char) (p : Position) :
    (blankComment rule broken t p = .err .unterminated_comment rule (after p t)) ∨
    ∃ body r, t = body ++ '*' :: '/' :: r ∧ ClosesOnce body ∧
      blankComment rule broken t p = blankLoop rule 0 broken r (after p (body ++ ['*', '/'])) := by
  induction t generalizing p with
  | nil => left; rw [blankComment]; rfl
  | cons c cs ih =>
    match cs with
    | [] => left; rw [blankComment, after_cons]; rfl
    | d :: ds =>
      rw [blankComment]
      by_cases h : c = '*' ∧ d = '/'
      · obtain ⟨rfl, rfl⟩ := h
        right
        refine ⟨[], ds, rfl, closesOnce_nil, ?_⟩
        rw [if_pos (by simp), List.nil_append, after_cons, after_cons]; rfl
      · rw [if_neg (by simpa using h)]
        rcases ih (p.advance c) with h1 | ⟨body, r, h1, h2, h3⟩
        · left; rw [h1, after_cons p c (d :: ds)]
        · right
          refine ⟨c :: body, r, by rw [h1]; rfl, closesOnce_cons (d := d) h2 ?_ h, ?_⟩
          · have : d :: ds = (body ++ ['*', '/']) ++ r := by rw [h1]; simp
            cases body with
            | nil => simp at this ⊢; exact this.1.symm
            | cons x xs => simp at this ⊢; exact this.1.symm
          · rw [h3, List.cons_append, after_cons]

theorem blank_all (rule : Rule) (n : Nat) : ∀ t : List Char, t.length ≤ n → ∀ nl broken p,
    BlankRes rule (1 ≤ nl) broken t p (blankLoop rule nl broken t p) := by
  induction n with
  | zero =>
    intro t ht nl broken p
    have : t = [] := List.eq_nil_of_length_eq_zero (by omega)
    subst this
    rw [blankLoop]
    exact ⟨[], by intro x hx; simp at hx, rfl, rfl, noBlank_nil, by simp [pending_nil]⟩
  | succ n ih =>
    intro t ht nl broken p
    match t with
    | [] =>
      rw [blankLoop]
      exact ⟨[], by intro x hx; simp at hx, rfl, rfl, noBlank_nil, by simp [pending_nil]⟩
    | [c] =>
      rw [blankLoop]
      split
      · next h =>
        have hs := (isSpace_iff c).1 h
        refine ⟨[[c]], ?_, rfl, ?_, noBlank_nil, ?_⟩
        · intro x hx; simp at hx; subst hx; exact .inl ⟨c, hs, rfl⟩
        · rw [List.flatten_cons, List.flatten_nil, List.append_nil, after_cons]; rfl
        · split
          · next hc =>
            subst hc
            rw [pending_newline]
            simp only [Bool.or_eq_true, decide_eq_true_eq, pending_nil, or_false]
            have : nl + 1 > 1 ↔ 1 ≤ nl := by omega
            rw [this]
          · next hc =>
            rw [pending_space _ hs hc]
            simp [pending_nil]
      · next h =>
        refine ⟨[], by intro x hx; simp at hx, rfl, rfl, ⟨?_, not_commentStart_one c⟩,
          by simp [pending_nil]⟩
        intro d hd; simp at hd; subst hd; rwa [← isSpace_iff]
    | c :: d :: ds =>
      rw [blankLoop]
      split
      · next h =>
        simp only [Bool.and_eq_true, decide_eq_true_eq] at h
        obtain ⟨rfl, rfl⟩ := h
        split
        · next h => 
          simp at h; subst h
          exact ⟨[], '/', rfl, .inl rfl⟩
        · rcases blankLine_eq rule broken ds ((p.advance '/').advance '/') with h1 | ⟨body, r, h1, h2, h3⟩
          · rw [h1]
            exact ⟨rfl, rfl, by rw [after_cons, after_cons]⟩
          · rw [h3]
            have hl : LineComment ('/' :: '/' :: (body ++ ['\n'])) := ⟨body, h2, rfl⟩
            have he : '/' :: '/' :: ds = '/' :: '/' :: (body ++ ['\n']) ++ r := by rw [h1]; simp
            rw [he]
            refine blankRes_cons (.inr (.inl hl)) ?_ (?_ : BlankRes rule (1 ≤ 1) broken r _ _)
            · intro ps; rw [pending_line _ hl]; simp
            · rw [after_cons, after_cons]
              exact ih r (by rw [h1] at ht; simp at ht; omega) _ _ _
      · split
        · next h =>
          simp only [Bool.and_eq_true, decide_eq_true_eq] at h
          obtain ⟨rfl, rfl⟩ := h
          split
          · next h => 
            simp at h; subst h
            exact ⟨[], '*', rfl, .inr rfl⟩
          · rcases blankComment_eq rule broken ds ((p.advance '/').advance '*') with
              h1 | ⟨body, r, h1, h2, h3⟩
            · rw [h1]
              exact ⟨rfl, rfl, by rw [after_cons, after_cons]⟩
            · rw [h3]
              have hl : BlockComment ('/' :: '*' :: (body ++ ['*', '/'])) := ⟨body, rfl, h2⟩
              have he : '/' :: '*' :: ds = '/' :: '*' :: (body ++ ['*', '/']) ++ r := by rw [h1]; simp
              rw [he]
              refine blankRes_cons (.inr (.inr hl)) ?_ (?_ : BlankRes rule (1 ≤ 0) broken r _ _)
              · intro ps; rw [pending_comment _ hl]; simp
              · rw [after_cons, after_cons]
                exact ih r (by rw [h1] at ht; simp at ht; omega) _ _ _
        · next hc1 hc2 =>
          split
          · next h =>
            simp only [Bool.not_eq_true'] at h
            refine ⟨[], by intro x hx; simp at hx, rfl, rfl, ⟨?_, ?_⟩, by simp [pending_nil]⟩
            · intro e he; simp at he; subst he; rw [← isSpace_iff, h]; simp
            · rw [commentStart_iff]; simp at hc1 hc2; tauto
          · next h =>
            have hs : Space c := by rw [← isSpace_iff]; simpa using h
            have hl : (d :: ds).length ≤ n := by simp at ht ⊢; omega
            have hp : after p [c] = p.advance c := by rw [after_cons]; rfl
            split
            · next h =>
              subst h
              refine blankRes_cons (x := ['\n']) (.inl ⟨_, space_newline, rfl⟩) ?_
                (by rw [hp]; exact ih _ hl (nl + 1) _ _)
              intro ps
              rw [pending_newline]
              have : (1 ≤ nl + 1) = True := by simp
              rw [this]
              simp only [Bool.or_eq_true, decide_eq_true_eq]
              have : nl + 1 > 1 ↔ 1 ≤ nl := by omega
              rw [this]; tauto
            · next h =>
              refine blankRes_cons (x := [c]) (.inl ⟨_, hs, rfl⟩) ?_ (by rw [hp]; exact ih _ hl nl _ _)
              intro ps
              rw [pending_space _ hs h]

theorem matchBlank_res (rule : Rule) (s : St) :
    BlankRes rule False false s.rest s.pos (matchBlank rule s) := by
  have := blank_all rule _ s.rest (Nat.le_refl _) 0 false s.pos
  simpa [matchBlank] using this

/-! ### Texts -/

theorem noEmptyLine_nil : NoEmptyLine [] := by
  rintro ⟨a, ws, b, h, -⟩
  cases a <;> simp at h

/-- Spaces with at most one newline, then a character that is no space, then text. -/
theorem noEmptyLine_join {mid t : List Char} {c : Char} (hm : mid.count '\n' ≤ 1)
    (hc : ¬ Space c) (ht : NoEmptyLine t) : NoEmptyLine (mid ++ c :: t) := by
  rintro ⟨a, ws, b, h, hw⟩
  rw [List.append_eq_append_iff] at h
  rcases h with ⟨x, h1, h2⟩ | ⟨x, h1, h2⟩
  · -- a = mid ++ x
    match x with
    | [] => simp at h2; exact hc (h2.1 ▸ space_newline)
    | y :: x =>
      simp only [List.cons_append, List.cons.injEq] at h2
      exact ht ⟨x, ws, b, h2.2, hw⟩
  · -- mid = a ++ x
    match x with
    | [] => simp at h2; exact hc (h2.1 ▸ space_newline)
    | y :: x =>
      simp only [List.cons_append, List.cons.injEq] at h2
      obtain ⟨rfl, h2⟩ := h2
      rw [List.append_eq_append_iff] at h2
      rcases h2 with ⟨z, h3, h4⟩ | ⟨z, h3, h4⟩
      · match z with
        | [] => simp at h4; exact hc (h4.1 ▸ space_newline)
        | w :: z =>
          simp only [List.cons_append, List.cons.injEq] at h4
          obtain ⟨rfl, -⟩ := h4
          rw [h1, h3] at hm
          simp [List.count_append, List.count_cons] at hm
          omega
      · match z with
        | [] => simp at h4; exact hc (h4.1 ▸ space_newline)
        | w :: z =>
          simp only [List.cons_append, List.cons.injEq] at h4
          exact hc (hw c (by rw [h3]; simp [h4.1]))

/-- What the loop of `match_text_impl` returns, when `mid` are the spaces since the last character
that was accepted. -/
def TextRes (mid cs : List Char) (p : Position) (s : St) : Prop :=
  ∃ t, mid ++ cs = t ++ s.rest ∧ s.pos = after p t ∧ Wordy s.rest t ∧ NoEmptyLine t ∧
    TextEnds s.rest ∧ (t = [] ∨ mid.length < t.length) ∧ ∀ c, t.getLast? = some c → ¬ Space c

theorem wordy_spaces {mid r t : List Char} (hm : ∀ c ∈ mid, Space c) (h : Wordy r t) :
    Wordy r (mid ++ t) := by
  induction mid with
  | nil => exact h
  | cons c cs ih =>
    have hc := hm c (by simp)
    refine .char ?_ (not_commentStart_of_ne ?_ _) (ih fun d hd => hm d (by simp [hd]))
    · rintro rfl; revert hc; unfold Space; decide
    · rintro rfl; exact not_space_slash hc

theorem textRes_stop {mid cs : List Char} {p : Position} (hm : ∀ c ∈ mid, Space c)
    (hr : TextEnds (mid ++ cs)) : TextRes mid cs p ⟨p, mid ++ cs⟩ :=
  ⟨[], rfl, rfl, .nil, noEmptyLine_nil, hr, .inl rfl, by simp⟩

theorem getLast?_join {c : Char} {mid t : List Char} {d : Char}
    (hc : ¬ Space c) (ht : ∀ c, t.getLast? = some c → ¬ Space c)
    (h : (mid ++ c :: t).getLast? = some d) : ¬ Space d := by
  rw [List.getLast?_append] at h
  cases t with
  | nil => simp at h; subst h; exact hc
  | cons x xs =>
    rw [List.getLast?_cons_cons] at h
    cases hx : (x :: xs).getLast? with
    | none => simp at hx
    | some y =>
      rw [hx] at h
      simp at h
      subst h
      exact ht _ hx

theorem textLoop_res (n : Nat) : ∀ cs : List Char, cs.length ≤ n → ∀ mid p,
    (∀ c ∈ mid, Space c) → mid.count '\n' ≤ 1 →
    TextRes mid cs p (textLoop (decide (mid.count '\n' = 1)) ⟨p, mid ++ cs⟩ cs (after p mid)) := by
  induction n with
  | zero =>
    intro cs hcs mid p hm hn
    have : cs = [] := List.eq_nil_of_length_eq_zero (by omega)
    subst this
    rw [textLoop]
    exact textRes_stop hm ⟨mid, [], rfl, hm, .inl rfl⟩
  | succ n ih =>
    intro cs hcs mid p hm hn
    match cs with
    | [] =>
      rw [textLoop]
      exact textRes_stop hm ⟨mid, [], rfl, hm, .inl rfl⟩
    | c :: cs =>
      have hcs' : cs.length ≤ n := by simp at hcs; omega
      have hpos : (after p mid).advance c = after p (mid ++ [c]) := by
        rw [after_append, after_cons]; rfl
      have hmem : Space c → ∀ d ∈ mid ++ [c], Space d := by
        intro hc d hd
        rcases List.mem_append.1 hd with h | h
        · exact hm d h
        · simp at h; subst h; exact hc
      have step : Space c → (mid ++ [c]).count '\n' ≤ 1 →
          TextRes mid (c :: cs) p (textLoop (decide ((mid ++ [c]).count '\n' = 1))
            ⟨p, mid ++ c :: cs⟩ cs ((after p mid).advance c)) := by
        intro hc hcount
        have := ih cs hcs' (mid ++ [c]) p (hmem hc) hcount
        have e : mid ++ [c] ++ cs = mid ++ c :: cs := by simp
        rw [e, ← hpos] at this
        obtain ⟨t, h1, h2, h3, h4, h5, h6, h7⟩ := this
        refine ⟨t, by rw [← h1]; simp, h2, h3, h4, h5, ?_, h7⟩
        rcases h6 with h6 | h6
        · exact .inl h6
        · simp at h6; right; omega
      rw [textLoop.eq_def]
      simp only
      split
      · next hs =>
        have hs := (isSpace_iff c).1 hs
        split
        · next hc =>
          subst hc
          split
          · next hnl =>
            simp only [decide_eq_true_eq] at hnl
            refine textRes_stop hm ⟨mid ++ ['\n'], cs, by simp, hmem hs, .inr (.inr (.inr ?_))⟩
            simp [List.count_append, hnl]
          · next hnl =>
            simp only [decide_eq_true_eq] at hnl
            have h0 : mid.count '\n' = 0 := by omega
            have h1 : (mid ++ ['\n']).count '\n' = 1 := by simp [List.count_append, h0]
            have := step hs (by omega)
            rw [h1] at this
            simpa using this
        · next hc =>
          have h1 : (mid ++ [c]).count '\n' = mid.count '\n' := by
            simp [List.count_append, List.count_cons, hc]
          have := step hs (by omega)
          rw [h1] at this
          exact this
      · next hs =>
        have hs : ¬ Space c := by rw [← isSpace_iff]; exact hs
        split
        · next hc =>
          simp only [Bool.and_eq_true, decide_eq_true_eq, Bool.or_eq_true] at hc
          obtain ⟨rfl, hc⟩ := hc
          refine textRes_stop hm ⟨mid, _, rfl, hm, .inr (.inl ?_)⟩
          match cs with
          | [] => simp at hc
          | d :: ds => rw [commentStart_iff]; simpa using hc
        · next hc =>
          split
          · next hb =>
            subst hb
            match cs with
            | [] =>
              exact textRes_stop hm ⟨mid, _, rfl, hm, .inr (.inr (.inl ⟨[], rfl, by simp⟩))⟩
            | d :: ds =>
              simp only
              split
              · next he =>
                have he := (isEscapeable_iff d).1 he
                have hd : ¬ Space d := by
                  unfold Space; rcases he with rfl | rfl | rfl <;> decide
                have : ∀ q, TextRes [] ds q (textLoop false ⟨q, ds⟩ ds q) :=
                  fun q => ih ds (by simp at hcs'; omega) [] q (by simp) (by simp)
                have := this (after p (mid ++ ['\\', d]))
                have e1 : after p (mid ++ ['\\', d]) = ((after p mid).advance '\\').advance d := by
                  rw [after_append, after_cons, after_cons]; rfl
                rw [e1] at this
                generalize textLoop _ _ _ _ = st at this
                obtain ⟨t, h1, h2, h3, h4, h5, h6, h7⟩ := this
                simp only [List.nil_append] at h1
                refine ⟨mid ++ '\\' :: d :: t, ?_, ?_, wordy_spaces hm (.escape he h3), ?_, h5, ?_, ?_⟩
                · rw [h1]; simp
                · rw [h2, after_append, after_cons, after_cons]
                · refine noEmptyLine_join hn hs ?_
                  exact noEmptyLine_join (mid := []) (by simp) hd h4
                · right; simp
                · intro e he'
                  exact getLast?_join hs (fun e he => getLast?_join (mid := []) hd h7 he) he'
              · next he =>
                refine textRes_stop hm ⟨mid, _, rfl, hm, .inr (.inr (.inl ⟨_, rfl, ?_⟩))⟩
                intro e h; simp at h; subst h; rw [← isEscapeable_iff]; exact he
          · next hb =>
            have : ∀ q, TextRes [] cs q (textLoop false ⟨q, cs⟩ cs q) :=
              fun q => ih cs hcs' [] q (by simp) (by simp)
            have := this (after p (mid ++ [c]))
            rw [← hpos] at this
            generalize textLoop _ _ _ _ = st at this
            obtain ⟨t, h1, h2, h3, h4, h5, h6, h7⟩ := this
            simp only [List.nil_append] at h1
            refine ⟨mid ++ c :: t, ?_, ?_, wordy_spaces hm (.char hb ?_ h3), ?_, h5, ?_, ?_⟩
            · rw [h1]; simp
            · rw [h2, after_append, after_cons]
            · rw [List.cons_append, ← h1]
              match cs with
              | [] => exact not_commentStart_one c
              | d :: ds => rw [commentStart_iff]; simpa using hc
            · exact noEmptyLine_join hn hs h4
            · right; simp
            · intro e he'
              exact getLast?_join hs h7 he'

/-- `match_text`: nothing, with the text ending here, or a text. It throws only if it is called at a
space. -/
theorem matchText_res (s : St) (hs : ∀ c, s.rest.head? = some c → ¬ Space c) :
    (matchText s = .ok none s ∧ TextEnds s.rest) ∨
    ∃ t r, s.rest = t ++ r ∧ TextIs t r ∧
      matchText s = .ok (some (.text s.pos t.length t)) ⟨after s.pos t, r⟩ := by
  have h := textLoop_res _ s.rest (Nat.le_refl _) [] s.pos (by simp) (by simp)
  simp only [List.nil_append, List.count_nil] at h
  obtain ⟨t, h1, h2, h3, h4, h5, -, h7⟩ := h
  have hf : textLoop false s s.rest s.pos = ⟨after s.pos t,
      (textLoop false s s.rest s.pos).rest⟩ := by
    have : (textLoop false s s.rest s.pos).pos = after s.pos t := h2
    rw [← this]
  have h1 : s.rest = t ++ (textLoop false s s.rest s.pos).rest := h1
  have h3 : Wordy (textLoop false s s.rest s.pos).rest t := h3
  have h5 : TextEnds (textLoop false s s.rest s.pos).rest := h5
  generalize (textLoop false s s.rest s.pos).rest = r at hf h1 h3 h5
  have hlen : (after s.pos t).start - s.pos.start = t.length := by rw [after_start]; omega
  have htake : s.rest.take t.length = t := by rw [h1]; simp
  have hm : matchText s = (if t.isEmpty then Res.ok none ⟨after s.pos t, r⟩
      else if (!t.head?.any isSpace) then if (!t.getLast?.any isSpace) then
        Res.ok (some (.text s.pos t.length t)) ⟨after s.pos t, r⟩ else .throws else .throws) := by
    unfold matchText
    simp only [run_bind, run_get, run_set, hf, hlen, htake]
    cases t with
    | nil => rfl
    | cons a b =>
      simp only [List.isEmpty_cons, Bool.false_eq_true, if_false, run_bind, run_require]
      cases h1 : (!(a :: b).head?.any isSpace) <;> cases h2 : (!(a :: b).getLast?.any isSpace) <;> rfl
  by_cases ht : t = []
  · subst ht
    left
    simp only [List.nil_append] at h1
    refine ⟨?_, by rw [h1]; exact h5⟩
    rw [hm]
    show Res.ok none ⟨s.pos, r⟩ = _
    rw [← h1]
  · right
    have hfront : ∀ c, t.head? = some c → ¬ Space c := by
      intro c hc; refine hs c ?_; rw [h1]; cases t with
      | nil => simp at hc
      | cons a b => simpa using hc
    refine ⟨t, r, h1, ⟨ht, hfront, h7, h3, h4, h5⟩, ?_⟩
    rw [hm, if_neg (by simpa using ht), if_pos, if_pos]
    · cases hl : t.getLast? with
      | none => rfl
      | some c => have := h7 c hl; rw [← isSpace_iff] at this; simpa using this
    · cases hl : t.head? with
      | none => rfl
      | some c => have := hfront c hl; rw [← isSpace_iff] at this; simpa using this

/-! ### Raw blocks -/

theorem rawLine_eq (level : Nat) (t : List Char) (p : Position) :
    ('\n' ∉ t ∧ rawLine level t p = .err .unterminated_comment .raw_content (after p t)) ∨
    ∃ body r, t = body ++ '\n' :: r ∧ '\n' ∉ body ∧
      rawLine level t p = rawLoop level r (after p (body ++ ['\n'])) := by
  induction t generalizing p with
  | nil => left; rw [rawLine]; exact ⟨by simp, rfl⟩
  | cons c cs ih =>
    rw [rawLine]
    by_cases h : c = '\n'
    · subst h
      right
      exact ⟨[], cs, rfl, by simp, by rw [if_pos rfl, List.nil_append, after_cons]; rfl⟩
    · rw [if_neg h]
      rcases ih (p.advance c) with ⟨h0, h1⟩ | ⟨body, r, h1, h2, h3⟩
      · left; refine ⟨?_, by rw [h1, after_cons]⟩
        simp only [List.mem_cons, not_or]; exact ⟨fun h' => h h'.symm, h0⟩
      · right
        refine ⟨c :: body, r, by rw [h1]; rfl, ?_, ?_⟩
        · simp only [List.mem_cons, not_or]; exact ⟨fun h' => h h'.symm, h2⟩
        · rw [h3, List.cons_append, after_cons]

theorem rawComment_eq (level : Nat) (t : List Char) (p : Position) :
    (rawComment level t p = .err .unterminated_comment .raw_content (after p t)) ∨
    ∃ body r, t = body ++ '*' :: '/' :: r ∧ ClosesOnce body ∧
      rawComment level t p = rawLoop level r (after p (body ++ ['*', '/'])) := by
  induction t generalizing p with
  | nil => left; rw [rawComment]; rfl
  | cons c cs ih =>
    match cs with
    | [] => left; rw [rawComment, after_cons]; rfl
    | d :: ds =>
      rw [rawComment]
      by_cases h : c = '*' ∧ d = '/'
      · obtain ⟨rfl, rfl⟩ := h
        right
        refine ⟨[], ds, rfl, closesOnce_nil, ?_⟩
        rw [if_pos (by simp), List.nil_append, after_cons, after_cons]; rfl
      · rw [if_neg (by simpa using h)]
        rcases ih (p.advance c) with h1 | ⟨body, r, h1, h2, h3⟩
        · left; rw [h1, after_cons p c (d :: ds)]
        · right
          refine ⟨c :: body, r, by rw [h1]; rfl, closesOnce_cons (d := d) h2 ?_ h, ?_⟩
          · have : d :: ds = (body ++ ['*', '/']) ++ r := by rw [h1]; simp
            cases body with
            | nil => simp at this ⊢; exact this.1.symm
            | cons x xs => simp at this ⊢; exact this.1.symm
          · rw [h3, List.cons_append, after_cons]

theorem rawLine_complete {body : List Char} (h : '\n' ∉ body) (level : Nat) (r : List Char)
    (p : Position) :
    rawLine level (body ++ '\n' :: r) p = rawLoop level r (after p (body ++ ['\n'])) := by
  induction body generalizing p with
  | nil => rw [List.nil_append, rawLine, if_pos rfl, List.nil_append, after_cons]; rfl
  | cons c cs ih =>
    simp only [List.mem_cons, not_or] at h
    rw [List.cons_append, rawLine, if_neg (fun h' => h.1 h'.symm), ih h.2, List.cons_append,
      after_cons]

theorem closesOnce_tail {c : Char} {body : List Char} (h : ClosesOnce (c :: body)) :
    ClosesOnce body ∧ ∀ d ds, body ++ ['*', '/'] = d :: ds → ¬ (c = '*' ∧ d = '/') := by
  refine ⟨fun a b he => h (c :: a) b (by rw [List.cons_append, he]; rfl), ?_⟩
  rintro d ds he ⟨rfl, rfl⟩
  have := h [] ds (by rw [List.cons_append, he]; rfl)
  subst this
  cases body <;> simp at he

theorem rawComment_complete {body : List Char} (h : ClosesOnce body) (level : Nat) (r : List Char)
    (p : Position) :
    rawComment level (body ++ '*' :: '/' :: r) p
      = rawLoop level r (after p (body ++ ['*', '/'])) := by
  induction body generalizing p with
  | nil =>
    rw [List.nil_append, rawComment, if_pos (by simp), List.nil_append, after_cons, after_cons]; rfl
  | cons c cs ih =>
    obtain ⟨h1, h2⟩ := closesOnce_tail h
    obtain ⟨d, ds, hd⟩ : ∃ d ds, cs ++ ['*', '/'] = d :: ds := by
      cases cs with
      | nil => exact ⟨_, _, rfl⟩
      | cons a b => exact ⟨_, _, rfl⟩
    have e : cs ++ '*' :: '/' :: r = d :: (ds ++ r) := by
      have : cs ++ '*' :: '/' :: r = (cs ++ ['*', '/']) ++ r := by simp
      rw [this, hd]; rfl
    rw [List.cons_append, e, rawComment, if_neg (by simpa using h2 d ds hd), ← e, ih h1,
      List.cons_append, after_cons]

theorem rawLoop_plain {c : Char} (h1 : c ≠ '\\') (h2 : c ≠ '/') (h3 : c ≠ '{') (h4 : c ≠ '}')
    (level : Nat) (cs : List Char) (p : Position) :
    rawLoop level (c :: cs) p = rawLoop level cs (p.advance c) := by
  cases cs with
  | nil => simp [rawLoop, h4]
  | cons d ds =>
    rw [rawLoop, if_neg h4, if_neg (by simp [h1]), if_neg h3, if_neg (by simp [h2]),
      if_neg (by simp [h2])]

theorem rawLoop_close (level : Nat) (cs : List Char) (p : Position) :
    rawLoop level ('}' :: cs) p = if level = 0 then .ok () ⟨p.advance '}', cs⟩
      else rawLoop (level - 1) cs (p.advance '}') := by
  cases cs with
  | nil => simp [rawLoop]
  | cons d ds => rw [rawLoop, if_pos rfl]

theorem rawLoop_open (level : Nat) (cs : List Char) (p : Position) :
    rawLoop level ('{' :: cs) p = rawLoop (level + 1) cs (p.advance '{') := by
  cases cs with
  | nil => simp [rawLoop]
  | cons d ds => rw [rawLoop, if_neg (by decide), if_neg (by simp), if_pos rfl]

theorem rawLoop_escape {c : Char} (h : Escapeable c) (level : Nat) (cs : List Char) (p : Position) :
    rawLoop level ('\\' :: c :: cs) p = rawLoop level cs ((p.advance '\\').advance c) := by
  rw [rawLoop, if_neg (by decide), if_pos (by simp [(isEscapeable_iff c).2 h])]

theorem rawLoop_backslash {cs : List Char} (h : ∀ c, cs.head? = some c → ¬ Escapeable c) (level : Nat)
    (p : Position) :
    rawLoop level ('\\' :: cs) p = rawLoop level cs (p.advance '\\') := by
  cases cs with
  | nil => simp [rawLoop]
  | cons d ds =>
    have : isEscapeable d = false := by
      rw [← Bool.not_eq_true, isEscapeable_iff]; exact h d rfl
    rw [rawLoop, if_neg (by decide), if_neg (by simp [this]), if_neg (by decide), if_neg (by simp),
      if_neg (by simp)]

theorem rawLoop_slash {cs : List Char} (h : ¬ CommentStart ('/' :: cs)) (level : Nat)
    (p : Position) :
    rawLoop level ('/' :: cs) p = rawLoop level cs (p.advance '/') := by
  cases cs with
  | nil => simp [rawLoop]
  | cons d ds =>
    rw [commentStart_iff] at h
    simp only [true_and, not_or] at h
    rw [rawLoop, if_neg (by decide), if_neg (by simp), if_neg (by decide), if_neg (by simp [h.1]),
      if_neg (by simp [h.2])]

theorem rawLoop_line (level : Nat) (cs : List Char) (p : Position) :
    rawLoop level ('/' :: '/' :: cs) p = rawLine level cs ((p.advance '/').advance '/') := by
  rw [rawLoop, if_neg (by decide), if_neg (by simp), if_neg (by decide), if_pos (by simp)]

theorem rawLoop_comment (level : Nat) (cs : List Char) (p : Position) :
    rawLoop level ('/' :: '*' :: cs) p = rawComment level cs ((p.advance '/').advance '*') := by
  rw [rawLoop, if_neg (by decide), if_neg (by simp), if_neg (by decide), if_neg (by simp),
    if_pos (by simp)]

/-- Text with the closing braces of `level + 1` blocks, the last of them at the end. -/
inductive Closing : Nat → List Char → Prop
  | zero {i} : Balanced i → Closing 0 (i ++ ['}'])
  | succ {k i u} : Balanced i → Closing k u → Closing (k + 1) (i ++ '}' :: u)

theorem closing_split {k : Nat} {t : List Char} (h : Closing k t) :
    ∃ i u, Balanced i ∧ t = i ++ '}' :: u ∧ ∀ i', Balanced i' → Closing k (i' ++ '}' :: u) := by
  cases h with
  | zero h => exact ⟨_, [], h, rfl, fun i' h' => .zero h'⟩
  | succ h hu => exact ⟨_, _, h, rfl, fun i' h' => .succ h' hu⟩

theorem closing_prepend {k : Nat} {x t : List Char} (hx : ∀ i u, t = i ++ '}' :: u → Balanced i →
    Balanced (x ++ i)) (h : Closing k t) : Closing k (x ++ t) := by
  obtain ⟨i, u, hi, rfl, hc⟩ := closing_split h
  have := hc _ (hx i u rfl hi)
  simpa using this

theorem closing_open {k : Nat} {t : List Char} (h : Closing (k + 1) t) : Closing k ('{' :: t) := by
  cases h with
  | succ hi hu =>
    obtain ⟨j, v, hj, rfl, hc⟩ := closing_split hu
    have := hc _ (.braces hi hj)
    simpa using this

theorem balanced_raw {i : List Char} (h : Balanced i) : ∀ (level : Nat) (w : List Char) (p : Position),
    rawLoop level (i ++ '}' :: w) p = rawLoop level ('}' :: w) (after p i) := by
  induction h with
  | nil => intros; rfl
  | plain h1 h2 h3 h4 _ ih =>
    intro level w p
    rw [List.cons_append, rawLoop_plain h1 h2 h3 h4, ih, after_cons]
  | escape h _ ih =>
    intro level w p
    rw [List.cons_append, List.cons_append, rawLoop_escape h, ih, after_cons, after_cons]
  | backslash h _ ih =>
    intro level w p
    rw [List.cons_append, rawLoop_backslash (by intro c hc; simp at hc; subst hc; exact h), ih,
      after_cons p]
  | @slash t h _ ih =>
    intro level w p
    rw [List.cons_append, rawLoop_slash, ih, after_cons]
    cases t with
    | nil => rw [List.nil_append, commentStart_iff]; simp
    | cons d ds => rw [List.cons_append, commentStart_iff]; rwa [commentStart_iff] at h
  | line h _ ih =>
    intro level w p
    obtain ⟨body, hb, rfl⟩ := h
    simp only [List.cons_append, List.append_assoc, List.nil_append]
    rw [rawLoop_line, rawLine_complete hb, ih, after_cons, after_cons, ← after_append]
    simp
  | comment h _ ih =>
    intro level w p
    obtain ⟨body, rfl, hb⟩ := h
    simp only [List.cons_append, List.append_assoc, List.nil_append]
    rw [rawLoop_comment, rawComment_complete hb, ih, after_cons, after_cons, ← after_append]
    simp
  | braces _ _ ih1 ih2 =>
    intro level w p
    simp only [List.cons_append, List.append_assoc]
    rw [rawLoop_open, ih1, rawLoop_close, if_neg (by omega), Nat.add_sub_cancel, ih2, after_cons,
      after_append, after_cons]

theorem closing_raw {k : Nat} {t : List Char} (h : Closing k t) : ∀ (w : List Char) (p : Position),
    rawLoop k (t ++ w) p = .ok () ⟨after p t, w⟩ := by
  induction h with
  | zero hi =>
    intro w p
    rw [List.append_assoc, List.singleton_append, balanced_raw hi, rawLoop_close, if_pos rfl,
      after_append, after_cons]
    rfl
  | succ hi _ ih =>
    intro w p
    rw [List.append_assoc, List.cons_append, balanced_raw hi, rawLoop_close, if_neg (by omega),
      Nat.add_sub_cancel, ih, after_append, after_cons]

/-- What the loop of `match_raw_block_impl` does. -/
def RawRes (level : Nat) (t : List Char) (p : Position) : Res Unit → Prop
  | .ok _ s => ∃ u, Closing level u ∧ t = u ++ s.rest ∧ s.pos = after p u
  | .err c r q => (c = .unexpected_eof ∨ c = .unterminated_comment) ∧ r = .raw_content ∧
      q = after p t
  | _ => False

theorem rawRes_cons {k k' : Nat} {x t : List Char} {p : Position} {r : Res Unit}
    (hx : ∀ u, u <+: t → Closing k u → Closing k' (x ++ u))
    (h : RawRes k t (after p x) r) : RawRes k' (x ++ t) p r := by
  match r, h with
  | .ok _ s, ⟨u, h1, h2, h3⟩ =>
    exact ⟨x ++ u, hx u ⟨_, h2.symm⟩ h1, by rw [h2]; simp, by rw [h3, after_append]⟩
  | .err c r q, ⟨h1, h2, h3⟩ => exact ⟨h1, h2, by rw [h3, after_append]⟩

theorem after_one (p : Position) (c : Char) : after p [c] = p.advance c := by rw [after_cons]; rfl

theorem raw_all (n : Nat) : ∀ t : List Char, t.length ≤ n → ∀ level p,
    RawRes level t p (rawLoop level t p) := by
  induction n with
  | zero =>
    intro t ht level p
    have : t = [] := List.eq_nil_of_length_eq_zero (by omega)
    subst this
    rw [rawLoop]
    exact ⟨.inl rfl, rfl, rfl⟩
  | succ n ih =>
    intro t ht level p
    match t with
    | [] => rw [rawLoop]; exact ⟨.inl rfl, rfl, rfl⟩
    | c :: cs =>
      have hl : cs.length ≤ n := by simp at ht; omega
      by_cases h4 : c = '}'
      · subst h4
        rw [rawLoop_close]
        split
        · next h => subst h; exact ⟨['}'], .zero (i := []) .nil, rfl, by rw [after_one]⟩
        · next h =>
          refine rawRes_cons (k := level - 1) (x := ['}']) ?_ (by rw [after_one]; exact ih cs hl _ _)
          intro u _ hu
          obtain ⟨m, rfl⟩ : ∃ m, level = m + 1 := ⟨level - 1, by omega⟩
          exact .succ (i := []) .nil hu
      · by_cases h3 : c = '{'
        · subst h3
          rw [rawLoop_open]
          refine rawRes_cons (k := level + 1) (x := ['{']) ?_ (by rw [after_one]; exact ih cs hl _ _)
          intro u _ hu
          exact closing_open hu
        · by_cases h1 : c = '\\'
          · subst h1
            by_cases he : ∃ d ds, cs = d :: ds ∧ Escapeable d
            · obtain ⟨d, ds, rfl, hd⟩ := he
              rw [rawLoop_escape hd]
              refine rawRes_cons (k := level) (x := ['\\', d]) ?_
                (by rw [after_cons, after_one]; exact ih ds (by simp at hl; omega) _ _)
              intro u _ hu
              exact closing_prepend (fun i _ _ hi => .escape hd hi) hu
            · rw [rawLoop_backslash]
              · refine rawRes_cons (k := level) (x := ['\\']) ?_
                  (by rw [after_one]; exact ih cs hl _ _)
                rintro u ⟨w, rfl⟩ hu
                refine closing_prepend ?_ hu
                rintro i v rfl hi
                cases i with
                | nil => exact absurd ⟨'}', _, rfl, .inr (.inr rfl)⟩ he
                | cons d ds =>
                  exact .backslash (fun hd => he ⟨d, _, rfl, hd⟩) hi
              · intro d hd hd'
                cases cs with
                | nil => simp at hd
                | cons x xs => simp at hd; subst hd; exact he ⟨_, _, rfl, hd'⟩
          · by_cases h2 : c = '/'
            · subst h2
              by_cases hc : CommentStart ('/' :: cs)
              · obtain ⟨ds, hd | hd⟩ := hc
                · simp only [List.cons.injEq, true_and] at hd
                  subst hd
                  rw [rawLoop_line]
                  rcases rawLine_eq level ds ((p.advance '/').advance '/') with
                    ⟨_, h1⟩ | ⟨body, r, h1, h2, h3⟩
                  · rw [h1]; exact ⟨.inr rfl, rfl, by rw [after_cons, after_cons]⟩
                  · rw [h3]
                    have hlc : LineComment ('/' :: '/' :: (body ++ ['\n'])) := ⟨body, h2, rfl⟩
                    have he : '/' :: '/' :: ds = '/' :: '/' :: (body ++ ['\n']) ++ r := by
                      rw [h1]; simp
                    rw [he]
                    refine rawRes_cons (k := level) ?_ ?_
                    · intro u _ hu
                      exact closing_prepend (fun i _ _ hi => .line hlc hi) hu
                    · rw [after_cons, after_cons]
                      exact ih r (by rw [h1] at hl; simp at hl; omega) _ _
                · simp only [List.cons.injEq, true_and] at hd
                  subst hd
                  rw [rawLoop_comment]
                  rcases rawComment_eq level ds ((p.advance '/').advance '*') with
                    h1 | ⟨body, r, h1, h2, h3⟩
                  · rw [h1]; exact ⟨.inr rfl, rfl, by rw [after_cons, after_cons]⟩
                  · rw [h3]
                    have hlc : BlockComment ('/' :: '*' :: (body ++ ['*', '/'])) := ⟨body, rfl, h2⟩
                    have he : '/' :: '*' :: ds = '/' :: '*' :: (body ++ ['*', '/']) ++ r := by
                      rw [h1]; simp
                    rw [he]
                    refine rawRes_cons (k := level) ?_ ?_
                    · intro u _ hu
                      exact closing_prepend (fun i _ _ hi => .comment hlc hi) hu
                    · rw [after_cons, after_cons]
                      exact ih r (by rw [h1] at hl; simp at hl; omega) _ _
              · rw [rawLoop_slash hc]
                refine rawRes_cons (k := level) (x := ['/']) ?_
                  (by rw [after_one]; exact ih cs hl _ _)
                rintro u ⟨w, rfl⟩ hu
                refine closing_prepend ?_ hu
                rintro i v rfl hi
                refine .slash ?_ hi
                cases i with
                | nil => exact not_commentStart_one _
                | cons d ds =>
                  show ¬ CommentStart ('/' :: d :: ds)
                  rw [commentStart_iff]
                  rwa [List.cons_append, List.cons_append, commentStart_iff] at hc
            · rw [rawLoop_plain h1 h2 h3 h4]
              refine rawRes_cons (k := level) (x := [c]) ?_ (by rw [after_one]; exact ih cs hl _ _)
              intro u _ hu
              exact closing_prepend (fun i _ _ hi => .plain h1 h2 h3 h4 hi) hu

/-- `match_raw_block_impl`. -/
theorem matchRaw_res (s : St) :
    (∃ t r, s.rest = '{' :: t ++ '}' :: r ∧ Balanced t ∧
      matchRawBlockImpl s = if t = [] then .throws else
        .ok ⟨after s.pos ['{'], t⟩ ⟨after s.pos ('{' :: t ++ ['}']), r⟩) ∨
    ((∃ c r q u v, matchRawBlockImpl s = .err c r q ∧ s.rest = u ++ v ∧ q = after s.pos u ∧
        (c = .unexpected_character → v ≠ [])) ∧
      ∀ t r, Balanced t → s.rest ≠ '{' :: t ++ '}' :: r) := by
  obtain ⟨p, rest⟩ := s
  match rest with
  | [] =>
    right
    refine ⟨⟨.unexpected_eof, .block, p, [], [], rfl, rfl, rfl, nofun⟩, by simp⟩
  | c :: cs =>
    by_cases hc : c = '{'
    · subst hc
      have h1 : expect '{' .block ⟨p, '{' :: cs⟩ = .ok () ⟨p.advance '{', cs⟩ := by
        simp [expect, St.next]
      have h := raw_all _ cs (Nat.le_refl _) 0 (p.advance '{')
      cases hr : rawLoop 0 cs (p.advance '{') with
      | ok a s' =>
        rw [hr] at h
        obtain ⟨u, hu, h2, h3⟩ := h
        cases hu with
        | @zero i hi =>
          left
          refine ⟨i, s'.rest, by rw [h2]; simp, hi, ?_⟩
          have hlen : s'.pos.start - (p.advance '{').start - 1 = i.length := by
            rw [h3, after_start]; simp
          have htake : cs.take i.length = i := by rw [h2]; simp
          unfold matchRawBlockImpl
          simp only [run_bind, h1, run_get, rawContent, hr, hlen, htake, run_require]
          cases i with
          | nil => rfl
          | cons x xs =>
            simp only [List.isEmpty_cons, Bool.not_false, if_true, run_pure, reduceCtorEq, if_false]
            have e1 : after p ['{'] = p.advance '{' := after_one _ _
            have e2 : after p ('{' :: (x :: xs) ++ ['}']) = s'.pos := by
              rw [List.cons_append, after_cons, ← h3]
            rw [e1, e2]
      | err c r q =>
        right
        rw [hr] at h
        refine ⟨⟨c, r, q, '{' :: cs, [], ?_, by simp, by rw [h.2.2, after_cons], ?_⟩, ?_⟩
        · unfold matchRawBlockImpl
          simp only [run_bind, h1, run_get, rawContent, hr]
        · intro hc
          rcases h.1 with h | h <;> rw [h] at hc <;> cases hc
        · intro t r' ht he
          simp only [List.cons_append, List.cons.injEq, true_and] at he
          have := closing_raw (.zero ht) r' (p.advance '{')
          rw [List.append_assoc, List.singleton_append, ← he, hr] at this
          cases this
      | _ => rw [hr] at h; exact h.elim
    · right
      refine ⟨⟨.unexpected_character, .block, p, [], c :: cs, ?_, rfl, rfl, nofun⟩, ?_⟩
      · unfold matchRawBlockImpl
        have : expect '{' .block ⟨p, c :: cs⟩ = .err .unexpected_character .block p := by
          simp [expect, hc]
        simp only [run_bind, this]
      · intro t r _ he
        simp at he
        exact hc he.1

end Bms.Bmd
