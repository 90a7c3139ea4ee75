import Verif.Lemmas.BmdTree

/-! The BMD parser ends, and ends well, for documents without the things that it stumbles over. -/

namespace Bms.Bmd

open Spec (Ident IdentPart IdentStart Literal LowerCase)

/-- What the parser does not stumble over, for a document or the text in a block. -/
structure Tame (w : List Char) : Prop where
  /-- Comments follow spaces. -/
  tight : ∀ a c d b, w = a ++ c :: '/' :: d :: b → (d = '/' ∨ d = '*') → Space c
  /-- The text does not end where a comment starts. -/
  tail : ∀ x d, w = x ++ ['/', d] → (d = '/' ∨ d = '*') → ∃ y, x = y ++ ['*']
  /-- There are no empty braces. -/
  empty : ∀ a b, w ≠ a ++ '{' :: '}' :: b
  /-- The names of directives do not come after all known names. -/
  names : ∀ a name r, w = a ++ '\\' :: (name ++ r) → Ident name →
    (∀ c, r.head? = some c → ¬ IdentPart c) → viewLess "ul".toList name = false

theorem balanced_tail {t : List Char} (h : Balanced t) : ∀ x d, t = x ++ ['/', d] →
    (d = '/' ∨ d = '*') → ∃ y, x = y ++ ['*'] := by
  have step : ∀ (e : Char) (x' : List Char), (∃ y, x' = y ++ ['*']) → ∃ y, e :: x' = y ++ ['*'] := by
    rintro e x' ⟨y, rfl⟩; exact ⟨e :: y, rfl⟩
  induction h with
  | nil => intro x d h; cases x <;> simp at h
  | plain _ h2 _ _ _ ih =>
    intro x d h hd
    cases x with
    | nil => simp at h; exact absurd h.1 h2
    | cons e x' => simp at h; exact step _ _ (ih x' d h.2 hd)
  | @escape c t hc _ ih =>
    intro x d h hd
    match x with
    | [] => simp at h
    | [e] => simp at h; rw [h.2.1] at hc; rcases hc with hc | hc | hc <;> cases hc
    | e :: f :: x' => simp at h; exact step _ _ (step _ _ (ih x' d h.2.2 hd))
  | backslash _ _ ih =>
    intro x d h hd
    cases x with
    | nil => simp at h
    | cons e x' => simp only [List.cons_append, List.cons.injEq] at h; exact step _ _ (ih x' d h.2 hd)
  | slash hn _ ih =>
    intro x d h hd
    cases x with
    | nil =>
      simp at h
      subst h
      exact absurd ⟨[], by rcases hd with rfl | rfl <;> simp⟩ hn
    | cons e x' => simp at h; exact step _ _ (ih x' d h.2 hd)
  | @line c t hc _ ih =>
    intro x d h hd
    rcases List.append_eq_append_iff.1 h with ⟨a', h1, h2⟩ | ⟨c', h1, h2⟩
    · obtain ⟨y, hy⟩ := ih a' d h2 hd
      exact ⟨c ++ y, by rw [h1, hy, List.append_assoc]⟩
    · obtain ⟨body, -, hbody⟩ := hc
      have hlast : c.getLast? = some '\n' := by
        rw [hbody, ← List.cons_append, ← List.cons_append, List.getLast?_concat]
      match c' with
      | [] =>
        obtain ⟨y, hy⟩ := ih [] d h2.symm hd
        cases y <;> simp at hy
      | [e] =>
        simp at h2
        rw [h1, List.getLast?_concat, ← h2.1] at hlast
        cases hlast
      | [e, f] =>
        simp at h2
        rw [h1, show x ++ [e, f] = (x ++ [e]) ++ [f] by simp, List.getLast?_concat, ← h2.2.1] at hlast
        rcases hd with rfl | rfl <;> cases hlast
      | e :: f :: g :: w => simp at h2
  | @comment c t hc _ ih =>
    intro x d h hd
    rcases List.append_eq_append_iff.1 h with ⟨a', h1, h2⟩ | ⟨c', h1, h2⟩
    · obtain ⟨y, hy⟩ := ih a' d h2 hd
      exact ⟨c ++ y, by rw [h1, hy, List.append_assoc]⟩
    · obtain ⟨body, hbody, -⟩ := hc
      have hb2 : c = ('/' :: '*' :: body ++ ['*']) ++ ['/'] := by rw [hbody]; simp
      match c' with
      | [] =>
        obtain ⟨y, hy⟩ := ih [] d h2.symm hd
        cases y <;> simp at hy
      | [e] =>
        rw [h1] at hb2
        have := (List.append_inj' hb2 rfl).1
        exact ⟨'/' :: '*' :: body, this⟩
      | [e, f] =>
        simp at h2
        rw [h1, show x ++ [e, f] = (x ++ [e]) ++ [f] by simp] at hb2
        have := (List.append_inj' hb2 rfl).1
        have := (List.append_inj' this rfl).2
        rw [← h2.1] at this
        cases this
      | e :: f :: g :: w => simp at h2
  | @braces a t _ _ iha iht =>
    intro x d h hd
    cases x with
    | nil => simp at h
    | cons e x' =>
      simp only [List.cons_append, List.cons.injEq] at h
      refine step _ _ ?_
      rcases List.append_eq_append_iff.1 h.2 with ⟨a', h1, h2⟩ | ⟨c', h1, h2⟩
      · cases a' with
        | nil => simp at h2
        | cons f a'' =>
          simp at h2
          obtain ⟨y, hy⟩ := iht a'' d h2.2 hd
          exact ⟨a ++ f :: y, by rw [h1, hy]; simp⟩
      · match c' with
        | [] => simp at h2
        | [f] => simp at h2; rw [h2.2.1] at hd; rcases hd with hd | hd <;> cases hd
        | f :: g :: w => simp at h2

theorem Tame.inner {w a t b : List Char} (h : Tame w) (hw : w = a ++ '{' :: (t ++ '}' :: b))
    (ht : Balanced t) : Tame t where
  tight := by
    rintro x c d y rfl hd
    exact h.tight (a ++ '{' :: x) c d (y ++ '}' :: b) (by rw [hw]; simp) hd
  tail := balanced_tail ht
  empty := by
    rintro x y rfl
    exact h.empty (a ++ '{' :: x) (y ++ '}' :: b) (by rw [hw]; simp)
  names := by
    rintro x name r rfl hid hr
    refine h.names (a ++ '{' :: x) name (r ++ '}' :: b) (by rw [hw]; simp) hid ?_
    intro c hc
    cases r with
    | nil =>
      simp at hc
      subst hc
      unfold IdentPart; decide
    | cons d ds => simp at hc; exact hr c (by simpa using hc)

/-! ### Ending well -/

/-- A value or an error. -/
def Fine : Res α → Prop
  | .ok _ _ | .err _ _ _ => True
  | _ => False

/-- A value at the end of the text, or an error. -/
def FineEnd : Res α → Prop
  | .ok _ s => s.rest = []
  | .err _ _ _ => True
  | _ => False

theorem FineEnd.fine {r : Res α} (h : FineEnd r) : Fine r := by
  cases r <;> first | trivial | exact h

theorem fine_bind {base s : St} {x : PM α} {f : α → PM β} {Q : α → List Char → List Char → Prop}
    (hb : Within base s) (hx : Sound base Q s (x s)) (hx' : Fine (x s))
    (hf : ∀ a t s', s.rest = t ++ s'.rest → s'.pos = after s.pos t → Q a t s'.rest →
      Within base s' → Fine (f a s')) : Fine ((x >>= f) s) := by
  rw [run_bind]
  cases h : x s with
  | ok a s' =>
    rw [h] at hx
    obtain ⟨t, h1, h2, h3⟩ := hx
    exact hf a t s' h1 h2 h3 (hb.step h1 h2)
  | err c r q => trivial
  | throws => rw [h] at hx'; exact hx'
  | ub => rw [h] at hx'; exact hx'
  | diverge => rw [h] at hx'; exact hx'

theorem fineEnd_bind {base s : St} {x : PM α} {f : α → PM β} {Q : α → List Char → List Char → Prop}
    (hb : Within base s) (hx : Sound base Q s (x s)) (hx' : Fine (x s))
    (hf : ∀ a t s', s.rest = t ++ s'.rest → s'.pos = after s.pos t → Q a t s'.rest →
      Within base s' → FineEnd (f a s')) : FineEnd ((x >>= f) s) := by
  rw [run_bind]
  cases h : x s with
  | ok a s' =>
    rw [h] at hx
    obtain ⟨t, h1, h2, h3⟩ := hx
    exact hf a t s' h1 h2 h3 (hb.step h1 h2)
  | err c r q => trivial
  | throws => rw [h] at hx'; exact hx'
  | ub => rw [h] at hx'; exact hx'
  | diverge => rw [h] at hx'; exact hx'

theorem matchBlank_fine {base s : St} (rule : Rule) (hb : Within base s) (ht : Tame base.rest) :
    Fine (matchBlank rule s) := by
  have := matchBlank_res rule s
  cases h : matchBlank rule s with
  | ok a s' => trivial
  | err c r q => trivial
  | throws =>
    rw [h] at this
    obtain ⟨pre, d, h1, hd⟩ := this
    obtain ⟨x, h2, -⟩ := hb
    obtain ⟨y, hy⟩ := ht.tail (x ++ pre) d (by rw [h2, h1]; simp) hd
    have := ht.tight y '*' d [] (by rw [h2, h1, ← List.append_assoc, hy]; simp) hd
    rcases this with h | h | h | h <;> cases h
  | ub => rw [h] at this; exact this
  | diverge => rw [h] at this; exact this

theorem matchBlankRule_fine {base s : St} (hb : Within base s) (ht : Tame base.rest) :
    Fine (matchBlankRule s) := by
  unfold matchBlankRule
  rw [run_get_bind]
  refine fine_bind hb (matchBlank_sound _ hb) (matchBlank_fine _ hb ht) ?_
  intro b t s1 _ _ _ _
  rw [run_ite]
  split <;> trivial

theorem expect_fine (c : Char) (rule : Rule) (s : St) : Fine (expect c rule s) := by
  unfold expect
  split
  · trivial
  · split <;> trivial

theorem matchIdent_fine (s : St) : Fine (matchIdent s) := by
  unfold matchIdent
  rw [run_get_bind, run_ite]
  split
  · trivial
  · rw [run_ite]
    split <;> trivial

theorem matchLiteral_fine (s : St) : Fine (matchLiteral s) := by
  unfold matchLiteral
  rw [run_get_bind, run_ite]
  split
  · trivial
  · cases matchIntegerLiteral s.rest with
    | no_digits => trivial
    | no_digits_following_prefix type => trivial
    | ok length type =>
      simp only
      rw [run_ite]
      split
      · trivial
      · cases parseIntegerLiteral (s.rest.take length) <;> trivial

theorem matchValue_fine (s : St) : Fine (matchValue s) := by
  unfold matchValue
  rw [run_get_bind, run_ite]
  split
  · exact matchLiteral_fine s
  · have hb := Within.refl s
    refine fine_bind hb (matchIdent_sound hb) (matchIdent_fine s) ?_
    intros; trivial

theorem argumentsLoop_fine (n : Nat) : ∀ {base s : St} (args : List (List Char × Value)),
    Within base s → Tame base.rest → s.rest.length + 1 ≤ n → Fine (argumentsLoop n args s) := by
  induction n with
  | zero => intro base s args _ _ h; omega
  | succ n ih =>
    intro base s args hb ht hn
    rw [argumentsLoop]
    refine fine_bind hb (matchBlankRule_sound hb) (matchBlankRule_fine hb ht) ?_
    rintro _ b1 s1 h1 - - hb1
    rw [run_get_bind]
    refine fine_bind hb1 (matchIdent_sound hb1) (matchIdent_fine _) ?_
    rintro ⟨p, name⟩ t' s2 h2 - - hb2
    refine fine_bind hb2 (matchBlankRule_sound hb2) (matchBlankRule_fine hb2 ht) ?_
    rintro _ b2 s3 h3 - - hb3
    refine fine_bind hb3 (expect_sound _ _ hb3) (expect_fine _ _ _) ?_
    rintro _ _ s4 h4 - rfl hb4
    refine fine_bind hb4 (matchBlankRule_sound hb4) (matchBlankRule_fine hb4 ht) ?_
    rintro _ b3 s5 h5 - - hb5
    refine fine_bind hb5 (matchValue_sound hb5) (matchValue_fine _) ?_
    intro v t s6 h6 _ _ hb6
    rw [run_ite]
    split
    · trivial
    · refine fine_bind hb6 (matchBlankRule_sound hb6) (matchBlankRule_fine hb6 ht) ?_
      rintro _ b4 s7 h7 - - hb7
      rw [run_get_bind, run_ite]
      split
      · trivial
      · rw [run_ite]
        split
        · refine fine_bind hb7 (expect_sound _ _ hb7) (expect_fine _ _ _) ?_
          rintro _ _ s8 h8 - rfl hb8
          refine ih _ hb8 ht ?_
          have l1 := congrArg List.length h1
          have l2 := congrArg List.length h2
          have l3 := congrArg List.length h3
          have l4 := congrArg List.length h4
          have l5 := congrArg List.length h5
          have l6 := congrArg List.length h6
          have l7 := congrArg List.length h7
          have l8 := congrArg List.length h8
          simp at l1 l2 l3 l4 l5 l6 l7 l8
          omega
        · trivial

theorem matchArguments_fine (n : Nat) {base s : St} (hb : Within base s) (ht : Tame base.rest)
    (hn : s.rest.length + 1 ≤ n) : Fine (matchArguments n s) := by
  unfold matchArguments
  refine fine_bind hb (expect_sound _ _ hb) (expect_fine _ _ _) ?_
  rintro _ _ s1 h1 - rfl hb1
  have l1 := congrArg List.length h1
  simp at l1
  refine fine_bind hb1 (argumentsLoop_sound n [] hb1) (argumentsLoop_fine n [] hb1 ht (by omega)) ?_
  intro args t s2 _ _ _ hb2
  refine fine_bind hb2 (expect_sound _ _ hb2) (expect_fine _ _ _) ?_
  intros; trivial

theorem matchText_fine {s : St} (hs : ∀ c, s.rest.head? = some c → ¬ Space c) : Fine (matchText s) := by
  rcases matchText_res s hs with ⟨h, -⟩ | ⟨t, r, -, -, h⟩ <;> rw [h] <;> trivial

theorem matchRawBlockImpl_fine {base s : St} (hb : Within base s) (ht : Tame base.rest) :
    Fine (matchRawBlockImpl s) := by
  rcases matchRaw_res s with ⟨t, r, h1, h2, h3⟩ | ⟨⟨c, r, q, u, v, h1, h2, h3⟩, -⟩
  · rw [h3]
    by_cases h0 : t = []
    · subst h0
      obtain ⟨x, hx, -⟩ := hb
      exact absurd (by rw [hx, h1]; simp) (ht.empty x r)
    · rw [if_neg h0]; trivial
  · rw [h1]; trivial

theorem matchInside_fine {base s : St} {inner : PM (Option Node)}
    (hb : Within base s) (ht : Tame base.rest)
    (hq : ∀ s' : St, ∃ Q, Sound s' Q s' (inner s'))
    (hi : ∀ s' : St, Tame s'.rest → s'.rest.length + 2 ≤ s.rest.length → FineEnd (inner s')) :
    Fine (matchInsideBlock inner s) := by
  unfold matchInsideBlock
  rw [run_get_bind, run_bind]
  rcases matchRaw_res s with ⟨t, r, h1, h2, h3⟩ | ⟨⟨c, r, q, u, v, h1, h2, h3⟩, -⟩
  · have hne : t ≠ [] := by
      rintro rfl
      obtain ⟨x, hx, -⟩ := hb
      exact absurd (by rw [hx, h1]; simp) (ht.empty x r)
    rw [h3, if_neg hne]
    simp only
    rw [run_set_bind, run_bind]
    obtain ⟨x, hx, -⟩ := hb
    have htame : Tame t := ht.inner (a := x) (b := r) (by rw [hx, h1]; simp) h2
    have hlen := congrArg List.length h1
    simp at hlen
    have hfine := hi ⟨s.pos.toRight 1, t⟩ htame (by simp; omega)
    obtain ⟨Q, hsound⟩ := hq ⟨s.pos.toRight 1, t⟩
    cases hr : inner ⟨s.pos.toRight 1, t⟩ with
    | ok b s' =>
      rw [hr] at hfine hsound
      obtain ⟨u, h4, h5, -⟩ := hsound
      have he : s'.rest = [] := hfine
      simp only at h4 h5
      rw [he, List.append_nil] at h4
      subst h4
      simp only [run_get_bind, run_require_bind]
      rw [if_pos (by simp [St.eof, he])]
      have hlen : s'.pos.start - s.pos.start = ('{' :: t).length := by
        rw [h5, after_start]; simp [Position.toRight]; omega
      have hdrop : s.rest.drop ('{' :: t).length = '}' :: r := by
        rw [h1, List.drop_left]
      rw [hlen, hdrop]
      simp only [List.head?_cons, decide_true, if_true, run_set_bind]
      trivial
    | err c rule q => trivial
    | throws => rw [hr] at hfine; exact hfine
    | ub => rw [hr] at hfine; exact hfine
    | diverge => rw [hr] at hfine; exact hfine
  · rw [h1]; trivial

/-! ### Where comments cannot start -/

theorem Tame.notComment {base s : St} {x : List Char} {c : Char} (ht : Tame base.rest)
    (hx : base.rest = x ++ c :: s.rest) (hc : ¬ Space c) : ¬ CommentStart s.rest := by
  rintro ⟨u, h | h⟩
  · exact hc (ht.tight x c '/' u (by rw [hx, h]) (.inl rfl))
  · exact hc (ht.tight x c '*' u (by rw [hx, h]) (.inr rfl))

/-- The last character is no space. -/
def EndsDark (t : List Char) : Prop := ∃ x c, t = x ++ [c] ∧ ¬ Space c

theorem EndsDark.append {t : List Char} (w : List Char) (h : EndsDark t) : EndsDark (w ++ t) := by
  obtain ⟨x, c, rfl, h⟩ := h
  exact ⟨w ++ x, c, by simp, h⟩

theorem endsDark_concat {x : List Char} {c : Char} (h : ¬ Space c) : EndsDark (x ++ [c]) := ⟨x, c, rfl, h⟩

theorem Tame.afterDark {base s s1 : St} {t : List Char} (ht : Tame base.rest) (hb : Within base s)
    (h1 : s.rest = t ++ s1.rest) (hd : EndsDark t) : ¬ CommentStart s1.rest := by
  obtain ⟨x, c, rfl, hc⟩ := hd
  obtain ⟨w, hw, -⟩ := hb
  exact ht.notComment (x := w ++ x) (by rw [hw, h1]; simp) hc

theorem textIs_dark {t r : List Char} (h : TextIs t r) : EndsDark t := by
  have hne := h.nonempty
  refine ⟨t.dropLast, t.getLast hne, (List.dropLast_concat_getLast hne).symm, ?_⟩
  exact h.back _ (List.getLast?_eq_some_getLast hne)

theorem identPart_dark {c : Char} (h : IdentPart c) : ¬ Space c := by
  rintro (rfl | rfl | rfl | rfl) <;> revert h <;> unfold IdentPart <;> decide

theorem ident_dark {t : List Char} (h : Ident t) : EndsDark t := by
  have hne : t ≠ [] := by rintro rfl; cases h
  refine ⟨t.dropLast, t.getLast hne, (List.dropLast_concat_getLast hne).symm, ?_⟩
  exact identPart_dark (ident_parts h _ (List.getLast_mem hne))

theorem args_dark {seen all p t} (h : ArgsIs seen all p t) : EndsDark t := by
  induction h with
  | last => exact endsDark_concat (by unfold Space; decide)
  | more _ _ _ _ _ _ _ _ ih =>
    refine EndsDark.append _ ?_
    exact EndsDark.append [','] ih

theorem block_dark {type b p t} (h : BlockIs type b p t) : t = [] ∨ EndsDark t := by
  cases h with
  | none => exact .inl rfl
  | _ => exact .inr (endsDark_concat (by unfold Space; decide))

theorem written_dark {node p t r} (h : Written node p t r) : EndsDark t := by
  cases h with
  | text h => exact textIs_dark h
  | directive h1 _ h2 h3 _ _ _ =>
    rcases block_dark h3 with rfl | hd
    · rw [List.append_nil]
      cases h2 with
      | none =>
        rw [List.append_nil]
        exact EndsDark.append ['\\'] (ident_dark h1)
      | some h => exact EndsDark.append _ (EndsDark.append ['['] (args_dark h))
    · exact EndsDark.append _ hd

theorem EndsDark.length_pos {t : List Char} (h : EndsDark t) : 0 < t.length := by
  obtain ⟨x, c, rfl, -⟩ := h; simp

theorem noBlank_of {t : List Char} (h1 : ∀ c, t.head? = some c → ¬ Space c) (h2 : ¬ CommentStart t) :
    NoBlank t := ⟨h1, h2⟩

/-- Text that starts neither with a blank nor with a directive is not empty. -/
theorem textEnds_start {t : List Char} (h : TextEnds t) (hn : NoBlank t)
    (hd : ¬ possibleDirective t = true) : t = [] := by
  obtain ⟨ws, r', rfl, hws, hr⟩ := h
  cases ws with
  | cons c ws => exact absurd (hws c (by simp)) (hn.1 c rfl)
  | nil =>
    rw [List.nil_append] at hn hd ⊢
    rcases hr with h | h | h | h
    · exact h
    · exact absurd h hn.2
    · exact absurd ((possibleDirective_iff _).2 h) hd
    · simp at h

theorem eof_false {s : St} (h : ¬ s.eof = true) : s.rest ≠ [] := by
  intro h'; exact h (by simp [St.eof, h'])

/-! ### The statements -/

/-- All functions end well within `n` steps, if `n` is large enough for the text. -/
structure AllFine (n : Nat) : Prop where
  content : ∀ {base s : St} initial elements par start, Within base s → Tame base.rest →
    NoBlank s.rest → 4 * s.rest.length + 10 ≤ n → Fine (contentLoop n initial elements par start s)
  next : ∀ {base s : St} initial elements par start, Within base s → Tame base.rest →
    4 * s.rest.length + 11 ≤ n → Fine (contentNext n initial elements par start s)
  loop : ∀ {base s : St} initial elements, Within base s → Tame base.rest → ¬ CommentStart s.rest →
    4 * s.rest.length + 10 ≤ n → Fine (paragraphLoop n initial elements s)
  element : ∀ {base s : St} initial elements, Within base s → Tame base.rest → NoBlank s.rest →
    4 * s.rest.length + 9 ≤ n → Fine (paragraphElement n initial elements s)
  directive : ∀ {base s : St} context, Within base s → Tame base.rest →
    contentAllowsDirectives context = true → 4 * s.rest.length + 5 ≤ n →
    Fine (matchDirective n context s)
  block : ∀ {base s : St} type, Within base s → Tame base.rest → 4 * s.rest.length + 5 ≤ n →
    Fine (matchDirectiveContent n type s)
  span : ∀ (s : St), Tame s.rest → 4 * s.rest.length + 12 ≤ n → FineEnd (spanInside n true s)
  text : ∀ (s : St), Tame s.rest → 4 * s.rest.length + 12 ≤ n → FineEnd (spanInside n false s)
  inside : ∀ (s : St), Tame s.rest → 4 * s.rest.length + 12 ≤ n → FineEnd (blockInside n s)
  directives : ∀ (s : St) type, contentAllowsDirectives type = true → Tame s.rest →
    4 * s.rest.length + 12 ≤ n → FineEnd (directivesInside n type s)
  list : ∀ {base s : St} type initial elements, Within base s → Tame base.rest →
    contentAllowsDirectives type = true → 4 * s.rest.length + 10 ≤ n →
    Fine (directivesLoop n type initial elements s)
  whole : ∀ {base s : St}, Within base s → Tame base.rest → NoBlank s.rest →
    4 * s.rest.length + 11 ≤ n → Fine (matchContent n s)
  paragraph : ∀ {base s : St}, Within base s → Tame base.rest → ¬ CommentStart s.rest →
    4 * s.rest.length + 11 ≤ n → Fine (matchParagraph n s)

theorem fine_ite_bind {s : St} {c : Prop} [Decidable c] {x y : PM α} {f : α → PM β}
    (h : Fine (((if c then x else y) >>= f) s)) :
    Fine ((if c then x >>= f else y >>= f) s) := by
  by_cases hc : c
  · rw [if_pos hc] at h ⊢; exact h
  · rw [if_neg hc] at h ⊢; exact h

theorem byId_ub {id : List Char} (h : directiveTypeById id = .ub) : viewLess "ul".toList id = true := by
  have hm : ("ul", DirType.unordered_list) ∈ directiveTable := by decide
  unfold directiveTypeById at h
  cases he : lowerBound id directiveTable with
  | some e => rw [he] at h; simp only at h; split at h <;> cases h
  | none =>
    have : ∀ l : List (String × DirType), lowerBound id l = none →
        ∀ e ∈ l, viewLess e.1.toList id = true := by
      intro l
      induction l with
      | nil => intro _ e he; cases he
      | cons x xs ih =>
        intro hl e hm
        unfold lowerBound at hl
        split at hl
        · next hx =>
          rcases List.mem_cons.1 hm with rfl | hm
          · exact hx
          · exact ih hl e hm
        · cases hl
    exact this _ he _ hm

theorem directive_fine {n : Nat} (ih : AllFine n) {base s : St} (context : ContentType)
    (hb : Within base s) (ht : Tame base.rest) (hc : contentAllowsDirectives context = true)
    (hn : 4 * s.rest.length + 5 ≤ n + 1) : Fine (matchDirective (n + 1) context s) := by
  rw [matchDirective, run_require_bind, if_pos hc, run_get_bind]
  refine fine_bind hb (expect_sound _ _ hb) (expect_fine _ _ _) ?_
  rintro _ _ s1 h1 - rfl hb1
  refine fine_bind hb1 (matchIdent_sound hb1) (matchIdent_fine _) ?_
  rintro ⟨p, name⟩ t2 s2 h2 - ⟨he, hid, hpart⟩ hb2
  cases he
  simp only
  have l1 := congrArg List.length h1
  have l2 := congrArg List.length h2
  have l0 := (ident_dark hid).length_pos
  simp at l1 l2
  cases htype : directiveTypeById name with
  | ub =>
    obtain ⟨x, hx, -⟩ := hb
    have := ht.names x name s2.rest (by rw [hx, h1, h2]; simp) hid hpart
    rw [byId_ub htype] at this
    cases this
  | missing => trivial
  | found type =>
    simp only
    rw [run_ite]
    split
    · trivial
    · rw [run_get_bind]
      refine fine_ite_bind ?_
      refine fine_bind (Q := fun all t r => True) hb2 ?_ ?_ ?_
      · rw [run_ite]
        split
        · exact sound_mono (matchArguments_sound n hb2) fun _ _ _ _ _ => trivial
        · exact sound_pure trivial
      · rw [run_ite]
        split
        · exact matchArguments_fine n hb2 ht (by omega)
        · trivial
      rintro args a s3 h3 - - hb3
      have l3 := congrArg List.length h3
      simp at l3
      rw [run_get_bind]
      refine fine_ite_bind ?_
      refine fine_bind (Q := fun all t r => True) hb3 ?_ ?_ ?_
      · rw [run_ite]
        split
        · next hpeek =>
          exact sound_mono ((all_sound n).block _ hb3 (by simpa [St.peek] using hpeek))
            fun _ _ _ _ _ => trivial
        · exact sound_pure trivial
      · rw [run_ite]
        split
        · exact ih.block _ hb3 ht (by omega)
        · trivial
      intros; trivial

theorem block_fine {n : Nat} (ih : AllFine n) {base s : St} (type : ContentType)
    (hb : Within base s) (ht : Tame base.rest) (hn : 4 * s.rest.length + 5 ≤ n + 1) :
    Fine (matchDirectiveContent (n + 1) type s) := by
  cases type <;> rw [matchDirectiveContent]
  case nothing =>
    unfold matchEmptyBlock
    refine fine_bind hb (matchBlank_sound _ hb) (matchBlank_fine _ hb ht) ?_
    intro _ _ s1 _ _ _ hb1
    rw [run_get_bind, run_ite]
    split
    · refine fine_bind hb1 (expect_sound _ _ hb1) (expect_fine _ _ _) ?_
      intros; trivial
    · trivial
  case raw =>
    unfold matchRawBlock
    have := matchRawBlockImpl_fine hb ht
    rw [run_bind]
    cases h : matchRawBlockImpl s <;> rw [h] at this <;> first | trivial | exact this
  case text_span =>
    exact matchInside_fine hb ht (fun s' => ⟨_, (all_sound n).text s'⟩) fun s' h1 h2 => ih.text s' h1 (by omega)
  case span =>
    exact matchInside_fine hb ht (fun s' => ⟨_, (all_sound n).span s'⟩) fun s' h1 h2 => ih.span s' h1 (by omega)
  case block =>
    exact matchInside_fine hb ht (fun s' => ⟨_, (all_sound n).inside s'⟩) fun s' h1 h2 => ih.inside s' h1 (by omega)
  case meta_ =>
    exact matchInside_fine hb ht (fun s' => ⟨_, (all_sound n).directives s' _ (.inr rfl)⟩)
      fun s' h1 h2 => ih.directives s' _ rfl h1 (by omega)
  case list =>
    exact matchInside_fine hb ht (fun s' => ⟨_, (all_sound n).directives s' _ (.inl rfl)⟩)
      fun s' h1 h2 => ih.directives s' _ rfl h1 (by omega)

theorem paragraphLoop_eof {n : Nat} (initial : Position) (elements : List Node) {s : St}
    (h : s.rest = []) (hn : 1 ≤ n) : Fine (paragraphLoop n initial elements s) := by
  obtain ⟨m, rfl⟩ : ∃ m, n = m + 1 := ⟨n - 1, by omega⟩
  rw [paragraphLoop, run_get_bind]
  simp only [run_ite]
  rw [if_pos (by simp [St.eof, h])]
  trivial

theorem element_fine {n : Nat} (ih : AllFine n) {base s : St} (initial : Position)
    (elements : List Node) (hb : Within base s) (ht : Tame base.rest) (hs : NoBlank s.rest)
    (hn : 4 * s.rest.length + 9 ≤ n + 1) : Fine (paragraphElement (n + 1) initial elements s) := by
  rw [paragraphElement]
  refine fine_bind hb (matchText_sound hs.1) (matchText_fine hs.1) ?_
  rintro v t s1 h1 hp1 (⟨rfl, rfl, hends⟩ | ⟨rfl, htext⟩) hb1
  · simp only
    rw [List.nil_append] at h1
    rw [run_get_bind, run_ite]
    split
    · refine fine_bind hb1 ((all_sound n).directive .span hb1)
        (ih.directive _ hb1 ht rfl (by rw [← h1]; omega)) ?_
      rintro ⟨type, node⟩ t s2 h2 hp2 ⟨hw, -, -⟩ hb2
      have hd := written_dark hw
      have l0 := hd.length_pos
      have l2 := congrArg List.length h2
      rw [← h1] at l2
      simp at l2
      exact ih.loop _ _ hb2 ht (ht.afterDark hb1 h2 hd) (by omega)
    · next hpd =>
      have := textEnds_start hends (by rw [← h1]; exact hs) hpd
      exact paragraphLoop_eof _ _ this (by omega)
  · simp only
    have hd := textIs_dark htext
    have l0 := hd.length_pos
    have l1 := congrArg List.length h1
    simp at l1
    exact ih.loop _ _ hb1 ht (ht.afterDark hb h1 hd) (by omega)

theorem loop_fine {n : Nat} (ih : AllFine n) {base s : St} (initial : Position)
    (elements : List Node) (hb : Within base s) (ht : Tame base.rest) (hs : ¬ CommentStart s.rest)
    (hn : 4 * s.rest.length + 10 ≤ n + 1) : Fine (paragraphLoop (n + 1) initial elements s) := by
  rw [paragraphLoop, run_get_bind]
  simp only [run_ite]
  split
  · trivial
  · split
    · refine fine_bind hb (matchBlankRule_sound hb) (matchBlankRule_fine hb ht) ?_
      rintro len b s1 h1 - ⟨hB, hlen, hno⟩ hb1
      rw [run_ite]
      split
      · trivial
      · next h0 =>
        have hb0 : b ≠ [] := by rintro rfl; simp at hlen; exact h0 hlen
        have l1 := congrArg List.length h1
        simp at l1
        exact ih.element _ _ hb1 ht (hno hb0) (by omega)
    · next hsp =>
      exact ih.element _ _ hb ht ⟨peekSpace_false (by simpa using hsp), hs⟩ (by omega)

theorem next_fine {n : Nat} (ih : AllFine n) {base s : St} (initial : Position)
    (elements par : List Node) (start : Position) (hb : Within base s) (ht : Tame base.rest)
    (hn : 4 * s.rest.length + 11 ≤ n + 1) : Fine (contentNext (n + 1) initial elements par start s) := by
  rw [contentNext]
  refine fine_bind hb (matchBlank_sound _ hb) (matchBlank_fine _ hb ht) ?_
  rintro broken b s1 h1 - ⟨-, hN⟩ hb1
  have l1 := congrArg List.length h1
  simp at l1
  rw [run_get_bind]
  cases broken with
  | true =>
    simp only [if_true]
    cases breakParagraph elements par start s1.pos with
    | mk e' st' => exact ih.content _ _ _ _ hb1 ht hN (by omega)
  | false =>
    simp only [Bool.false_eq_true, if_false]
    exact ih.content _ _ _ _ hb1 ht hN (by omega)

theorem content_fine {n : Nat} (ih : AllFine n) {base s : St} (initial : Position)
    (elements par : List Node) (start : Position) (hb : Within base s) (ht : Tame base.rest)
    (hs : NoBlank s.rest) (hn : 4 * s.rest.length + 10 ≤ n + 1) :
    Fine (contentLoop (n + 1) initial elements par start s) := by
  rw [contentLoop, run_get_bind, run_ite]
  split
  · cases breakParagraph elements par start s.pos with
    | mk e' st' => trivial
  · next heof =>
    rw [run_require_bind]
    have hsp : s.peekSpace = false := by
      unfold St.peekSpace
      cases hr : s.rest with
      | nil => rfl
      | cons c cs =>
        simp only
        have := hs.1 c (by rw [hr]; rfl)
        rw [← isSpace_iff] at this
        simpa using this
    rw [if_pos (by simp [hsp]), run_ite]
    split
    · refine fine_bind hb ((all_sound n).directive .block hb) (ih.directive _ hb ht rfl (by omega)) ?_
      rintro ⟨type, node⟩ t s1 h1 hp1 ⟨hw, -, -⟩ hb1
      have l0 := (written_dark hw).length_pos
      have l1 := congrArg List.length h1
      simp at l1
      simp only
      rw [run_get_bind]
      cases environmentOf type with
      | list => trivial
      | meta_ => trivial
      | paragraph => exact ih.next _ _ _ _ hb1 ht (by omega)
      | content =>
        simp only
        cases breakParagraph elements par start s1.pos with
        | mk e' st' => exact ih.next _ _ _ _ hb1 ht (by omega)
    · next hpd =>
      refine fine_bind hb (matchText_sound hs.1) (matchText_fine hs.1) ?_
      rintro v t s1 h1 hp1 (⟨rfl, rfl, hends⟩ | ⟨rfl, htext⟩) hb1
      · rw [List.nil_append] at h1
        rw [← h1] at hends
        exact absurd (textEnds_start hends hs hpd) (eof_false heof)
      · have l0 := (textIs_dark htext).length_pos
        have l1 := congrArg List.length h1
        simp at l1
        exact ih.next _ _ _ _ hb1 ht (by omega)

theorem list_fine {n : Nat} (ih : AllFine n) {base s : St} (type : ContentType) (initial : Position)
    (elements : List Node) (hb : Within base s) (ht : Tame base.rest)
    (hc : contentAllowsDirectives type = true) (hn : 4 * s.rest.length + 10 ≤ n + 1) :
    Fine (directivesLoop (n + 1) type initial elements s) := by
  rw [directivesLoop, run_get_bind, run_ite]
  split
  · trivial
  · rw [run_ite]
    split
    · trivial
    · refine fine_bind hb ((all_sound n).directive type hb) (ih.directive _ hb ht hc (by omega)) ?_
      rintro ⟨_, node⟩ t s1 h1 - ⟨hw, -, -⟩ hb1
      have l0 := (written_dark hw).length_pos
      have l1 := congrArg List.length h1
      simp at l1
      refine fine_bind hb1 (matchBlank_sound _ hb1) (matchBlank_fine _ hb1 ht) ?_
      rintro broken b s2 h2 - - hb2
      have l2 := congrArg List.length h2
      simp at l2
      exact ih.list _ _ _ hb2 ht hc (by omega)

/-- A function that ends well, and that matches all of the text if it succeeds. -/
theorem fineEnd_of {base s : St} {Q : α → List Char → List Char → Prop} {r : Res α} (h : Fine r)
    (hs : Sound base Q s r) (hQ : ∀ a t u, Q a t u → u = []) : FineEnd r := by
  cases r with
  | ok a s' => obtain ⟨t, -, -, h⟩ := hs; exact hQ _ _ _ h
  | err => trivial
  | _ => exact h

theorem directives_fine {n : Nat} (ih : AllFine n) (s : St) (type : ContentType)
    (hc : contentAllowsDirectives type = true) (ht : Tame s.rest)
    (hn : 4 * s.rest.length + 12 ≤ n + 1) : FineEnd (directivesInside (n + 1) type s) := by
  have hb := Within.refl s
  rw [directivesInside, run_get_bind]
  refine fineEnd_bind hb (matchBlank_sound _ hb) (matchBlank_fine _ hb ht) ?_
  rintro broken b s1 h1 - - hb1
  have l1 := congrArg List.length h1
  simp at l1
  exact fineEnd_of (ih.list _ _ _ hb1 ht hc (by omega)) ((all_sound n).list type s.pos [] hb1)
    fun _ _ _ h => h.1

theorem inside_block_fine {n : Nat} (ih : AllFine n) (s : St) (ht : Tame s.rest)
    (hn : 4 * s.rest.length + 12 ≤ n + 1) : FineEnd (blockInside (n + 1) s) := by
  have hb := Within.refl s
  rw [blockInside]
  refine fineEnd_bind hb (matchBlank_sound _ hb) (matchBlank_fine _ hb ht) ?_
  rintro broken b s1 h1 - ⟨-, hN⟩ hb1
  have l1 := congrArg List.length h1
  simp at l1
  exact fineEnd_of (ih.whole hb1 ht hN (by omega)) ((all_sound n).whole hb1) fun _ _ _ h => h.1

theorem peekSpace_of {s : St} {c : Char} (h : s.rest.head? = some c) (hc : Space c) :
    s.peekSpace = true := by
  unfold St.peekSpace
  cases hr : s.rest with
  | nil => rw [hr] at h; cases h
  | cons d ds =>
    rw [hr] at h
    simp at h
    subst h
    exact (isSpace_iff d).2 hc

theorem span_fine {n : Nat} (ih : AllFine n) (s : St) (ht : Tame s.rest)
    (hn : 4 * s.rest.length + 12 ≤ n + 1) : FineEnd (spanInside (n + 1) true s) := by
  have hb := Within.refl s
  rw [spanInside]
  refine fineEnd_bind hb (matchBlank_sound _ hb) (matchBlank_fine _ hb ht) ?_
  rintro broken b s1 h1 - ⟨-, hN⟩ hb1
  have l1 := congrArg List.length h1
  simp at l1
  rw [run_ite]
  split
  · trivial
  · simp only [if_true]
    refine fineEnd_bind hb1 ((all_sound n).paragraph hb1) (ih.paragraph hb1 ht hN.2 (by omega)) ?_
    rintro v u s2 h2 - hq hb2
    rw [run_get_bind, run_ite]
    split
    · trivial
    · next hsp =>
      simp only [Bool.not_true, Bool.false_and, Bool.false_eq_true, if_false]
      rcases hq with ⟨c, hc, hsc⟩ | ⟨hr, -⟩
      · exact absurd (peekSpace_of hc hsc) hsp
      · exact hr

theorem text_fine {n : Nat} (s : St) (ht : Tame s.rest) : FineEnd (spanInside (n + 1) false s) := by
  have hb := Within.refl s
  rw [spanInside]
  refine fineEnd_bind hb (matchBlank_sound _ hb) (matchBlank_fine _ hb ht) ?_
  rintro broken b s1 h1 - ⟨-, hN⟩ hb1
  rw [run_ite]
  split
  · trivial
  · simp only [Bool.false_eq_true, if_false]
    refine fineEnd_bind hb1 (matchText_sound hN.1) (matchText_fine hN.1) ?_
    rintro v u s2 h2 - hq hb2
    rw [run_get_bind, run_ite]
    split
    · trivial
    · next hsp =>
      rw [run_ite]
      split
      · trivial
      · next hpd =>
        have hsp := peekSpace_false (by simpa using hsp)
        have hpd : ¬ possibleDirective s2.rest = true := by simpa using hpd
        rcases hq with ⟨rfl, rfl, hends⟩ | ⟨rfl, htext⟩
        · rw [List.nil_append] at h2
          exact textEnds_start hends (by rw [← h2]; exact hN) hpd
        · exact textEnds_start htext.ends ⟨hsp, ht.afterDark hb1 h2 (textIs_dark htext)⟩ hpd

theorem all_fine (n : Nat) : AllFine n := by
  induction n with
  | zero => constructor <;> intros <;> omega
  | succ n ih =>
    exact {
      content := fun i e p st hb ht hs hn => content_fine ih i e p st hb ht hs hn
      next := fun i e p st hb ht hn => next_fine ih i e p st hb ht hn
      loop := fun i e hb ht hs hn => loop_fine ih i e hb ht hs hn
      element := fun i e hb ht hs hn => element_fine ih i e hb ht hs hn
      directive := fun c hb ht hc hn => directive_fine ih c hb ht hc hn
      block := fun c hb ht hn => block_fine ih c hb ht hn
      span := fun s ht hn => span_fine ih s ht hn
      text := fun s ht _ => text_fine s ht
      inside := fun s ht hn => inside_block_fine ih s ht hn
      directives := fun s t hc ht hn => directives_fine ih s t hc ht hn
      list := fun t i e hb ht hc hn => list_fine ih t i e hb ht hc hn
      whole := by
        intro base s hb ht hs hn
        rw [matchContent, run_get_bind]
        exact ih.content _ _ _ _ hb ht hs (by omega)
      paragraph := by
        intro base s hb ht hs hn
        rw [matchParagraph, run_get_bind]
        exact ih.loop _ _ hb ht hs (by omega) }

theorem parse_fine {source : List Char} (ht : Tame source) {n : Nat} (hn : 4 * source.length + 11 ≤ n) :
    Fine (parse n source) := by
  have hb := Within.refl ⟨⟨0, 0, 0⟩, source⟩
  unfold parse matchDocument
  refine fine_bind hb (matchBlank_sound _ hb) (matchBlank_fine _ hb ht) ?_
  rintro broken b s1 h1 - ⟨-, hN⟩ hb1
  have l1 := congrArg List.length h1
  simp at l1
  rw [run_get_bind, run_ite]
  split
  · trivial
  · exact (all_fine n).whole hb1 ht hN (by omega)

end Bms.Bmd
