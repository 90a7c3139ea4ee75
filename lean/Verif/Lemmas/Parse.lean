import Verif.Model.Parse

/-!
# General facts about parser programs

These hold for every program built from the operations of the parser, whatever it does with them.
-/

namespace Bms.Parse

variable {α β : Type} {src : List Char}

/-- Sequencing of results. -/
def Res.bind (r : Res α) (f : α → State → Res β) : Res β :=
  match r with
  | .ok a s => f a s
  | .err e s => .err e s
  | .throws => .throws
  | .diverge => .diverge

@[simp] theorem bind_eq (p : Prog α) (f : α → Prog β) : p >>= f = p.bind f := rfl
@[simp] theorem pure_eq (a : α) : (pure a : Prog α) = .ret a := rfl

theorem run_bind (p : Prog α) (f : α → Prog β) (s : State) :
    (p.bind f).run src s = (p.run src s).bind fun a s' => (f a).run src s' := by
  induction p generalizing s with
  | ret a => rfl
  | fail e => rfl
  | throws => rfl
  | diverge => rfl
  | next p i k ih =>
    simp only [Prog.bind, Prog.run]
    cases skipComments s.rest with
    | nil => exact ih none f _
    | cons t ts =>
      by_cases hp : p t.type = true
      · cases i <;> simp only [hp, if_true, if_false, Bool.false_eq_true] <;> exact ih (some t) f _
      · simp only [hp, if_false, Bool.false_eq_true]; exact ih none f _
  | peek1 k ih => exact ih _ f _
  | push n k ih => exact ih _ f _
  | extract t k ih =>
    simp only [Prog.bind, Prog.run]
    split
    · exact ih _ f _
    · rfl
  | commit k ih => exact ih _ f _
  | attempt b k ihb ih =>
    simp only [Prog.bind, Prog.run]
    cases b.run src s with
    | ok a s' =>
      simp only []
      split
      · exact ih _ f _
      · rfl
    | err a s' =>
      simp only []
      split
      · exact ih _ f _
      · rfl
    | throws => rfl
    | diverge => rfl
  | handle b e k ihb ihe ih =>
    simp only [Prog.bind, Prog.run]
    cases b.run src s with
    | ok a s' => exact ih _ f _
    | err a s' => exact ihe _ f _
    | throws => rfl
    | diverge => rfl

/-- The state after a result, if there is one. -/
def Res.After (r : Res α) (P : State → Prop) : Prop :=
  match r with
  | .ok _ s => P s
  | .err _ s => P s
  | _ => True

theorem skipComments_suffix (ts : List Token) : skipComments ts <:+ ts :=
  List.dropWhile_suffix _

/-- Running a program consumes tokens from the front and adds nodes at the end. -/
theorem run_mono (p : Prog α) (s : State) :
    (p.run src s).After fun s' => s'.rest <:+ s.rest ∧ s.nodes <+: s'.nodes := by
  induction p generalizing s with
  | ret a => exact ⟨List.suffix_refl _, List.prefix_refl _⟩
  | fail e => exact ⟨List.suffix_refl _, List.prefix_refl _⟩
  | throws => trivial
  | diverge => trivial
  | next p i k ih =>
    have hs := skipComments_suffix s.rest
    simp only [Prog.run]
    have lift : ∀ (o : Option Token) (r : List Token), r <:+ s.rest →
        ((k o).run src ⟨r, s.nodes⟩).After fun s' => s'.rest <:+ s.rest ∧ s.nodes <+: s'.nodes := by
      intro o r hr
      have := ih o ⟨r, s.nodes⟩
      cases h : (k o).run src ⟨r, s.nodes⟩ <;> simp only [h, Res.After] at this ⊢
      · exact ⟨this.1.trans hr, this.2⟩
      · exact ⟨this.1.trans hr, this.2⟩
    cases h : skipComments s.rest with
    | nil => exact lift none [] (h ▸ hs)
    | cons t ts =>
      rw [h] at hs
      by_cases hp : p t.type = true
      · cases i <;> simp only [hp, if_true, if_false, Bool.false_eq_true]
        · exact lift _ _ hs
        · exact lift _ _ ((List.suffix_cons t ts).trans hs)
      · simp only [hp, if_false, Bool.false_eq_true]; exact lift _ _ hs
  | peek1 k ih => exact ih _ s
  | push n k ih =>
    have := ih s.nodes.length ⟨s.rest, s.nodes ++ [n]⟩
    simp only [Prog.run]
    cases h : (k s.nodes.length).run src ⟨s.rest, s.nodes ++ [n]⟩ <;>
      simp only [h, Res.After] at this ⊢
    · exact ⟨this.1, (List.prefix_append _ _).trans this.2⟩
    · exact ⟨this.1, (List.prefix_append _ _).trans this.2⟩
  | extract t k ih =>
    simp only [Prog.run]
    split
    · exact ih _ s
    · trivial
  | commit k ih => exact ih _ s
  | attempt b k ihb ih =>
    have hb := ihb s
    have lift : ∀ (r : Bool) (s' : State), s.nodes <+: s'.nodes →
        ((k r).run src ⟨s.rest, s'.nodes.take s.nodes.length⟩).After
          fun s'' => s''.rest <:+ s.rest ∧ s.nodes <+: s''.nodes := by
      intro r s' hp
      have e : s'.nodes.take s.nodes.length = s.nodes := (List.prefix_iff_eq_take.mp hp).symm
      rw [e]
      exact ih r s
    simp only [Prog.run]
    cases h : b.run src s with
    | ok a s' =>
      simp only [h, Res.After] at hb
      simp only []
      split
      · exact lift a s' hb.2
      · trivial
    | err a s' =>
      simp only [h, Res.After] at hb
      simp only []
      split
      · exact lift false s' hb.2
      · trivial
    | throws => trivial
    | diverge => trivial
  | handle b e k ihb ihe ih =>
    have hb := ihb s
    simp only [Prog.run]
    cases h : b.run src s with
    | ok a s' =>
      simp only [h, Res.After] at hb
      have := ih a s'
      simp only []
      cases h' : (k a).run src s' <;> simp only [h', Res.After] at this ⊢
      · exact ⟨this.1.trans hb.1, hb.2.trans this.2⟩
      · exact ⟨this.1.trans hb.1, hb.2.trans this.2⟩
    | err a s' =>
      simp only [h, Res.After] at hb
      have := ihe a s'
      simp only []
      cases h' : (e a).run src s' <;> simp only [h', Res.After] at this ⊢
      · exact ⟨this.1.trans hb.1, hb.2.trans this.2⟩
      · exact ⟨this.1.trans hb.1, hb.2.trans this.2⟩
    | throws => trivial
    | diverge => trivial

theorem run_ok_mono {p : Prog α} {s s' : State} {a : α} (h : p.run src s = .ok a s') :
    s'.rest <:+ s.rest ∧ s.nodes <+: s'.nodes := by
  have := run_mono (src := src) p s
  rw [h] at this
  exact this

theorem run_err_mono {p : Prog α} {s s' : State} {e : RuleError} (h : p.run src s = .err e s') :
    s'.rest <:+ s.rest ∧ s.nodes <+: s'.nodes := by
  have := run_mono (src := src) p s
  rw [h] at this
  exact this

/-- The assertions of `Scoped_Attempt` never fail, and it restores the state. -/
theorem run_attempt (b : Prog Bool) (k : Bool → Prog α) (s : State) :
    (Prog.attempt b k).run src s =
      match b.run src s with
      | .ok r _ => (k r).run src s
      | .err _ _ => (k false).run src s
      | .throws => .throws
      | .diverge => .diverge := by
  simp only [Prog.run]
  cases h : b.run src s with
  | ok r s' =>
    have hm := run_ok_mono h
    have e : s'.nodes.take s.nodes.length = s.nodes := (List.prefix_iff_eq_take.mp hm.2).symm
    simp only [hm.1.length_le, hm.2.length_le, and_self, if_true, e]
  | err r s' =>
    have hm := run_err_mono h
    have e : s'.nodes.take s.nodes.length = s.nodes := (List.prefix_iff_eq_take.mp hm.2).symm
    simp only [hm.1.length_le, hm.2.length_le, and_self, if_true, e]
  | throws => rfl
  | diverge => rfl

/-! ## Comments -/

/-- The tokens without the comments. -/
def strip (ts : List Token) : List Token := ts.filter fun t => !t.type.isComment

def State.strip (s : State) : State := ⟨Parse.strip s.rest, s.nodes⟩

def Res.strip : Res α → Res α
  | .ok a s => .ok a s.strip
  | .err e s => .err e s.strip
  | .throws => .throws
  | .diverge => .diverge

theorem skipComments_strip (ts : List Token) : skipComments (strip ts) = strip ts := by
  unfold skipComments strip
  induction ts with
  | nil => rfl
  | cons t ts ih =>
    cases h : t.type.isComment <;> simp [h, ih]

theorem strip_skipComments (ts : List Token) : strip (skipComments ts) = strip ts := by
  unfold skipComments strip
  induction ts with
  | nil => rfl
  | cons t ts ih =>
    cases h : t.type.isComment <;> simp [h, ih]

/-- After skipping comments, the next token is not a comment. -/
theorem skipComments_cons {ts : List Token} {t : Token} {r : List Token}
    (h : skipComments ts = t :: r) : t.type.isComment = false ∧ strip ts = t :: strip r := by
  have h1 : t.type.isComment = false := by
    have := List.head?_dropWhile_not (fun t : Token => t.type.isComment) ts
    unfold skipComments at h
    rw [h] at this
    simpa using this
  refine ⟨h1, ?_⟩
  rw [← strip_skipComments, h]
  simp [strip, h1]

theorem skipComments_nil {ts : List Token} (h : skipComments ts = []) : strip ts = [] := by
  rw [← strip_skipComments, h]; rfl

theorem peekToken1_strip (ts : List Token) : peekToken1 (strip ts) = peekToken1 ts := by
  unfold peekToken1
  rw [skipComments_strip]
  cases h : skipComments ts with
  | nil => rw [skipComments_nil h]
  | cons t r =>
    rw [(skipComments_cons h).2]
    simp only [peekToken]
    rw [skipComments_strip]
    cases h' : skipComments r with
    | nil => rw [skipComments_nil h']
    | cons t' r' => rw [(skipComments_cons h').2]; rfl

theorem shouldCommit_strip (l : UInt64) (ts : List Token) :
    shouldCommit l (strip ts) = shouldCommit l ts := by
  induction ts generalizing l with
  | nil => rfl
  | cons t ts ih =>
    cases h : t.type.isComment with
    | false =>
      have : strip (t :: ts) = t :: strip ts := by simp [strip, h]
      rw [this]
      unfold shouldCommit
      simp only [ih]
    | true =>
      have : strip (t :: ts) = strip ts := by simp [strip, h]
      rw [this, ih]
      conv => rhs; unfold shouldCommit
      have : t.type = .line_comment ∨ t.type = .block_comment := by
        simpa [TokenType.isComment] using h
      rcases this with h | h <;> rw [h] <;> simp [TokenType.isComparisonOperator]

/-- Comments do not influence what a program does. -/
theorem run_strip (p : Prog α) (s : State) : p.run src s.strip = (p.run src s).strip := by
  induction p generalizing s with
  | ret a => rfl
  | fail e => rfl
  | throws => rfl
  | diverge => rfl
  | next p i k ih =>
    simp only [Prog.run, State.strip, skipComments_strip]
    cases h : skipComments s.rest with
    | nil => rw [skipComments_nil h]; exact ih none ⟨[], s.nodes⟩
    | cons t ts =>
      rw [(skipComments_cons h).2]
      have e : t :: strip ts = strip (t :: ts) := by
        simp [strip, (skipComments_cons h).1]
      by_cases hp : p t.type = true
      · cases i <;> simp only [hp, if_true, if_false, Bool.false_eq_true]
        · rw [e]; exact ih (some t) ⟨t :: ts, s.nodes⟩
        · exact ih (some t) ⟨ts, s.nodes⟩
      · simp only [hp, if_false, Bool.false_eq_true]
        rw [e]; exact ih none ⟨t :: ts, s.nodes⟩
  | peek1 k ih =>
    simp only [Prog.run]
    rw [show s.strip.rest = strip s.rest from rfl, peekToken1_strip]
    exact ih _ s
  | push n k ih => exact ih _ ⟨s.rest, s.nodes ++ [n]⟩
  | extract t k ih =>
    simp only [Prog.run]
    split
    · exact ih _ s
    · rfl
  | commit k ih =>
    simp only [Prog.run]
    rw [show s.strip.rest = strip s.rest from rfl, shouldCommit_strip]
    exact ih _ s
  | attempt b k ihb ih =>
    rw [run_attempt, run_attempt, ihb]
    cases b.run src s with
    | ok r s' => exact ih r s
    | err r s' => exact ih false s
    | throws => rfl
    | diverge => rfl
  | handle b e k ihb ihe ih =>
    simp only [Prog.run]
    rw [ihb]
    cases b.run src s with
    | ok r s' => exact ih r s'
    | err r s' => exact ihe r s'
    | throws => rfl
    | diverge => rfl

/-! ## Failures are reported at the token that was inspected last -/

/-- A failure is reported only after looking at the next token, which is then not a comment;
`seen` says whether the next token has been looked at. -/
def Looks {α : Type} : Prog α → Bool → Prop
  | .ret _, _ => True
  | .fail _, seen => seen = true
  | .throws, _ => True
  | .diverge, _ => True
  | .next _ i k, _ => Looks (k none) true ∧ ∀ t, Looks (k (some t)) (!i)
  | .peek1 k, seen => ∀ t, Looks (k t) seen
  | .push _ k, seen => ∀ h, Looks (k h) seen
  | .extract _ k, seen => ∀ s, Looks (k s) seen
  | .commit k, seen => ∀ b, Looks (k b) seen
  | .attempt _ k, seen => ∀ b, Looks (k b) seen
  | .handle b e k, seen => Looks b seen ∧ (∀ r, Looks (e r) true) ∧ ∀ a, Looks (k a) false

theorem Looks.weaken {p : Prog α} : Looks p false → ∀ {b}, Looks p b := by
  intro h b
  cases b with
  | false => exact h
  | true =>
    induction p with
    | ret a => trivial
    | fail e => rfl
    | throws => trivial
    | diverge => trivial
    | next p i k ih => exact h
    | peek1 k ih => exact fun t => ih t (h t)
    | push n k ih => exact fun t => ih t (h t)
    | extract t k ih => exact fun t => ih t (h t)
    | commit k ih => exact fun t => ih t (h t)
    | attempt b k ihb ih => exact fun t => ih t (h t)
    | handle b e k ihb ihe ih => exact ⟨ihb h.1, h.2.1, h.2.2⟩

theorem Looks.bind {p : Prog α} {f : α → Prog β} {b : Bool} (hp : Looks p b)
    (hf : ∀ a, Looks (f a) false) : Looks (p.bind f) b := by
  induction p generalizing b with
  | ret a => exact (hf a).weaken
  | fail e => exact hp
  | throws => trivial
  | diverge => trivial
  | next p i k ih => exact ⟨ih none hp.1 hf, fun t => ih (some t) (hp.2 t) hf⟩
  | peek1 k ih => exact fun t => ih t (hp t) hf
  | push n k ih => exact fun t => ih t (hp t) hf
  | extract t k ih => exact fun t => ih t (hp t) hf
  | commit k ih => exact fun t => ih t (hp t) hf
  | attempt b k ihb ih => exact fun t => ih t (hp t) hf
  | handle b e k ihb ihe ih =>
    exact ⟨hp.1, fun r => ihe r (hp.2.1 r) hf, fun r => ih r (hp.2.2 r) hf⟩

theorem skipComments_idem (ts : List Token) :
    skipComments (skipComments ts) = skipComments ts := by
  unfold skipComments
  induction ts with
  | nil => rfl
  | cons t ts ih => cases h : t.type.isComment <;> simp [h, ih]

theorem skipComments_of_cons {ts : List Token} {t : Token} {r : List Token}
    (h : skipComments ts = t :: r) : skipComments (t :: r) = t :: r := by
  rw [← h, skipComments_idem]

theorem Looks.err {p : Prog α} {seen : Bool} (hp : Looks p seen) {s s' : State} {e : RuleError}
    (hs : seen = true → skipComments s.rest = s.rest) (h : p.run src s = .err e s') :
    skipComments s'.rest = s'.rest := by
  induction p generalizing s s' seen e with
  | ret a => cases h
  | fail e => cases h; exact hs hp
  | throws => cases h
  | diverge => cases h
  | next p i k ih =>
    simp only [Prog.run] at h
    cases hk : skipComments s.rest with
    | nil => rw [hk] at h; exact ih none hp.1 (fun _ => rfl) h
    | cons t ts =>
      rw [hk] at h
      have hc := skipComments_of_cons hk
      by_cases hpt : p t.type = true
      · cases i <;> simp only [hpt, if_true, if_false, Bool.false_eq_true] at h
        · exact ih _ (hp.2 t) (fun _ => hc) h
        · exact ih _ (hp.2 t) (fun h => by cases h) h
      · simp only [hpt, if_false, Bool.false_eq_true] at h
        exact ih _ hp.1 (fun _ => hc) h
  | peek1 k ih => exact ih _ (hp _) hs h
  | push n k ih => exact ih _ (hp _) (s := ⟨s.rest, s.nodes ++ [n]⟩) hs h
  | extract t k ih =>
    simp only [Prog.run] at h
    split at h
    · exact ih _ (hp _) hs h
    · cases h
  | commit k ih => exact ih _ (hp _) hs h
  | attempt b k ihb ih =>
    rw [run_attempt] at h
    cases hb : b.run src s with
    | ok r _ => rw [hb] at h; exact ih _ (hp _) hs h
    | err r _ => rw [hb] at h; exact ih _ (hp _) hs h
    | throws => rw [hb] at h; cases h
    | diverge => rw [hb] at h; cases h
  | handle b e k ihb ihe ih =>
    simp only [Prog.run] at h
    cases hb : b.run src s with
    | ok r s1 => rw [hb] at h; exact ih _ (hp.2.2 r) (fun h => by cases h) h
    | err r s1 =>
      rw [hb] at h
      exact ihe _ (hp.2.1 r) (fun _ => ihb hp.1 hs hb) h
    | throws => rw [hb] at h; cases h
    | diverge => rw [hb] at h; cases h

/-! ## Consumption of tokens -/

/-- Whenever the program returns a value, it has consumed a token. -/
def Eats (p : Prog α) : Prop :=
  ∀ (src : List Char) (s s' : State) (a : α), p.run src s = .ok a s' →
    s'.rest.length < s.rest.length

theorem Res.bind_ok {r : Res α} {f : α → State → Res β} {b : β} {s' : State} :
    r.bind f = .ok b s' ↔ ∃ a s, r = .ok a s ∧ f a s = .ok b s' := by
  cases r with
  | ok a s => exact ⟨fun h => ⟨a, s, rfl, h⟩, by rintro ⟨_, _, h, h'⟩; cases h; exact h'⟩
  | _ => exact ⟨fun h => (by cases h), (by rintro ⟨_, _, h, _⟩; cases h)⟩

theorem Eats.bind_left {p : Prog α} {f : α → Prog β} (h : Eats p) : Eats (p.bind f) := by
  intro src s s' a hr
  rw [run_bind] at hr
  obtain ⟨b, s1, h1, h2⟩ := Res.bind_ok.mp hr
  have := h src s s1 b h1
  have := (run_ok_mono h2).1.length_le
  omega

theorem Eats.bind_right {p : Prog α} {f : α → Prog β} (h : ∀ a, Eats (f a)) :
    Eats (p.bind f) := by
  intro src s s' a hr
  rw [run_bind] at hr
  obtain ⟨b, s1, h1, h2⟩ := Res.bind_ok.mp hr
  have := h b src s1 s' a h2
  have := (run_ok_mono h1).1.length_le
  omega

theorem skipComments_length (ts : List Token) : (skipComments ts).length ≤ ts.length :=
  (skipComments_suffix ts).length_le

theorem Eats.next {p : TokenType → Bool} {i : Bool} {k : Option Token → Prog α}
    (hn : Eats (k none)) (hs : ∀ t, i = true ∨ Eats (k (some t))) : Eats (.next p i k) := by
  intro src s s' a hr
  simp only [Prog.run] at hr
  have hl := skipComments_length s.rest
  cases h : skipComments s.rest with
  | nil =>
    rw [h] at hr
    have := hn src _ _ _ hr
    simp at this
  | cons t ts =>
    rw [h] at hr hl
    by_cases hp : p t.type = true
    · cases i <;> simp only [hp, if_true, if_false, Bool.false_eq_true] at hr
      · have := (hs t).resolve_left (by simp) src _ _ _ hr
        simp only [List.length_cons] at this hl
        omega
      · have := (run_ok_mono hr).1.length_le
        simp only [List.length_cons] at this hl
        omega
    · simp only [hp, if_false, Bool.false_eq_true] at hr
      have := hn src _ _ _ hr
      simp only [List.length_cons] at this hl
      omega

theorem Eats.fail {e : RuleError} : Eats (.fail e : Prog α) := by
  intro src s s' a h; cases h
theorem Eats.throws : Eats (.throws : Prog α) := by
  intro src s s' a h; cases h
theorem Eats.diverge : Eats (.diverge : Prog α) := by
  intro src s s' a h; cases h
theorem Eats.peek1 {k : Option Token → Prog α} (h : ∀ t, Eats (k t)) : Eats (.peek1 k) := by
  intro src s s' a hr; exact h _ src s s' a hr
theorem Eats.push {n : Node} {k : Nat → Prog α} (h : ∀ t, Eats (k t)) : Eats (.push n k) := by
  intro src s s' a hr; exact h _ src ⟨s.rest, s.nodes ++ [n]⟩ s' a hr
theorem Eats.commit {k : Bool → Prog α} (h : ∀ t, Eats (k t)) : Eats (.commit k) := by
  intro src s s' a hr; exact h _ src s s' a hr
theorem Eats.extract {t : Token} {k : List Char → Prog α} (h : ∀ t, Eats (k t)) :
    Eats (.extract t k) := by
  intro src s s' a hr
  simp only [Prog.run] at hr
  split at hr
  · exact h _ src s s' a hr
  · cases hr
theorem Eats.attempt {b : Prog Bool} {k : Bool → Prog α} (h : ∀ t, Eats (k t)) :
    Eats (.attempt b k) := by
  intro src s s' a hr
  rw [run_attempt] at hr
  cases hb : b.run src s with
  | ok r _ => rw [hb] at hr; exact h _ src s s' a hr
  | err r _ => rw [hb] at hr; exact h _ src s s' a hr
  | throws => rw [hb] at hr; cases hr
  | diverge => rw [hb] at hr; cases hr
theorem Eats.handle {b : Prog β} {e : RuleError → Prog α} {k : β → Prog α}
    (hb : Eats b) (he : ∀ r, Eats (e r)) : Eats (.handle b e k) := by
  intro src s s' a hr
  simp only [Prog.run] at hr
  cases hrb : b.run src s with
  | ok r s1 =>
    rw [hrb] at hr
    have := hb src _ _ _ hrb
    have := (run_ok_mono hr).1.length_le
    omega
  | err r s1 =>
    rw [hrb] at hr
    have := he r src _ _ _ hr
    have := (run_err_mono hrb).1.length_le
    omega
  | throws => rw [hrb] at hr; cases hr
  | diverge => rw [hrb] at hr; cases hr

/-! ## Termination -/

/-- With at most `m` tokens left, the program does not reach the bound on the nesting depth. -/
def Halts (m : Nat) (p : Prog α) : Prop :=
  ∀ (src : List Char) (s : State), s.rest.length ≤ m → p.run src s ≠ .diverge

theorem Halts.mono {m m' : Nat} {p : Prog α} (h : Halts m p) (hm : m' ≤ m) : Halts m' p :=
  fun src s hs => h src s (by omega)

theorem Halts.bind {m : Nat} {p : Prog α} {f : α → Prog β} (hp : Halts m p)
    (hf : ∀ a, Halts m (f a)) : Halts m (p.bind f) := by
  intro src s hs h
  rw [run_bind] at h
  cases hr : p.run src s with
  | ok a s' =>
    rw [hr] at h
    have := (run_ok_mono hr).1.length_le
    exact hf a src s' (by omega) h
  | err e s' => rw [hr] at h; cases h
  | throws => rw [hr] at h; cases h
  | diverge => exact hp src s hs hr

/-- After a program that consumes a token, fewer tokens are left. -/
theorem Halts.bind_eats {m : Nat} {p : Prog α} {f : α → Prog β} (hp : Halts m p) (he : Eats p)
    (hf : ∀ m', m' < m → ∀ a, Halts m' (f a)) : Halts m (p.bind f) := by
  intro src s hs h
  rw [run_bind] at h
  cases hr : p.run src s with
  | ok a s' =>
    rw [hr] at h
    have := he src s s' a hr
    exact hf s'.rest.length (by omega) a src s' (by omega) h
  | err e s' => rw [hr] at h; cases h
  | throws => rw [hr] at h; cases h
  | diverge => exact hp src s hs hr

theorem Halts.ret {m : Nat} {a : α} : Halts m (.ret a) := fun _ _ _ h => by cases h
theorem Halts.fail {m : Nat} {e : RuleError} : Halts m (.fail e : Prog α) :=
  fun _ _ _ h => by cases h
theorem Halts.throws {m : Nat} : Halts m (.throws : Prog α) := fun _ _ _ h => by cases h

theorem Halts.next {m : Nat} {p : TokenType → Bool} {i : Bool} {k : Option Token → Prog α}
    (hn : Halts m (k none))
    (hs : ∀ t, if i then ∀ m', m' < m → Halts m' (k (some t)) else Halts m (k (some t))) :
    Halts m (.next p i k) := by
  intro src s hm h
  simp only [Prog.run] at h
  have hl := skipComments_length s.rest
  cases hk : skipComments s.rest with
  | nil => rw [hk] at h; exact hn src _ (by simp) h
  | cons t ts =>
    rw [hk] at h hl
    simp only [List.length_cons] at hl
    by_cases hp : p t.type = true
    · cases i <;> simp only [hp, if_true, if_false, Bool.false_eq_true] at h
      · exact (hs t) src ⟨t :: ts, _⟩ (by simp only [List.length_cons]; omega) h
      · exact (hs t) ts.length (by omega) src _ (by simp) h
    · simp only [hp, if_false, Bool.false_eq_true] at h
      exact hn src ⟨t :: ts, _⟩ (by simp only [List.length_cons]; omega) h

theorem Halts.peek1 {m : Nat} {k : Option Token → Prog α} (h : ∀ t, Halts m (k t)) :
    Halts m (.peek1 k) := fun src s hs hr => h _ src s hs hr
theorem Halts.push {m : Nat} {n : Node} {k : Nat → Prog α} (h : ∀ t, Halts m (k t)) :
    Halts m (.push n k) := fun src s hs hr => h _ src ⟨s.rest, s.nodes ++ [n]⟩ hs hr
theorem Halts.commit {m : Nat} {k : Bool → Prog α} (h : ∀ t, Halts m (k t)) :
    Halts m (.commit k) := fun src s hs hr => h _ src s hs hr
theorem Halts.extract {m : Nat} {t : Token} {k : List Char → Prog α} (h : ∀ t, Halts m (k t)) :
    Halts m (.extract t k) := by
  intro src s hs hr
  simp only [Prog.run] at hr
  split at hr
  · exact h _ src s hs hr
  · cases hr
theorem Halts.attempt {m : Nat} {b : Prog Bool} {k : Bool → Prog α} (hb : Halts m b)
    (h : ∀ t, Halts m (k t)) : Halts m (.attempt b k) := by
  intro src s hs hr
  rw [run_attempt] at hr
  cases hrb : b.run src s with
  | ok r _ => rw [hrb] at hr; exact h _ src s hs hr
  | err r _ => rw [hrb] at hr; exact h _ src s hs hr
  | throws => rw [hrb] at hr; cases hr
  | diverge => exact hb src s hs hrb
theorem Halts.handle {m : Nat} {b : Prog β} {e : RuleError → Prog α} {k : β → Prog α}
    (hb : Halts m b) (he : ∀ r, Halts m (e r)) (hk : ∀ a, Halts m (k a)) :
    Halts m (.handle b e k) := by
  intro src s hs hr
  simp only [Prog.run] at hr
  cases hrb : b.run src s with
  | ok r s1 =>
    rw [hrb] at hr
    have := (run_ok_mono hrb).1.length_le
    exact hk _ src s1 (by omega) hr
  | err r s1 =>
    rw [hrb] at hr
    have := (run_err_mono hrb).1.length_le
    exact he _ src s1 (by omega) hr
  | throws => rw [hrb] at hr; cases hr
  | diverge => exact hb src s hs hrb

end Bms.Parse
