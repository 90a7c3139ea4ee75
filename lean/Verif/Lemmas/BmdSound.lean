import Verif.Lemmas.BmdText
import Verif.Props.Text

/-! What the BMD parser returns is written in the text: soundness of all its functions. -/

namespace Bms.Bmd

open Spec (Ident IdentPart IdentStart Literal LowerCase)

/-! ### Running, by cases -/

theorem run_get_bind (f : St → PM α) (s : St) : (PM.get >>= f) s = f s s := rfl

theorem run_set_bind (s' : St) (f : Unit → PM α) (s : St) : (PM.set s' >>= f) s = f () s' := rfl

theorem run_require_bind (b : Bool) (f : Unit → PM α) (s : St) :
    (PM.require b >>= f) s = if b then f () s else .throws := by cases b <;> rfl

theorem run_fail_bind (c : Code) (r : Rule) (f : β → PM α) (s : St) :
    ((PM.fail c r : PM β) >>= f) s = .err c r s.pos := rfl

theorem run_pure_bind (a : β) (f : β → PM α) (s : St) : ((pure a : PM β) >>= f) s = f a s := rfl

/-! ### Soundness -/

/-- `s` is reached in the text of `base`. -/
def Within (base s : St) : Prop := ∃ t, base.rest = t ++ s.rest ∧ s.pos = after base.pos t

/-- The position of an error in the text of `base`; a character that is not expected exists. -/
def Located (base : St) (c : Code) (q : Position) : Prop :=
  ∃ t u, base.rest = t ++ u ∧ q = after base.pos t ∧ (c = .unexpected_character → u ≠ [])

/-- A result is sound: it consumes a text that is related to the value, or the error is located. -/
def Sound (base : St) (Q : α → List Char → List Char → Prop) (s : St) : Res α → Prop
  | .ok a s' => ∃ t, s.rest = t ++ s'.rest ∧ s'.pos = after s.pos t ∧ Q a t s'.rest
  | .err c _ q => Located base c q
  | _ => True

theorem Within.refl (s : St) : Within s s := ⟨[], rfl, rfl⟩

theorem Within.step {base s s' : St} {t : List Char} (h : Within base s) (h1 : s.rest = t ++ s'.rest)
    (h2 : s'.pos = after s.pos t) : Within base s' := by
  obtain ⟨u, h3, h4⟩ := h
  exact ⟨u ++ t, by rw [h3, h1, List.append_assoc], by rw [h2, h4, after_append]⟩

theorem Within.located {base s : St} {c : Code} (h : Within base s)
    (hc : c = .unexpected_character → s.rest ≠ [] := by nofun) : Located base c s.pos := by
  obtain ⟨u, h3, h4⟩ := h
  exact ⟨u, _, h3, h4, hc⟩

theorem Within.located' {base s : St} {c : Code} {t u : List Char} {q : Position} (h : Within base s)
    (h1 : s.rest = t ++ u) (h2 : q = after s.pos t)
    (hc : c = .unexpected_character → u ≠ [] := by nofun) : Located base c q := by
  obtain ⟨w, h3, h4⟩ := h
  exact ⟨w ++ t, u, by rw [h3, h1, List.append_assoc], by rw [h2, h4, after_append], hc⟩

theorem sound_bind {base s : St} {x : PM α} {f : α → PM β} {Q : α → List Char → List Char → Prop}
    {R : β → List Char → List Char → Prop} (hb : Within base s) (hx : Sound base Q s (x s))
    (hf : ∀ a t s', s.rest = t ++ s'.rest → s'.pos = after s.pos t → Q a t s'.rest →
      Within base s' → Sound base (fun b u r => R b (t ++ u) r) s' (f a s')) :
    Sound base R s ((x >>= f) s) := by
  rw [run_bind]
  cases h : x s with
  | ok a s' =>
    rw [h] at hx
    obtain ⟨t, h1, h2, h3⟩ := hx
    have := hf a t s' h1 h2 h3 (hb.step h1 h2)
    simp only
    cases h' : f a s' with
    | ok b s'' =>
      rw [h'] at this
      obtain ⟨u, h4, h5, h6⟩ := this
      exact ⟨t ++ u, by rw [h1, h4, List.append_assoc], by rw [h5, h2, after_append], h6⟩
    | err c r q => rw [h'] at this; exact this
    | _ => trivial
  | err c r q => rw [h] at hx; exact hx
  | _ => trivial

theorem sound_mono {base s : St} {Q R : α → List Char → List Char → Prop} {r : Res α}
    (h : Sound base Q s r) (hQ : ∀ a t u, s.rest = t ++ u → Q a t u → R a t u) :
    Sound base R s r := by
  cases r with
  | ok a s' =>
    obtain ⟨t, h1, h2, h3⟩ := h
    exact ⟨t, h1, h2, hQ _ _ _ h1 h3⟩
  | err c r q => exact h
  | _ => trivial

theorem sound_pure {base s : St} {Q : α → List Char → List Char → Prop} {a : α}
    (h : Q a [] s.rest) : Sound base Q s (.ok a s) := ⟨[], rfl, rfl, h⟩

theorem sound_fail {base s : St} {Q : α → List Char → List Char → Prop} (c : Code) (r : Rule)
    (hb : Within base s) (hc : c = .unexpected_character → s.rest ≠ [] := by nofun) :
    Sound base Q s (.err c r s.pos) := hb.located hc

/-! ### Blanks, identifiers, values -/

theorem blankText_nil : BlankText [] false :=
  ⟨[], by intro x hx; simp at hx, rfl, by simp [not_emptyLine_nil]⟩

theorem matchBlank_sound {base s : St} (rule : Rule) (hb : Within base s) :
    Sound base (fun b t r => BlankText t b ∧ NoBlank r) s (matchBlank rule s) := by
  have := matchBlank_res rule s
  cases h : matchBlank rule s with
  | ok a s' =>
    rw [h] at this
    obtain ⟨ps, h1, h2, h3, h4, h5⟩ := this
    exact ⟨ps.flatten, h2, h3, ⟨ps, h1, rfl, by rw [h5, pending_false]; simp⟩, h4⟩
  | err c r q =>
    rw [h] at this
    exact hb.located' (t := s.rest) (u := []) (by simp) this.2.2 (by rw [this.1]; nofun)
  | _ => trivial

theorem blankPiece_head {x : List Char} (h : BlankPiece x) (w : List Char) : ¬ NoBlank (x ++ w) := by
  rintro ⟨h1, h2⟩
  rcases h with ⟨c, hc, rfl⟩ | ⟨b, -, rfl⟩ | ⟨b, rfl, -⟩
  · exact h1 c rfl hc
  · exact h2 ⟨_, .inl rfl⟩
  · exact h2 ⟨_, .inr rfl⟩

theorem blankText_of_noBlank {t w : List Char} {b : Bool} (h : BlankText t b) (hn : NoBlank (t ++ w)) :
    t = [] := by
  obtain ⟨ps, h1, rfl, -⟩ := h
  cases ps with
  | nil => rfl
  | cons x ps =>
    rw [List.flatten_cons, List.append_assoc] at hn
    exact absurd hn (blankPiece_head (h1 x (by simp)) _)

theorem matchBlankRule_sound {base s : St} (hb : Within base s) :
    Sound base (fun len t r => BlankText t false ∧ len = t.length ∧ (t ≠ [] → NoBlank r)) s
      (matchBlankRule s) := by
  unfold matchBlankRule
  rw [run_get_bind]
  have := matchBlank_sound (s := s) .blank hb
  rw [run_bind]
  cases h : matchBlank .blank s with
  | ok b s' =>
    rw [h] at this
    obtain ⟨t, h1, h2, h3, h4⟩ := this
    simp only
    cases b with
    | true =>
      exact ⟨[], rfl, rfl, blankText_nil, rfl, by simp⟩
    | false =>
      refine ⟨t, h1, h2, h3, ?_, fun _ => h4⟩
      rw [h2, after_start]; omega
  | err c r q => rw [h] at this; exact this
  | _ => trivial

theorem expect_sound {base s : St} (c : Char) (rule : Rule) (hb : Within base s) :
    Sound base (fun _ t _ => t = [c]) s (expect c rule s) := by
  unfold expect
  cases h : s.rest with
  | nil => exact hb.located
  | cons d ds =>
    simp only
    split
    · exact hb.located (fun _ => by rw [h]; nofun)
    · next hd =>
      simp only [ne_eq, not_not] at hd
      subst hd
      exact ⟨[d], by rw [h]; rfl, by rw [after_one]; rfl, rfl⟩

theorem ident_no_space {t : List Char} (h : ∀ c ∈ t, IdentPart c) (p : Position) :
    after p t = p.toRight t.length := by
  induction t generalizing p with
  | nil => rfl
  | cons c cs ih =>
    have hc := h c (by simp)
    rw [after_cons, ih (fun d hd => h d (by simp [hd]))]
    have : p.advance c = p.toRight 1 := by
      unfold Position.advance
      rw [if_neg, if_neg, if_neg]
      · rfl
      all_goals (rintro rfl; revert hc; decide)
    rw [this]
    simp only [Position.toRight, List.length_cons, Position.mk.injEq, true_and]
    omega

theorem ident_parts {t : List Char} (h : Ident t) : ∀ c ∈ t, IdentPart c := by
  cases t with
  | nil => exact h.elim
  | cons c cs =>
    intro d hd
    rcases List.mem_cons.1 hd with rfl | hd
    · exact .inl h.1
    · exact h.2 d hd

theorem skip_ident {s : St} {n : Nat} (hn : n ≤ s.rest.length)
    (h : ∀ c ∈ s.rest.take n, IdentPart c) :
    s.skip n = ⟨after s.pos (s.rest.take n), s.rest.drop n⟩ := by
  rw [ident_no_space h, List.length_take, Nat.min_eq_left hn]; rfl

theorem matchIdent_sound {base s : St} (hb : Within base s) :
    Sound base (fun v t r => v = (s.pos, t) ∧ Ident t ∧ ∀ c, r.head? = some c → ¬ IdentPart c) s
      (matchIdent s) := by
  unfold matchIdent
  rw [run_get_bind]
  split
  · exact hb.located
  · next he =>
    simp only
    split
    · exact hb.located (fun _ h => he (by rw [St.eof, h]; rfl))
    · next h0 =>
      rcases C18_match_identifier s.rest with ⟨h, -⟩ | ⟨-, hle, hi, hmax⟩
      · exact absurd h h0
      · rw [run_set_bind, skip_ident hle (ident_parts hi)]
        refine ⟨s.rest.take (matchIdentifier s.rest), by simp, rfl, rfl, hi, ?_⟩
        intro c hc hp
        simp only at hc
        generalize matchIdentifier s.rest = n at *
        have hlt : n < s.rest.length := by
          refine Nat.lt_of_not_le fun hge => ?_
          rw [List.drop_eq_nil_of_le hge] at hc
          simp at hc
        refine hmax (n + 1) (by omega) (by omega) ?_
        have hd : s.rest.drop n = c :: s.rest.drop (n + 1) := by
          rw [List.drop_eq_getElem_cons hlt] at hc ⊢
          simp only [List.head?_cons, Option.some.injEq] at hc
          rw [hc]
        have : s.rest.take (n + 1) = s.rest.take n ++ [c] := by
          rw [List.take_add, hd]; rfl
        rw [this]
        cases ht : s.rest.take n with
        | nil => rw [ht] at hi; exact hi.elim
        | cons x xs =>
          rw [ht] at hi
          refine ⟨hi.1, fun d hd => ?_⟩
          rcases List.mem_append.1 hd with hd | hd
          · exact hi.2 d hd
          · simp at hd; subst hd; exact hp

theorem digits_parts {base : Nat} {t : List Char} {v : Nat} (h : Spec.Digits base t v) :
    ∀ c ∈ t, IdentPart c := by
  obtain ⟨ds, h1, -, -⟩ := h
  intro c hc
  have : Spec.digitOf c ≠ none := by
    intro hn
    have : none ∈ t.map Spec.digitOf := List.mem_map.2 ⟨c, hc, hn⟩
    rw [h1] at this
    simp at this
  revert this
  unfold Spec.digitOf
  split
  · next h => intro _; exact .inr h
  · split
    · next h => intro _; exact .inl (.inr (.inl ⟨h.1, Nat.le_trans h.2 (by decide)⟩))
    · split
      · next h => intro _; exact .inl (.inr (.inr ⟨h.1, Nat.le_trans h.2 (by decide)⟩))
      · intro h; exact absurd rfl h

theorem literal_parts {k : LiteralType} {t : List Char} {v : Nat} (h : Literal k t v) :
    ∀ c ∈ t, IdentPart c := by
  have zero : IdentPart '0' := by decide
  have two : ∀ {a : Char} {u : List Char}, IdentPart a → (∀ c ∈ u, IdentPart c) →
      ∀ c ∈ a :: u, IdentPart c := by
    intro a u ha hu c hc
    rcases List.mem_cons.1 hc with rfl | hc
    · exact ha
    · exact hu c hc
  cases h with
  | binary _ hd => exact two zero (two (by decide) (digits_parts hd))
  | hexadecimal _ hd => exact two zero (two (by decide) (digits_parts hd))
  | octal _ hd => exact two zero (digits_parts hd)
  | zero => exact two zero (by simp)
  | decimal _ hd => exact digits_parts hd

theorem toInt64_small {m : Nat} (h : m < 2 ^ 63) : toInt64 (m : Int) = m := by
  unfold toInt64
  rw [BitVec.toInt_ofInt]
  rw [Int.bmod_eq_of_le] <;> omega

theorem matchLiteral_sound {base s : St} (hb : Within base s) :
    Sound base (fun v t _ => ValueIs v s.pos t) s (matchLiteral s) := by
  unfold matchLiteral
  rw [run_get_bind]
  split
  · exact hb.located
  · cases hm : matchIntegerLiteral s.rest with
    | no_digits => exact hb.located
    | no_digits_following_prefix k =>
      simp only
      rw [run_set_bind]
      have h2 := (C16_match_complete (s := s.rest)).2 k hm
      show Located base _ (s.skip 2).pos
      rcases h2.1 with ⟨-, u, hu⟩ | ⟨-, u, hu⟩
      · refine hb.located' (t := ['0', 'b']) (u := u) hu.symm ?_
        rw [ident_no_space (by decide)]; rfl
      · refine hb.located' (t := ['0', 'x']) (u := u) hu.symm ?_
        rw [ident_no_space (by decide)]; rfl
    | ok n k =>
      simp only
      obtain ⟨-, hle, ⟨v, hv⟩, -⟩ := C16_match_sound hm
      have hskip := skip_ident hle (literal_parts hv)
      split
      · rw [run_set_bind, run_fail, hskip]
        exact hb.located' (t := s.rest.take n) (u := s.rest.drop n) (by simp) rfl
      · cases hp : parseIntegerLiteral (s.rest.take n) with
        | none => exact hb.located
        | some w =>
          simp only
          rw [run_set_bind, hskip]
          refine ⟨s.rest.take n, by simp, rfl, ?_⟩
          have hlen : n = (s.rest.take n).length := by rw [List.length_take]; omega
          have : ValueIs (.number s.pos (s.rest.take n).length (toInt64 w) k) s.pos (s.rest.take n) := by
            refine .number ⟨v, hv, fun hl hs => ?_⟩
            have := (C15_integer_literal_partial hv hl).1 (Nat.lt_trans hs (by decide))
            rw [hp] at this
            cases this
            exact toInt64_small hs
          rwa [← hlen] at this

theorem matchValue_sound {base s : St} (hb : Within base s) :
    Sound base (fun v t _ => ValueIs v s.pos t) s (matchValue s) := by
  unfold matchValue
  rw [run_get_bind]
  split
  · exact matchLiteral_sound hb
  · refine sound_bind hb (matchIdent_sound hb) ?_
    rintro ⟨p, name⟩ t s' h1 h2 ⟨h3, h4, -⟩ hb'
    cases h3
    refine sound_pure ?_
    rw [List.append_nil]
    exact .ident h4

/-! ### Arguments -/

theorem argumentsLoop_sound (n : Nat) : ∀ {base s : St} (args : List (List Char × Value)),
    Within base s →
    Sound base (fun all t _ => ∃ new, all = args ++ new ∧
      ArgsIs (args.map Prod.fst).reverse new s.pos (t ++ [']'])) s (argumentsLoop n args s) := by
  induction n with
  | zero => intro base s args _; trivial
  | succ n ih =>
    intro base s args hb
    rw [argumentsLoop]
    refine sound_bind hb (matchBlankRule_sound hb) ?_
    rintro _ b1 s1 _ hp1 ⟨hB1, -, -⟩ hb1
    rw [run_get_bind]
    refine sound_bind hb1 (matchIdent_sound hb1) ?_
    rintro ⟨p, name⟩ t' s2 _ hp2 ⟨he, hid, -⟩ hb2
    cases he
    refine sound_bind hb2 (matchBlankRule_sound hb2) ?_
    rintro _ b2 s3 _ hp3 ⟨hB2, -, -⟩ hb3
    refine sound_bind hb3 (expect_sound _ _ hb3) ?_
    rintro _ _ s4 _ hp4 rfl hb4
    refine sound_bind hb4 (matchBlankRule_sound hb4) ?_
    rintro _ b3 s5 _ hp5 ⟨hB3, -, -⟩ hb5
    refine sound_bind hb5 (matchValue_sound hb5) ?_
    intro v t s6 _ hp6 hv hb6
    have hpos : s5.pos = after s.pos (b1 ++ name ++ b2 ++ '=' :: b3) := by
      rw [hp5, hp4, hp3, hp2, hp1]; simp [← after_append]
    rw [hpos] at hv
    split
    · rw [run_set_bind]
      exact hb1.located
    · next hdup =>
      have hdup : name ∉ (args.map Prod.fst).reverse := by
        simp only [List.mem_reverse, List.mem_map, not_exists, not_and]
        intro a ha hn
        apply hdup
        simp only [List.any_eq_true, decide_eq_true_eq]
        exact ⟨a, ha, hn⟩
      refine sound_bind hb6 (matchBlankRule_sound hb6) ?_
      rintro _ b4 s7 _ hp7 ⟨hB4, -, -⟩ hb7
      rw [run_get_bind]
      split
      · exact hb7.located
      · split
        · refine sound_bind hb7 (expect_sound _ _ hb7) ?_
          rintro _ _ s8 _ hp8 rfl hb8
          refine sound_mono (ih (args ++ [(name, v)]) hb8) ?_
          rintro all u r _ ⟨new, rfl, hnew⟩
          refine ⟨(name, v) :: new, by simp, ?_⟩
          have hpos8 : s8.pos = after s.pos (b1 ++ name ++ b2 ++ '=' :: b3 ++ t ++ b4 ++ [',']) := by
            rw [hp8, hp7, hp6, hpos]; simp [← after_append]
          rw [hpos8, List.map_append, List.map_singleton, List.reverse_append, List.reverse_singleton,
            List.singleton_append] at hnew
          have := ArgsIs.more hB1 hid hdup hB2 hB3 hv hB4 hnew
          simpa using this
        · refine sound_pure ⟨[(name, v)], rfl, ?_⟩
          have := ArgsIs.last hB1 hid hdup hB2 hB3 hv hB4
          simpa using this

theorem matchArguments_sound (n : Nat) {base s : St} (hb : Within base s) :
    Sound base (fun all t _ => ArgumentsIs all s.pos t ∧ t ≠ [] ∧ t.getLast? = some ']') s
      (matchArguments n s) := by
  unfold matchArguments
  refine sound_bind hb (expect_sound _ _ hb) ?_
  rintro _ _ s1 _ hp1 rfl hb1
  refine sound_bind hb1 (argumentsLoop_sound n [] hb1) ?_
  rintro args t s2 _ hp2 ⟨new, rfl, hnew⟩ hb2
  refine sound_bind hb2 (expect_sound _ _ hb2) ?_
  rintro _ _ s3 _ hp3 rfl hb3
  refine sound_pure ⟨?_, by simp, by
    rw [List.append_nil, ← List.append_assoc, List.getLast?_concat]⟩
  rw [hp1] at hnew
  have := ArgumentsIs.some hnew
  simpa using this

end Bms.Bmd
