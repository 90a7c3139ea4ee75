import Verif.Lemmas.TokenizeRun

/-!
# Lemmas about token positions
-/

namespace Bms

open Spec

/-- The position is the one reached by scanning. -/
def Exact (src : List Char) (p : Position) : Prop := p = positionAfterText (src.take p.start)

/-- The position is exact, or the column may be wrong but the next character is a line feed. -/
def Loose (src : List Char) (p : Position) : Prop :=
  Exact src p ∨ (p.start ≤ src.length ∧ p.line = (src.take p.start).count '\n' ∧
    (src.drop p.start = [] ∨ ∃ r, src.drop p.start = '\n' :: r))

theorem exact_start {src : List Char} {p : Position} (h : Exact src p) : p.start ≤ src.length := by
  have := congrArg Position.start h
  simp only [positionAfterText, List.length_take] at this
  omega

theorem exact_foldl {src : List Char} {p : Position} (h : Exact src p) {seg rest : List Char}
    (hs : src.drop p.start = seg ++ rest) : Exact src (seg.foldl Position.advance p) := by
  unfold Exact
  have e : src.take (p.start + seg.length) = src.take p.start ++ seg := by
    rw [List.take_add, hs]; simp
  rw [foldl_advance_start, e, ← foldl_advance, ← h]

theorem loose_token {src : List Char} {p q : Position} {gap : List Char} {c : Char} {cs : List Char}
    (h : Loose src p) (hg : AtToken src p q gap c cs) : Exact src q := by
  rw [hg.pos]
  rcases h with h | ⟨hle, hl, h⟩
  · exact exact_foldl h hg.split
  · rcases h with h | ⟨r, hr⟩
    · rw [hg.split] at h; simp at h
    · have hs := hg.split
      rw [hr] at hs
      cases gap with
      | nil =>
        cases hs
        exact absurd (by decide) hg.notWhite
      | cons g gap =>
        cases hs
        have key : p.advance '\n' = (positionAfterText (src.take p.start)).advance '\n' := by
          unfold Position.advance positionAfterText
          simp only [show ('\n' : Char) ≠ '\t' by decide, show ('\n' : Char) ≠ '\r' by decide,
            if_false, if_true, Position.mk.injEq, List.length_take, hl, true_and]
          omega
        rw [List.foldl_cons, key, ← List.foldl_cons (f := Position.advance) (a := '\n')]
        have ex : Exact src (positionAfterText (src.take p.start)) := by
          unfold Exact
          simp only [positionAfterText, List.length_take]
          rw [Nat.min_eq_left hle, Nat.min_eq_left hle]
        apply exact_foldl ex
        have : (positionAfterText (src.take p.start)).start = p.start := by
          simp only [positionAfterText, List.length_take]; omega
        rw [this]
        exact hg.split

theorem digitOf_identPart {c : Char} {d : Nat} (h : digitOf c = some d) : IdentPart c := by
  unfold digitOf at h
  split at h
  · exact .inr (by assumption)
  split at h
  · next h1 =>
    refine .inl (.inr (.inl ⟨h1.1, ?_⟩))
    have := h1.2
    simp only [show ('f').toNat = 102 from rfl, show ('z').toNat = 122 from rfl] at this ⊢
    omega
  split at h
  · next h1 =>
    refine .inl (.inr (.inr ⟨h1.1, ?_⟩))
    have := h1.2
    simp only [show ('F').toNat = 70 from rfl, show ('Z').toNat = 90 from rfl] at this ⊢
    omega
  · cases h

theorem digits_identPart {base : Nat} {s : List Char} {v : Nat} (h : Digits base s v) :
    ∀ c ∈ s, IdentPart c := by
  obtain ⟨ds, h1, -, -⟩ := h
  intro c hc
  have : digitOf c ∈ s.map digitOf := List.mem_map_of_mem hc
  rw [h1] at this
  obtain ⟨d, -, hd⟩ := List.mem_map.mp this
  exact digitOf_identPart hd.symm

theorem literal_identPart {k : LiteralType} {s : List Char} {v : Nat} (h : Literal k s v) :
    ∀ c ∈ s, IdentPart c := by
  intro c hc
  cases h with
  | binary _ hd =>
    rcases List.mem_cons.mp hc with rfl | hc
    · decide
    rcases List.mem_cons.mp hc with rfl | hc
    · decide
    exact digits_identPart hd c hc
  | hexadecimal _ hd =>
    rcases List.mem_cons.mp hc with rfl | hc
    · decide
    rcases List.mem_cons.mp hc with rfl | hc
    · decide
    exact digits_identPart hd c hc
  | octal _ hd =>
    rcases List.mem_cons.mp hc with rfl | hc
    · decide
    exact digits_identPart hd c hc
  | zero =>
    rw [List.mem_singleton] at hc; subst hc; decide
  | decimal _ hd => exact digits_identPart hd c hc

theorem identPart_plain {c : Char} (h : IdentPart c) : ¬ Special c := by
  rintro (rfl | rfl | rfl) <;> exact absurd h (by decide)

theorem spelling_plain {ty : TokenType} {sp : String} (h : spelling ty = some sp) :
    ∀ c ∈ sp.toList, ¬ Special c := by
  cases ty <;> cases h <;> decide

/-- Only strings and comments contain tabs or line ends. -/
theorem lexeme_plain {ty : TokenType} {s : List Char} (h : Lexeme ty s)
    (h1 : ty ≠ .string_literal) (h2 : ty ≠ .line_comment) (h3 : ty ≠ .block_comment) :
    ∀ c ∈ s, ¬ Special c := by
  cases h with
  | fixed h => exact spelling_plain h
  | @identifier s h _ =>
    intro c hc
    cases s with
    | nil => exact h.elim
    | cons d t =>
      rcases List.mem_cons.mp hc with rfl | hc
      · exact identPart_plain (.inl h.1)
      · exact identPart_plain (h.2 c hc)
  | binary h => exact fun c hc => identPart_plain (literal_identPart h c hc)
  | octal h => exact fun c hc => identPart_plain (literal_identPart h c hc)
  | decimal h => exact fun c hc => identPart_plain (literal_identPart h c hc)
  | hexadecimal h => exact fun c hc => identPart_plain (literal_identPart h c hc)
  | string _ => exact absurd rfl h1
  | lineComment _ => exact absurd rfl h2
  | blockComment _ => exact absurd rfl h3

theorem loose_next {src : List Char} {t : Token} {next : Position} {c : Char} {cs : List Char}
    (hx : Exact src t.pos) (hr : src.drop t.pos.start = c :: cs)
    (hm : tryMatch t.pos (c :: cs) = .ok (t.length, t.type))
    (hn : positionAfter src t.pos t.length t.type = .ok next) (hle : next.start ≤ src.length)
    (hs : t.type = .string_literal ∨ t.type = .logical_and ∨ t.type = .logical_not →
      ∀ c ∈ textOf src t, ¬ Special c) : Loose src next := by
  have e1 := positionAfter_start hn
  have hlen := congrArg List.length hr
  rw [List.length_drop] at hlen
  have hsplit : src.drop t.pos.start = textOf src t ++ src.drop next.start := by
    rw [textOf, e1, ← List.drop_drop, List.take_append_drop]
  have htl : (textOf src t).length = t.length := by
    rw [textOf, List.length_take, List.length_drop]; omega
  rcases positionAfter_cases src t.pos t.length t.type with ⟨hty, h'⟩ | ⟨hty, hl, h'⟩ | ⟨_, _, h'⟩
  · rw [hn] at h'
    have h' : next = t.pos.toRight t.length := by cases h'; rfl
    by_cases hlc : t.type = .line_comment
    · right
      have hlex := ((tryMatch_ok hm).2.1 (by rw [hlc]; decide)).2
      rw [hlc] at hlex
      have htext : (c :: cs).take t.length = textOf src t := by rw [textOf, hr]
      have hlong := tryMatch_longest hm
      rw [htext] at hlex
      generalize htx : textOf src t = text at *
      cases hlex with
      | fixed h => cases h
      | @lineComment body hb =>
        refine ⟨hle, ?_, ?_⟩
        · have : src.take next.start = src.take t.pos.start ++ '/' :: '/' :: body := by
            rw [e1, List.take_add, hsplit, ← htl]
            simp
          rw [this, List.count_append]
          have hc : ('/' :: '/' :: body).count '\n' = 0 := by
            rw [List.count_eq_zero]
            simpa using hb
          rw [hc, h']
          have := congrArg Position.line hx
          simpa [Position.toRight, positionAfterText] using this
        · cases hd : src.drop next.start with
          | nil => exact .inl rfl
          | cons d r =>
            right
            by_cases he : d = '\n'
            · exact ⟨r, by rw [he]⟩
            · exfalso
              have := hlong .line_comment ('/' :: '/' :: (body ++ [d])) ⟨r, by
                rw [← hr, hsplit, hd]; simp⟩ (.lineComment (by
                  intro hh
                  rcases List.mem_append.mp hh with hh | hh
                  · exact hb hh
                  · rw [List.mem_singleton] at hh; exact he hh.symm))
              rw [← htl] at this
              simp at this
              omega
    · left
      have plain : ∀ c ∈ textOf src t, ¬ Special c := by
        by_cases hst : t.type = .string_literal ∨ t.type = .logical_and ∨ t.type = .logical_not
        · exact hs hst
        · have hlex := ((tryMatch_ok hm).2.1 (by
            rintro (h | h)
            · exact hst (.inr (.inl h))
            · exact hst (.inr (.inr h)))).2
          have htext : (c :: cs).take t.length = textOf src t := by rw [textOf, hr]
          rw [htext] at hlex
          exact lexeme_plain hlex (fun h => hst (.inl h)) hlc hty
      have := exact_foldl hx hsplit
      rw [foldl_advance_plain _ plain, htl, ← h'] at this
      exact this
  · rw [hn] at h'
    cases h'
    left
    exact exact_foldl hx hsplit
  · rw [hn] at h'; cases h'

theorem steps_exact {src : List Char} {p q : Position} {ts : List Token} (h : Steps src p ts q)
    (hp : Loose src p) (hq : q.start ≤ src.length)
    (hs : ∀ t ∈ ts, t.type = .string_literal ∨ t.type = .logical_and ∨ t.type = .logical_not →
      ∀ c ∈ textOf src t, ¬ Special c) :
    (∀ t ∈ ts, Exact src t.pos) ∧ Loose src q := by
  induction h with
  | nil => exact ⟨by simp, hp⟩
  | @cons p t next ts q _ h1 h2 h3 ih =>
    obtain ⟨hlt, gap, c, cs, hg, hm⟩ := nextToken_some h1
    have hx := loose_token hp hg
    have := steps_start h3
    have hl := loose_next hx hg.rest hm h2 (by omega) (hs t (by simp))
    obtain ⟨a, b⟩ := ih hl hq (fun t ht => hs t (by simp [ht]))
    refine ⟨fun t' ht' => ?_, b⟩
    rcases List.mem_cons.mp ht' with rfl | ht'
    · exact hx
    · exact a t' ht'

theorem exact_toRight {src : List Char} {p : Position} (h : Exact src p) {seg rest : List Char}
    (hs : src.drop p.start = seg ++ rest) (hp : ∀ c ∈ seg, ¬ Special c) :
    Exact src (p.toRight seg.length) := by
  have := exact_foldl h hs
  rwa [foldl_advance_plain _ hp] at this

end Bms
