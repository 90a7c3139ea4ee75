import Verif.Lemmas.Tokenize

/-!
# Runs of the tokenizer loop
-/

namespace Bms

open Spec

theorem white_contains (c : Char) :
    [' ', '\r', '\t', '\n'].contains c = true ↔ White c := by
  rw [List.contains_iff_mem]
  simp only [List.mem_cons, List.not_mem_nil, or_false, White]
  constructor
  · rintro (h | h | h | h) <;> simp [h]
  · rintro (h | h | h | h) <;> simp [h]

theorem findFirstNotOf_some {set s : List Char} {n : Nat} :
    findFirstNotOf set s = some n ↔ ∃ gap c cs, s = gap ++ c :: cs ∧
      (∀ d ∈ gap, set.contains d = true) ∧ set.contains c = false ∧ n = gap.length := by
  induction s generalizing n with
  | nil => simp [findFirstNotOf]
  | cons c s ih =>
    unfold findFirstNotOf
    by_cases h : set.contains c = true
    · rw [if_pos h]
      constructor
      · intro e
        obtain ⟨m, hm, rfl⟩ := Option.map_eq_some_iff.mp e
        obtain ⟨gap, d, cs, rfl, h1, h2, rfl⟩ := ih.mp hm
        refine ⟨c :: gap, d, cs, rfl, ?_, h2, rfl⟩
        intro x hx
        rcases List.mem_cons.mp hx with rfl | hx
        · exact h
        · exact h1 x hx
      · rintro ⟨gap, d, cs, he, h1, h2, rfl⟩
        cases gap with
        | nil => cases he; rw [h] at h2; cases h2
        | cons x gap =>
          cases he
          have := (ih (n := gap.length)).mpr ⟨gap, d, cs, rfl, fun y hy => h1 y (by simp [hy]), h2, rfl⟩
          rw [this]; rfl
    · rw [if_neg h]
      constructor
      · intro e; cases e
        exact ⟨[], c, s, rfl, by simp, by simpa using h, rfl⟩
      · rintro ⟨gap, d, cs, he, h1, h2, rfl⟩
        cases gap with
        | nil => rfl
        | cons x gap => cases he; exact absurd (h1 c (by simp)) h

/-- The text from the first character that is not whitespace. -/
structure AtToken (src : List Char) (p q : Position) (gap : List Char) (c : Char)
    (cs : List Char) : Prop where
  split : src.drop p.start = gap ++ c :: cs
  white : ∀ d ∈ gap, White d
  notWhite : ¬ White c
  pos : q = gap.foldl Position.advance p
  start : q.start = p.start + gap.length
  rest : src.drop q.start = c :: cs

theorem nextToken_spec {src : List Char} {p : Position} (hlt : p.start < src.length) :
    (nextToken src p = .ok none ∧ ∀ c ∈ src.drop p.start, White c) ∨
    (∃ q gap c cs, AtToken src p q gap c cs ∧
      ((∃ n ty, nextToken src p = .ok (some ⟨q, n, ty⟩) ∧ tryMatch q (c :: cs) = .ok (n, ty)) ∨
       (∃ code off, nextToken src p = .err ⟨code, q.toRight off⟩ ∧
          LexicalError code off (c :: cs)))) := by
  unfold nextToken
  rw [if_pos hlt]
  cases hf : findFirstNotOf [' ', '\r', '\t', '\n'] (src.drop p.start) with
  | none =>
    left
    refine ⟨by unfold skipWhitespace; rw [hf]; rfl, fun c hc => ?_⟩
    rw [findFirstNotOf_none] at hf
    exact (white_contains c).mp (hf c hc)
  | some n =>
    right
    obtain ⟨gap, c, cs, hs, h1, h2, rfl⟩ := findFirstNotOf_some.mp hf
    have hc : ¬ White c := by
      rw [← white_contains, h2]; simp
    have hlen : gap.length < src.length - p.start := by
      have := congrArg List.length hs
      simp at this
      omega
    have hq : AtToken src p (gap.foldl Position.advance p) gap c cs := by
      refine ⟨hs, fun d hd => (white_contains d).mp (h1 d hd), hc, rfl, ?_, ?_⟩
      · exact foldl_advance_start p gap
      · rw [foldl_advance_start, ← List.drop_drop, hs]
        simp
    have hskip : skipWhitespace src p = .ok (some (gap.foldl Position.advance p)) := by
      unfold skipWhitespace
      rw [hf]
      cases gap with
      | nil => rfl
      | cons g gap =>
        show (advancePositionBy src p (gap.length + 1)).map some = _
        unfold advancePositionBy
        rw [List.length_cons] at hlen
        rw [if_pos (by omega), hs]
        simp
    refine ⟨_, gap, c, cs, hq, ?_⟩
    rw [hskip]
    show (∃ n ty, (tryMatch _ (src.drop (gap.foldl Position.advance p).start)).map _ = _ ∧ _) ∨
      (∃ code off, (tryMatch _ (src.drop (gap.foldl Position.advance p).start)).map _ = _ ∧ _)
    rw [hq.rest]
    rcases tryMatch_total (pos := gap.foldl Position.advance p) (cs := cs) hc with
      ⟨n, ty, h⟩ | ⟨code, off, h, hl⟩
    · left; exact ⟨n, ty, by rw [h]; rfl, h⟩
    · right; exact ⟨code, off, by rw [h]; rfl, hl⟩

theorem nextToken_throws {src : List Char} {p : Position} (h : ¬ p.start < src.length) :
    nextToken src p = .throws := by
  unfold nextToken; rw [if_neg h]

/-- What is known when a token was read. -/
theorem nextToken_some {src : List Char} {p : Position} {t : Token}
    (h : nextToken src p = .ok (some t)) :
    p.start < src.length ∧ ∃ gap c cs, AtToken src p t.pos gap c cs ∧
      tryMatch t.pos (c :: cs) = .ok (t.length, t.type) := by
  by_cases hlt : p.start < src.length
  · refine ⟨hlt, ?_⟩
    rcases nextToken_spec hlt with ⟨h', -⟩ | ⟨q, gap, c, cs, hq, ⟨n, ty, h', hm⟩ | ⟨code, off, h', -⟩⟩
    · rw [h] at h'; cases h'
    · rw [h] at h'; cases h'
      exact ⟨gap, c, cs, hq, hm⟩
    · rw [h] at h'; cases h'
  · rw [nextToken_throws hlt] at h; cases h

theorem positionAfter_cases (src : List Char) (p : Position) (n : Nat) (ty : TokenType) :
    (ty ≠ .block_comment ∧ positionAfter src p n ty = .ok (p.toRight n)) ∨
    (ty = .block_comment ∧ p.start + n < src.length ∧
      positionAfter src p n ty = .ok (((src.drop p.start).take n).foldl Position.advance p)) ∨
    (ty = .block_comment ∧ ¬ p.start + n < src.length ∧ positionAfter src p n ty = .throws) := by
  unfold positionAfter advancePositionBy
  by_cases h : ty = .block_comment
  · right
    rw [if_neg (by simp [h])]
    by_cases h2 : p.start + n < src.length
    · left; rw [if_pos h2]; exact ⟨h, h2, rfl⟩
    · right; rw [if_neg h2]; exact ⟨h, h2, rfl⟩
  · left; rw [if_pos h]; exact ⟨h, rfl⟩

theorem positionAfter_start {src : List Char} {p next : Position} {n : Nat} {ty : TokenType}
    (h : positionAfter src p n ty = .ok next) : next.start = p.start + n := by
  rcases positionAfter_cases src p n ty with ⟨_, h'⟩ | ⟨_, hlt, h'⟩ | ⟨_, _, h'⟩
  · rw [h] at h'; cases h'; rfl
  · rw [h] at h'; cases h'
    rw [foldl_advance_start, List.length_take, List.length_drop]
    omega
  · rw [h] at h'; cases h'

/-- Complete iterations of the loop: from a position, reading tokens, to a position. -/
inductive Steps (src : List Char) : Position → List Token → Position → Prop
  | nil {p} : Steps src p [] p
  | cons {p t next ts q} : p.start ≠ src.length → nextToken src p = .ok (some t) →
      positionAfter src t.pos t.length t.type = .ok next → Steps src next ts q →
      Steps src p (t :: ts) q

/-- How the loop ends. -/
inductive Ends (src : List Char) (q : Position) : List Token → Outcome TokenizeError Unit → Prop
  | done : q.start = src.length → Ends src q [] (.ok ())
  | white : q.start < src.length → (∀ c ∈ src.drop q.start, White c) → Ends src q [] (.ok ())
  | error {r gap c cs code off} : q.start < src.length → AtToken src q r gap c cs →
      LexicalError code off (c :: cs) → Ends src q [] (.err ⟨code, r.toRight off⟩)
  | beyond : src.length < q.start → Ends src q [] .throws
  | comment {t} : nextToken src q = .ok (some t) → t.type = .block_comment →
      src.length ≤ t.pos.start + t.length → Ends src q [t] .throws

theorem loop_run {src : List Char} {fuel : Nat} {pos : Position} {out out' : List Token}
    {res : Outcome TokenizeError Unit} (h : tokenizeLoop src fuel pos out = some (out', res)) :
    ∃ ts last q, Steps src pos ts q ∧ Ends src q last res ∧ out' = out ++ ts ++ last := by
  induction fuel generalizing pos out with
  | zero => cases h
  | succ fuel ih =>
    unfold tokenizeLoop at h
    by_cases h1 : pos.start = src.length
    · rw [if_pos h1] at h; cases h
      exact ⟨[], [], pos, .nil, .done h1, by simp⟩
    rw [if_neg h1] at h
    by_cases hlt : pos.start < src.length
    · rcases nextToken_spec hlt with ⟨h', hw⟩ | ⟨q, gap, c, cs, hq, ⟨n, ty, h', hm⟩ | ⟨code, off, h', hl⟩⟩
      · rw [h'] at h; cases h
        exact ⟨[], [], pos, .nil, .white hlt hw, by simp⟩
      · rw [h'] at h
        simp only at h
        rcases positionAfter_cases src q n ty with ⟨hty, h2⟩ | ⟨hty, hl, h2⟩ | ⟨hty, hl, h2⟩
        · rw [h2] at h
          obtain ⟨ts, last, r, a1, a2, a3⟩ := ih h
          exact ⟨⟨q, n, ty⟩ :: ts, last, r, .cons h1 h' h2 a1, a2, by simp [a3]⟩
        · rw [h2] at h
          obtain ⟨ts, last, r, a1, a2, a3⟩ := ih h
          exact ⟨⟨q, n, ty⟩ :: ts, last, r, .cons h1 h' h2 a1, a2, by simp [a3]⟩
        · rw [h2] at h
          cases h
          exact ⟨[], [_], pos, .nil, .comment h' hty (by simp only; omega), by simp⟩
      · rw [h'] at h
        cases h
        exact ⟨[], [], pos, .nil, .error hlt hq hl, by simp⟩
    · rw [nextToken_throws hlt] at h
      cases h
      exact ⟨[], [], pos, .nil, .beyond (by omega), by simp⟩

theorem steps_start {src : List Char} {p q : Position} {ts : List Token} (h : Steps src p ts q) :
    p.start ≤ q.start := by
  induction h with
  | nil => exact Nat.le_refl _
  | cons _ h1 h2 _ ih =>
    obtain ⟨_, gap, c, cs, hq, _⟩ := nextToken_some h1
    have := positionAfter_start h2
    have := hq.start
    omega

theorem steps_tiled {src : List Char} {p q : Position} {ts : List Token} (h : Steps src p ts q)
    (hq : q.start ≤ src.length) : Tiled p.start (src.drop p.start) ts (src.drop q.start) := by
  induction h with
  | nil => exact .nil
  | @cons p t next ts q _ h1 h2 h3 ih =>
    obtain ⟨hlt, gap, c, cs, hg, hm⟩ := nextToken_some h1
    have e1 := positionAfter_start h2
    have e2 := hg.start
    have e3 := steps_start h3
    have ok := tryMatch_ok hm
    have ih := ih hq
    have hlen := congrArg List.length hg.rest
    simp only [List.length_drop] at hlen
    have e4 : ((c :: cs).take t.length).length = t.length := by
      rw [List.length_take]; omega
    have e5 : src.drop next.start = (c :: cs).drop t.length := by
      rw [e1, ← List.drop_drop, hg.rest]
    have : src.drop p.start = gap ++ (c :: cs).take t.length ++ src.drop next.start := by
      rw [e5, List.append_assoc, List.take_append_drop, hg.split]
    rw [this]
    refine .cons hg.white ?_ e2 e4.symm ?_
    · intro he
      rw [he] at e4
      have := ok.1
      simp at e4; omega
    · rw [e4, ← e2, ← e1]; exact ih

theorem steps_last {src : List Char} {p q : Position} {ts : List Token} (h : Steps src p ts q) :
    (ts = [] ∧ q = p) ∨ ∃ p' t, nextToken src p' = .ok (some t) ∧
      positionAfter src t.pos t.length t.type = .ok q := by
  induction h with
  | nil => exact .inl ⟨rfl, rfl⟩
  | @cons p t next ts q _ h1 h2 h3 ih =>
    right
    rcases ih with ⟨-, rfl⟩ | h
    · exact ⟨p, t, h1, h2⟩
    · exact h

/-- Every token that was read. -/
theorem steps_mem {src : List Char} {p q : Position} {ts : List Token} (h : Steps src p ts q)
    {t : Token} (ht : t ∈ ts) : ∃ p', nextToken src p' = .ok (some t) := by
  induction h with
  | nil => cases ht
  | @cons p t' next ts q _ h1 _ _ ih =>
    rcases List.mem_cons.mp ht with rfl | ht
    · exact ⟨p, h1⟩
    · exact ih ht

theorem ends_mem {src : List Char} {q : Position} {last : List Token}
    {res : Outcome TokenizeError Unit} (h : Ends src q last res)
    {t : Token} (ht : t ∈ last) : ∃ p', nextToken src p' = .ok (some t) := by
  cases h with
  | comment h1 _ _ =>
    rw [List.mem_singleton] at ht
    subst ht
    exact ⟨_, h1⟩
  | _ => cases ht

theorem run_mem {src : List Char} {out : List Token} {res : Outcome TokenizeError Unit}
    (h : tokenize src = some (out, res)) {t : Token} (ht : t ∈ out) :
    ∃ c cs, src.drop t.pos.start = c :: cs ∧ tryMatch t.pos (c :: cs) = .ok (t.length, t.type) := by
  obtain ⟨ts, last, q, h1, h2, h3⟩ := loop_run h
  rw [h3] at ht
  simp only [List.nil_append, List.mem_append] at ht
  have : ∃ p', nextToken src p' = .ok (some t) := by
    rcases ht with ht | ht
    · exact steps_mem h1 ht
    · exact ends_mem h2 ht
  obtain ⟨p', hp'⟩ := this
  obtain ⟨-, gap, c, cs, hg, hm⟩ := nextToken_some hp'
  exact ⟨c, cs, hg.rest, hm⟩

end Bms
