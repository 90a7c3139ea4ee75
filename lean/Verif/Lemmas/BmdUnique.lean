import Verif.Lemmas.BmdTree

/-! The pieces of a BMD document are determined by the text. -/

namespace Bms.Bmd

open Spec (Ident IdentPart IdentStart Literal LowerCase)

/-! ### Texts -/

theorem wordy_drop {r w t z : List Char} (h : Wordy w t) (h' : Wordy r (t ++ z)) : Wordy r z := by
  induction h with
  | nil => exact h'
  | @char c t hc _ _ ih =>
    rw [List.cons_append] at h'
    generalize t ++ z = x at h' ih
    cases h' with
    | char _ _ h => exact ih h
    | escape _ _ => exact absurd rfl hc
  | escape _ _ ih =>
    cases h' with
    | char hc _ _ => exact absurd rfl hc
    | escape _ h => exact ih h

theorem wordy_blank {r ws y : List Char} (hws : ∀ c ∈ ws, Space c) (h : Wordy r (ws ++ y)) :
    Wordy r y := by
  induction ws with
  | nil => exact h
  | cons c ws ih =>
    have hc := hws c (by simp)
    rw [List.cons_append] at h
    generalize ws ++ y = x at h ih
    cases h with
    | char _ _ h => exact ih (fun d hd => hws d (by simp [hd])) h
    | escape _ _ => rcases hc with h | h | h | h <;> cases h

theorem two_newlines {ws : List Char} (h : 2 ≤ ws.count '\n') :
    ∃ a m b, ws = a ++ '\n' :: (m ++ '\n' :: b) := by
  have hm : '\n' ∈ ws := by
    rw [← List.count_pos_iff]; omega
  obtain ⟨a, b, rfl⟩ := List.append_of_mem hm
  by_cases hb : '\n' ∈ b
  · obtain ⟨m, b', rfl⟩ := List.append_of_mem hb
    exact ⟨a, m, b', rfl⟩
  · by_cases ha : '\n' ∈ a
    · obtain ⟨a', m, rfl⟩ := List.append_of_mem ha
      exact ⟨a', m, b, by simp⟩
    · rw [List.count_append, List.count_cons_self, List.count_eq_zero.2 ha, List.count_eq_zero.2 hb] at h
      omega

theorem text_longer {t r x r' : List Char} (h : TextIs t r) (h' : TextIs (t ++ x) r')
    (he : r = x ++ r') : x = [] := by
  by_cases hne : x = []
  · exact hne
  obtain ⟨ws, q, h1, hws, hq⟩ := h.ends
  rw [he] at h1
  -- the last character of `x` is no space
  have hlast : ¬ Space (x.getLast hne) := by
    refine h'.back _ ?_
    rw [List.getLast?_append, List.getLast?_eq_some_getLast hne]
    rfl
  obtain ⟨y, hx, hq'⟩ : ∃ y, x = ws ++ y ∧ q = y ++ r' := by
    rcases List.append_eq_append_iff.1 h1 with ⟨a, h2, h3⟩ | ⟨c, h2, h3⟩
    · -- `x` is within the spaces
      exact absurd (hws _ (by rw [h2]; exact List.mem_append_left _ (List.getLast_mem hne))) hlast
    · exact ⟨c, h2, h3⟩
  subst hx
  have hy : y ≠ [] := by
    rintro rfl
    exact hlast (hws _ (by simpa using List.getLast_mem hne))
  have hw : Wordy r' y := wordy_blank hws (wordy_drop h.wordy h'.wordy)
  exfalso
  rcases hq with rfl | hq | hq | hq
  · simp at hq'; exact hy hq'.1
  · rw [hq'] at hq
    cases hw with
    | nil => exact hy rfl
    | char _ hc _ => exact hc hq
    | escape _ _ => obtain ⟨u, h | h⟩ := hq <;> simp at h
  · rw [hq'] at hq
    obtain ⟨u, hu, hesc⟩ := hq
    cases hw with
    | nil => exact hy rfl
    | char hc _ _ => simp at hu; exact hc hu.1
    | escape hc _ =>
      simp only [List.cons_append, List.cons.injEq, true_and] at hu
      subst hu
      exact hesc _ rfl hc
  · obtain ⟨a, m, b, rfl⟩ := two_newlines hq
    exact h'.lines ⟨t ++ a, m, b ++ y, by simp, fun c hc => hws c (by simp [hc])⟩

/-- A text ends where the text says so. -/
theorem textIs_unique {t r t' r' : List Char} (h : TextIs t r) (h' : TextIs t' r')
    (he : t ++ r = t' ++ r') : t = t' ∧ r = r' := by
  rcases List.append_eq_append_iff.1 he with ⟨x, h1, h2⟩ | ⟨x, h1, h2⟩
  · subst h1
    have := text_longer h h' h2
    subst this
    simp at h2 ⊢
    exact h2
  · subst h1
    have := text_longer h' h h2
    subst this
    simp at h2 ⊢
    exact h2.symm

/-- `match_text` finds the text. -/
theorem matchText_complete {t r : List Char} (h : TextIs t r) (p : Position) :
    matchText ⟨p, t ++ r⟩ = .ok (some (.text p t.length t)) ⟨after p t, r⟩ := by
  have hs := (textIs_noBlank h).1
  rcases matchText_res ⟨p, t ++ r⟩ hs with ⟨-, ws, q, h1, hws, hq⟩ | ⟨t', r', h1, h2, h3⟩
  · exfalso
    have hne := h.nonempty
    cases ws with
    | cons c ws =>
      simp only at h1
      exact hs c (by rw [h1]; rfl) (hws c (by simp))
    | nil =>
      simp only [List.nil_append] at h1
      rcases hq with rfl | hq | hq | hq
      · simp at h1; exact hne h1.1
      · rw [← h1] at hq; exact (textIs_noBlank h).2 hq
      · rw [← h1] at hq
        obtain ⟨u, hu, hesc⟩ := hq
        cases h.wordy with
        | nil => exact hne rfl
        | char hc _ _ => simp at hu; exact hc hu.1
        | escape hc _ =>
          simp only [List.cons_append, List.cons.injEq, true_and] at hu
          subst hu
          exact hesc _ rfl hc
      · simp at hq
  · obtain ⟨rfl, rfl⟩ := textIs_unique h h2 h1
    exact h3

/-! ### Blanks -/

theorem noBlank_matchBlank {rule : Rule} {s : St} (h : NoBlank s.rest) :
    matchBlank rule s = .ok false s := by
  unfold matchBlank
  match s, h with
  | ⟨p, []⟩, _ => rfl
  | ⟨p, [c]⟩, h =>
    have hc := h.1 c rfl
    rw [← isSpace_iff] at hc
    simp only [blankLoop]
    rw [if_neg (by simpa using hc)]
  | ⟨p, c :: d :: ds⟩, h =>
    have hc := h.1 c rfl
    rw [← isSpace_iff] at hc
    have h2 := h.2
    simp only [blankLoop]
    rw [if_neg, if_neg, if_pos (by simpa using hc)]
    · simp only [Bool.and_eq_true, decide_eq_true_eq, not_and]
      rintro rfl rfl
      exact h2 ⟨ds, .inr rfl⟩
    · simp only [Bool.and_eq_true, decide_eq_true_eq, not_and]
      rintro rfl rfl
      exact h2 ⟨ds, .inl rfl⟩

/-! ### Blanks, as pieces -/

theorem space_ne_slash {c : Char} (h : Space c) : c ≠ '/' := by
  rintro rfl; rcases h with h | h | h | h <;> cases h

theorem lineBody_unique {a b w w' : List Char} (ha : '\n' ∉ a) (hb : '\n' ∉ b)
    (h : a ++ '\n' :: w = b ++ '\n' :: w') : a = b ∧ w = w' := by
  induction a generalizing b with
  | nil =>
    cases b with
    | nil => simp at h; exact ⟨rfl, h⟩
    | cons d b => simp at h; exact absurd (by rw [← h.1]; simp) hb
  | cons c a ih =>
    cases b with
    | nil => simp at h; exact absurd (by rw [h.1]; simp) ha
    | cons d b =>
      simp at h
      obtain ⟨h1, h2⟩ := ih (by simp at ha; exact ha.2) (by simp at hb; exact hb.2) h.2
      exact ⟨by rw [h.1, h1], h2⟩

theorem commentBody_unique {a b w w' : List Char}
    (ha : ∀ x y, a ++ ['*', '/'] = x ++ '*' :: '/' :: y → y = [])
    (hb : ∀ x y, b ++ ['*', '/'] = x ++ '*' :: '/' :: y → y = [])
    (h : a ++ '*' :: '/' :: w = b ++ '*' :: '/' :: w') : a = b ∧ w = w' := by
  have key : ∀ {a b w w' : List Char},
      (∀ x y, b ++ ['*', '/'] = x ++ '*' :: '/' :: y → y = []) →
      a ++ '*' :: '/' :: w = b ++ '*' :: '/' :: w' → ¬ a.length < b.length := by
    intro a b w w' hb h hlt
    have hp : a ++ ['*', '/'] <+: b ++ ['*', '/'] := by
      have h1 : a ++ ['*', '/'] <+: b ++ '*' :: '/' :: w' := ⟨w, by rw [← h]; simp⟩
      have h2 : b ++ ['*', '/'] <+: b ++ '*' :: '/' :: w' := ⟨w', by simp⟩
      exact List.prefix_of_prefix_length_le h1 h2 (by simp; omega)
    obtain ⟨y, hy⟩ := hp
    have h0 := hb a y (by rw [← hy]; simp)
    subst h0
    have := congrArg List.length hy
    simp at this
    omega
  have hlen : a.length = b.length := by
    have h1 := key hb h
    have h2 := key ha h.symm
    omega
  obtain ⟨h1, h2⟩ := List.append_inj h hlen
  simp at h2
  exact ⟨h1, h2⟩

theorem piece_unique {x y w w' : List Char} (hx : BlankPiece x) (hy : BlankPiece y)
    (h : x ++ w = y ++ w') : x = y := by
  rcases hx with ⟨c, hc, rfl⟩ | ⟨a, ha, rfl⟩ | ⟨a, rfl, ha⟩ <;>
    rcases hy with ⟨d, hd, rfl⟩ | ⟨b, hb, rfl⟩ | ⟨b, rfl, hb⟩
  · simp at h; rw [h.1]
  · simp at h; exact absurd h.1 (space_ne_slash hc)
  · simp at h; exact absurd h.1 (space_ne_slash hc)
  · simp at h; exact absurd h.1.symm (space_ne_slash hd)
  · simp at h; rw [(lineBody_unique ha hb h).1]
  · simp at h
  · simp at h; exact absurd h.1.symm (space_ne_slash hd)
  · simp at h
  · simp at h; rw [(commentBody_unique ha hb h).1]

theorem pieces_unique {ps qs : List (List Char)} {u v : List Char} (hp : BlankPieces ps)
    (hq : BlankPieces qs) (hu : NoBlank u) (hv : NoBlank v) (h : ps.flatten ++ u = qs.flatten ++ v) :
    ps = qs ∧ u = v := by
  induction ps generalizing qs with
  | nil =>
    cases qs with
    | nil => exact ⟨rfl, h⟩
    | cons y qs =>
      simp only [List.flatten_nil, List.nil_append, List.flatten_cons, List.append_assoc] at h
      rw [h] at hu
      exact absurd hu (blankPiece_head (hq y (by simp)) _)
  | cons x ps ih =>
    cases qs with
    | nil =>
      simp only [List.flatten_nil, List.nil_append, List.flatten_cons, List.append_assoc] at h
      rw [← h] at hv
      exact absurd hv (blankPiece_head (hp x (by simp)) _)
    | cons y qs =>
      simp only [List.flatten_cons, List.append_assoc] at h
      have hxy := piece_unique (hp x (by simp)) (hq y (by simp)) h
      subst hxy
      obtain ⟨h1, h2⟩ := ih (fun z hz => hp z (by simp [hz])) (fun z hz => hq z (by simp [hz]))
        (List.append_cancel_left h)
      exact ⟨by rw [h1], h2⟩

theorem blankText_unique {b b' u v : List Char} {x y : Bool} (h : BlankText b x) (h' : BlankText b' y)
    (hu : NoBlank u) (hv : NoBlank v) (he : b ++ u = b' ++ v) : b = b' ∧ x = y ∧ u = v := by
  obtain ⟨ps, h1, rfl, h2⟩ := h
  obtain ⟨qs, h3, rfl, h4⟩ := h'
  obtain ⟨rfl, rfl⟩ := pieces_unique h1 h3 hu hv he
  exact ⟨rfl, by rw [Bool.eq_iff_iff, h2, h4], rfl⟩

theorem blankLine_complete {rule : Rule} {broken : Bool} {body w : List Char} (h : '\n' ∉ body)
    (p : Position) : blankLine rule broken (body ++ '\n' :: w) p
      = blankLoop rule 1 broken w (after p (body ++ ['\n'])) := by
  induction body generalizing p with
  | nil => rw [List.nil_append, blankLine, if_pos rfl]; rfl
  | cons c cs ih =>
    simp only [List.mem_cons, not_or] at h
    rw [List.cons_append, blankLine, if_neg (fun e => h.1 e.symm), ih h.2, List.cons_append, after_cons]

theorem blankComment_complete {rule : Rule} {broken : Bool} {body w : List Char}
    (h : ClosesOnce body) (p : Position) :
    blankComment rule broken (body ++ '*' :: '/' :: w) p
      = blankLoop rule 0 broken w (after p (body ++ ['*', '/'])) := by
  induction body generalizing p with
  | nil =>
    rw [List.nil_append, blankComment, if_pos (by simp), List.nil_append, after_cons, after_cons]; rfl
  | cons c cs ih =>
    obtain ⟨h1, h2⟩ := closesOnce_tail h
    obtain ⟨d, ds, hd⟩ : ∃ d ds, cs ++ ['*', '/'] = d :: ds := by
      cases cs with
      | nil => exact ⟨_, _, rfl⟩
      | cons a b => exact ⟨_, _, rfl⟩
    have e : cs ++ '*' :: '/' :: w = d :: (ds ++ w) := by
      have : cs ++ '*' :: '/' :: w = (cs ++ ['*', '/']) ++ w := by simp
      rw [this, hd]; rfl
    rw [List.cons_append, e, blankComment, if_neg (by simpa using h2 d ds hd), ← e, ih h1,
      List.cons_append, after_cons]

theorem blankLoop_piece {rule : Rule} {x : List Char} (hx : BlankPiece x) (nl : Nat) (broken : Bool)
    (w : List Char) (p : Position) : ∃ nl' broken',
      blankLoop rule nl broken (x ++ w) p = blankLoop rule nl' broken' w (after p x) := by
  rcases hx with ⟨c, hc, rfl⟩ | ⟨a, ha, rfl⟩ | ⟨a, rfl, ha⟩
  · have hs := (isSpace_iff c).2 hc
    have hne := space_ne_slash hc
    cases w with
    | nil =>
      rw [List.append_nil, blankLoop, if_pos hs, after_cons]
      exact ⟨0, _, by rw [blankLoop]; rfl⟩
    | cons d ds =>
      rw [List.singleton_append, blankLoop, if_neg (by simp [hne]), if_neg (by simp [hne]),
        if_neg (by simp [hs]), after_cons]
      split
      · exact ⟨_, _, rfl⟩
      · exact ⟨_, _, rfl⟩
  · refine ⟨1, broken, ?_⟩
    have e : '/' :: '/' :: (a ++ ['\n']) ++ w = '/' :: '/' :: (a ++ '\n' :: w) := by simp
    rw [e, blankLoop, if_pos (by simp), if_neg (by cases a <;> simp), blankLine_complete ha,
      after_cons, after_cons]
  · refine ⟨0, broken, ?_⟩
    have e : '/' :: '*' :: (a ++ ['*', '/']) ++ w = '/' :: '*' :: (a ++ '*' :: '/' :: w) := by simp
    rw [e, blankLoop, if_neg (by simp), if_pos (by simp), if_neg (by cases a <;> simp),
      blankComment_complete ha, after_cons, after_cons]

theorem blankLoop_noBlank {rule : Rule} {u : List Char} (h : NoBlank u) (nl : Nat) (broken : Bool)
    (p : Position) : blankLoop rule nl broken u p = .ok broken ⟨p, u⟩ := by
  match u, h with
  | [], _ => rw [blankLoop]
  | [c], h =>
    have hc := h.1 c rfl
    rw [← isSpace_iff] at hc
    rw [blankLoop, if_neg hc]
  | c :: d :: ds, h =>
    have hc := h.1 c rfl
    rw [← isSpace_iff] at hc
    have h2 := h.2
    rw [blankLoop, if_neg, if_neg, if_pos (by simpa using hc)]
    · simp only [Bool.and_eq_true, decide_eq_true_eq, not_and]
      rintro rfl rfl
      exact h2 ⟨ds, .inr rfl⟩
    · simp only [Bool.and_eq_true, decide_eq_true_eq, not_and]
      rintro rfl rfl
      exact h2 ⟨ds, .inl rfl⟩

theorem blankLoop_pieces {rule : Rule} {ps : List (List Char)} (hp : BlankPieces ps) {u : List Char}
    (hu : NoBlank u) (nl : Nat) (broken : Bool) (p : Position) : ∃ b,
      blankLoop rule nl broken (ps.flatten ++ u) p = .ok b ⟨after p ps.flatten, u⟩ := by
  induction ps generalizing nl broken p with
  | nil => exact ⟨broken, blankLoop_noBlank hu _ _ _⟩
  | cons x ps ih =>
    obtain ⟨nl', broken', h1⟩ := blankLoop_piece (rule := rule) (hp x (by simp)) nl broken
      (ps.flatten ++ u) p
    obtain ⟨b, h2⟩ := ih (fun y hy => hp y (by simp [hy])) nl' broken' (after p x)
    refine ⟨b, ?_⟩
    rw [List.flatten_cons, List.append_assoc, h1, h2, after_append]

/-- `match_blank` matches the blank, and knows whether there is an empty line in it. -/
theorem matchBlank_complete {rule : Rule} {b u : List Char} {broken : Bool} (h : BlankText b broken)
    (hu : NoBlank u) (p : Position) :
    matchBlank rule ⟨p, b ++ u⟩ = .ok broken ⟨after p b, u⟩ := by
  obtain ⟨ps, h1, rfl, h2⟩ := h
  obtain ⟨b', h3⟩ := blankLoop_pieces (rule := rule) h1 hu 0 false p
  have h4 : matchBlank rule ⟨p, ps.flatten ++ u⟩ = .ok b' ⟨after p ps.flatten, u⟩ := h3
  have h5 := matchBlank_res rule ⟨p, ps.flatten ++ u⟩
  rw [h4] at h5
  obtain ⟨qs, h6, h7, -, h8, h9⟩ := h5
  simp only at h7 h8
  obtain ⟨rfl, -⟩ := pieces_unique h1 h6 hu h8 h7
  rw [h4]
  have : b' = broken := by
    rw [Bool.eq_iff_iff, h9, h2, pending_false]; simp
  rw [this]

theorem matchBlankRule_complete {b u : List Char} (h : BlankText b false) (hu : NoBlank u)
    (p : Position) : matchBlankRule ⟨p, b ++ u⟩ = .ok b.length ⟨after p b, u⟩ := by
  unfold matchBlankRule
  rw [run_get_bind, run_bind, matchBlank_complete h hu]
  simp only [Bool.false_eq_true, if_false]
  rw [run_get_bind, start_after]
  rfl

/-! ### Identifiers -/

theorem run_ok_bind {x : PM α} {f : α → PM β} {s s' : St} {a : α} (h : x s = .ok a s') :
    (x >>= f) s = f a s' := by rw [run_bind, h]

theorem expect_complete (c : Char) (rule : Rule) (p : Position) (r : List Char) :
    expect c rule ⟨p, c :: r⟩ = .ok () ⟨after p [c], r⟩ := by
  unfold expect
  simp only [ne_eq, not_true_eq_false, if_false]
  rw [after_one]
  rfl

/-- `match_identifier` finds the longest identifier. -/
theorem matchIdent_complete {name r : List Char} (h : Ident name)
    (hr : ∀ c, r.head? = some c → ¬ IdentPart c) (p : Position) :
    matchIdent ⟨p, name ++ r⟩ = .ok (p, name) ⟨after p name, r⟩ := by
  have hne : name ≠ [] := by rintro rfl; exact h
  have hpos : 0 < name.length := List.length_pos_iff.2 hne
  have hlen : matchIdentifier (name ++ r) = name.length := by
    rcases C18_match_identifier (name ++ r) with ⟨-, hno⟩ | ⟨-, hle, hi, hmax⟩
    · exact absurd (by rw [List.take_left]; exact h) (hno name.length)
    · generalize matchIdentifier (name ++ r) = n at *
      rcases Nat.lt_trichotomy n name.length with hlt | heq | hgt
      · exact absurd (by rw [List.take_left]; exact h) (hmax name.length hlt (by simp))
      · exact heq
      · cases r with
        | nil => simp at hle; omega
        | cons c cs =>
          refine absurd (ident_parts hi c ?_) (hr c rfl)
          obtain ⟨k, rfl⟩ : ∃ k, n = name.length + (k + 1) := ⟨n - name.length - 1, by omega⟩
          rw [List.take_append]
          simp
  unfold matchIdent
  rw [run_get_bind]
  simp only [hlen]
  rw [run_ite, if_neg (by simp [St.eof, hne]), run_ite, if_neg (by omega), run_set_bind]
  rw [skip_ident (by simp) (by simp only [List.take_left]; exact ident_parts h)]
  simp only [List.take_left, List.drop_left]
  rfl

theorem ident_unique {t r t' r' : List Char} (h : Ident t) (h' : Ident t')
    (hr : ∀ c, r.head? = some c → ¬ IdentPart c) (hr' : ∀ c, r'.head? = some c → ¬ IdentPart c)
    (he : t ++ r = t' ++ r') : t = t' ∧ r = r' := by
  have h1 := matchIdent_complete h hr ⟨0, 0, 0⟩
  rw [he, matchIdent_complete h' hr'] at h1
  simp only [Res.ok.injEq, Prod.mk.injEq, true_and, St.mk.injEq] at h1
  exact ⟨h1.1.symm, h1.2.2.symm⟩

/-! ### Directives -/

/-- `match_directive` after the name. -/
def directiveRest (n : Nat) (start : Position) (type : DirType) (name : List Char) :
    PM (DirType × Node) :=
  PM.get >>= fun s1 => (if s1.peek '[' then matchArguments n else pure []) >>= fun args =>
  PM.get >>= fun s2 => (if s2.peek '{' then matchDirectiveContent n (contentTypeOf type)
    else pure none) >>= fun block =>
  PM.get >>= fun s3 =>
  pure (type, .directive start (s3.pos.start - start.start) type name args block)

theorem ite_bind {c : Prop} [Decidable c] {x y : PM α} {f : α → PM β} :
    (if c then x >>= f else y >>= f) = (if c then x else y) >>= f := by
  split <;> rfl

theorem matchDirective_named {n : Nat} {context : ContentType} {name r : List Char} {type : DirType}
    (hid : Ident name) (hr : ∀ c, r.head? = some c → ¬ IdentPart c)
    (hc : contentAllowsDirectives context = true)
    (htype : directiveTypeById name = .found type)
    (hallow : contentAllows context (environmentOf type) = true) (p : Position) :
    matchDirective (n + 1) context ⟨p, '\\' :: (name ++ r)⟩
      = directiveRest n p type name ⟨after p ('\\' :: name), r⟩ := by
  rw [matchDirective, run_require_bind, if_pos hc, run_get_bind, run_ok_bind (expect_complete _ _ _ _),
    run_ok_bind (matchIdent_complete hid hr _)]
  simp only [htype]
  rw [if_neg (by simp [hallow])]
  rw [← after_append]
  unfold directiveRest
  simp only [← ite_bind]
  rfl

end Bms.Bmd
