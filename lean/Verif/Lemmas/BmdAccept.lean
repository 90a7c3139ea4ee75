import Verif.Lemmas.BmdUnique
import Verif.Lemmas.BmdEnds
import Verif.Props.Bmd

/-! The BMD parser accepts what is written: completeness of its functions. -/

namespace Bms.Bmd

open Spec (Ident IdentPart IdentStart Literal LowerCase)

/-! ### Literals and values -/

theorem digits_unique {base : Nat} {t : List Char} {v v' : Nat} (h : Spec.Digits base t v)
    (h' : Spec.Digits base t v') : v = v' := by
  obtain ⟨ds, h1, -, h2⟩ := h
  obtain ⟨ds', h1', -, h2'⟩ := h'
  rw [h1] at h1'
  have := congrArg (List.filterMap id) h1'
  simp only [List.filterMap_map, Function.comp_def, id, List.filterMap_some] at this
  rw [← h2, ← h2', this]

theorem not_digits_cons {base : Nat} {c : Char} {t : List Char} {v : Nat}
    (hc : Spec.digitOf c = none ∨ ∃ e, Spec.digitOf c = some e ∧ base ≤ e)
    (hd : Spec.Digits base (c :: t) v) : False := by
  obtain ⟨ds, h1, h2, -⟩ := hd
  cases ds with
  | nil => simp at h1
  | cons x xs =>
    simp only [List.map_cons, List.cons.injEq] at h1
    rcases hc with hc | ⟨e, hc, he⟩
    · rw [hc] at h1; simp at h1
    · rw [hc] at h1
      simp only [Option.some.injEq] at h1
      have := h2 x (by simp)
      omega

theorem literal_unique {k k' : LiteralType} {t : List Char} {v v' : Nat} (h : Literal k t v)
    (h' : Literal k' t v') : k = k' ∧ v = v' := by
  have hb : Spec.digitOf 'b' = none ∨ ∃ e, Spec.digitOf 'b' = some e ∧ 8 ≤ e := .inr ⟨11, by decide, by decide⟩
  have hx : Spec.digitOf 'x' = none ∨ ∃ e, Spec.digitOf 'x' = some e ∧ 8 ≤ e := .inl (by decide)
  cases h with
  | binary _ hd =>
    cases h' with
    | binary _ hd' => exact ⟨rfl, digits_unique hd hd'⟩
    | octal _ hd' => exact (not_digits_cons hb hd').elim
    | decimal hc _ => exact absurd rfl hc
  | hexadecimal _ hd =>
    cases h' with
    | hexadecimal _ hd' => exact ⟨rfl, digits_unique hd hd'⟩
    | octal _ hd' => exact (not_digits_cons hx hd').elim
    | decimal hc _ => exact absurd rfl hc
  | octal hne hd =>
    cases h' with
    | binary _ hd' => exact (not_digits_cons hb hd).elim
    | hexadecimal _ hd' => exact (not_digits_cons hx hd).elim
    | octal _ hd' => exact ⟨rfl, digits_unique hd hd'⟩
    | zero => exact absurd rfl hne
    | decimal hc _ => exact absurd rfl hc
  | zero =>
    cases h' with
    | octal hne _ => exact absurd rfl hne
    | zero => exact ⟨rfl, rfl⟩
    | decimal hc _ => exact absurd rfl hc
  | decimal hc hd =>
    cases h' with
    | decimal _ hd' => exact ⟨rfl, digits_unique hd hd'⟩
    | _ => exact absurd rfl hc

theorem literal_ne_nil {k : LiteralType} {t : List Char} {v : Nat} (h : Literal k t v) : t ≠ [] := by
  cases h <;> simp

theorem identPart_contains {c : Char} (h : ¬ IdentPart c) :
    identifierCharacters.contains c = false := by
  rw [← Bool.not_eq_true, identifierCharacters_contains]
  exact h

theorem matchIntegerLiteral_complete {k : LiteralType} {t r : List Char} {m : Nat}
    (h : Literal k t m) (hr : ∀ c, r.head? = some c → ¬ IdentPart c) :
    matchIntegerLiteral (t ++ r) = .ok t.length k := by
  have hne := literal_ne_nil h
  have hpos : 0 < t.length := List.length_pos_iff.2 hne
  cases hm : matchIntegerLiteral (t ++ r) with
  | no_digits =>
    exact absurd (by rw [List.take_left]; exact h) ((C16_match_complete (s := t ++ r)).1 hm t.length k m)
  | no_digits_following_prefix k' =>
    have h2 := (C16_match_complete (s := t ++ r)).2 k' hm
    by_cases h1 : 2 ≤ t.length
    · exact absurd (by rw [List.take_left]; exact h) (h2.2 t.length k m h1 (by simp))
    · exfalso
      -- the prefix has a letter at the second place, which is no part of the literal
      obtain ⟨c, rfl⟩ : ∃ c, t = [c] := List.length_eq_one_iff.1 (by omega)
      rcases h2.1 with ⟨-, u, hu⟩ | ⟨-, u, hu⟩
      · cases r with
        | nil => simp at hu
        | cons d ds =>
          simp at hu
          exact hr d rfl (by rw [← hu.2.1]; decide)
      · cases r with
        | nil => simp at hu
        | cons d ds =>
          simp at hu
          exact hr d rfl (by rw [← hu.2.1]; decide)
  | ok n k' =>
    obtain ⟨h0, hle, ⟨v, hv⟩, hmax⟩ := C16_match_sound hm
    rcases Nat.lt_trichotomy n t.length with hlt | heq | hgt
    · exact absurd (by rw [List.take_left]; exact h) (hmax t.length k m hlt (by simp))
    · subst heq
      rw [List.take_left] at hv
      rw [(literal_unique h hv).1]
    · cases r with
      | nil => simp at hle; omega
      | cons c cs =>
        refine absurd (literal_parts hv c ?_) (hr c rfl)
        obtain ⟨j, rfl⟩ : ∃ j, n = t.length + (j + 1) := ⟨n - t.length - 1, by omega⟩
        rw [List.take_append]
        simp

theorem matchLiteral_reads {k : LiteralType} {t r : List Char} {m : Nat}
    (h : Literal k t m) (hr : ∀ c, r.head? = some c → ¬ IdentPart c) (hl : LowerCase t)
    (hm : m < 2 ^ 127) (p : Position) :
    matchLiteral ⟨p, t ++ r⟩ = .ok (.number p t.length (toInt64 m) k) ⟨after p t, r⟩ := by
  have hne := literal_ne_nil h
  have hskip : (⟨p, t ++ r⟩ : St).skip t.length = ⟨after p t, r⟩ := by
    rw [skip_ident (by simp) (by simp only [List.take_left]; exact literal_parts h)]
    simp
  unfold matchLiteral
  rw [run_get_bind, run_ite, if_neg (by simp [St.eof, hne])]
  simp only [matchIntegerLiteral_complete h hr]
  have hend : ¬ (List.drop t.length (t ++ r)).head?.any (identifierCharacters.contains ·) = true := by
    rw [List.drop_left]
    cases hh : r.head? with
    | none => simp
    | some c => simpa using identPart_contains (hr c hh)
  rw [if_neg hend]
  rw [List.take_left, (C15_integer_literal_partial h hl).1 hm]
  simp only
  rw [run_set_bind, hskip]
  rfl

theorem matchLiteral_complete {k : LiteralType} {t r : List Char} {m : Nat}
    (h : Literal k t m) (hr : ∀ c, r.head? = some c → ¬ IdentPart c) (hl : LowerCase t)
    (hm : m < 2 ^ 63) (p : Position) :
    matchLiteral ⟨p, t ++ r⟩ = .ok (.number p t.length m k) ⟨after p t, r⟩ := by
  rw [matchLiteral_reads h hr hl (Nat.lt_trans hm (by decide)), toInt64_small hm]

theorem ident_start {c : Char} {cs : List Char} (h : Ident (c :: cs)) : isDecimalDigit c = false := by
  rw [← Bool.not_eq_true, isDecimalDigit_iff]
  have := h.1
  intro h2
  unfold IdentStart Spec.InRange at this
  unfold Spec.InRange at h2
  have e1 : 'a'.toNat = 97 := rfl
  have e2 : 'z'.toNat = 122 := rfl
  have e3 : 'A'.toNat = 65 := rfl
  have e4 : 'Z'.toNat = 90 := rfl
  have e5 : '0'.toNat = 48 := rfl
  have e6 : '9'.toNat = 57 := rfl
  rcases this with rfl | h | h
  · revert h2; decide
  · omega
  · omega

theorem literal_start {k : LiteralType} {t : List Char} {m : Nat} (h : Literal k t m) :
    t.head?.any isDecimalDigit = true := by
  have z : isDecimalDigit '0' = true := by decide
  cases h with
  | @decimal c t _ hc hd =>
    obtain ⟨ds, h1, h2, -⟩ := hd
    cases ds with
    | nil => simp at h1
    | cons x xs =>
      simp only [List.map_cons, List.cons.injEq] at h1
      have hx := h2 x (by simp)
      show isDecimalDigit c = true
      rw [isDecimalDigit_iff]
      have h1 := h1.1
      unfold Spec.digitOf at h1
      split at h1
      · next h => exact h
      · split at h1
        · simp at h1; omega
        · split at h1
          · simp at h1; omega
          · cases h1
  | _ => exact z

/-- `match_value` reads the value. -/
theorem matchValue_complete {v : Value} {p : Position} {t r : List Char} (h : ValueIs v p t)
    (hr : ∀ c, r.head? = some c → ¬ IdentPart c)
    (hn : ∀ k m, Literal k t m → LowerCase t ∧ m < 2 ^ 63) :
    matchValue ⟨p, t ++ r⟩ = .ok v ⟨after p t, r⟩ := by
  unfold matchValue
  rw [run_get_bind]
  cases h with
  | ident hid =>
    have : ¬ (t ++ r).head?.any isDecimalDigit = true := by
      cases t with
      | nil => exact hid.elim
      | cons c cs => simpa using ident_start hid
    rw [run_ite, if_neg this, run_ok_bind (matchIdent_complete hid hr p)]
    rfl
  | number hl =>
    obtain ⟨m, hl, hv⟩ := hl
    obtain ⟨hlow, hm⟩ := hn _ _ hl
    have : (t ++ r).head?.any isDecimalDigit = true := by
      have := literal_start hl
      cases t with
      | nil => cases this
      | cons c cs => exact this
    rw [run_ite, if_pos this, matchLiteral_complete hl hr hlow hm, hv hlow hm]

theorem blankText_head {b : List Char} {broken : Bool} (h : BlankText b broken) :
    b = [] ∨ ∃ c cs, b = c :: cs ∧ (Space c ∨ c = '/') := by
  obtain ⟨ps, h1, rfl, -⟩ := h
  cases ps with
  | nil => exact .inl rfl
  | cons x xs =>
    right
    rcases h1 x (by simp) with ⟨c, hc, rfl⟩ | ⟨a, -, rfl⟩ | ⟨a, rfl, -⟩
    · exact ⟨c, _, rfl, .inl hc⟩
    · exact ⟨_, _, rfl, .inr rfl⟩
    · exact ⟨_, _, rfl, .inr rfl⟩

theorem blank_not_ident {b r : List Char} {broken : Bool} (h : BlankText b broken)
    (hr : ∀ c, r.head? = some c → ¬ IdentPart c) : ∀ c, (b ++ r).head? = some c → ¬ IdentPart c := by
  rcases blankText_head h with rfl | ⟨c, cs, rfl, hc⟩
  · exact hr
  · intro d hd
    simp only [List.cons_append, List.head?_cons, Option.some.injEq] at hd
    subst hd
    rcases hc with hc | rfl
    · exact fun h => identPart_dark h hc
    · decide

theorem noBlank_char {c : Char} (h1 : ¬ Space c) (h2 : c ≠ '/') (r : List Char) : NoBlank (c :: r) :=
  ⟨by intro d hd; simp at hd; subst hd; exact h1, not_commentStart_of_ne h2 _⟩

theorem identPart_noBlank {c : Char} (h : IdentPart c) (r : List Char) : NoBlank (c :: r) :=
  noBlank_char (identPart_dark h) (by rintro rfl; revert h; decide) r

theorem parts_noBlank {t : List Char} (h : ∀ c ∈ t, IdentPart c) (hne : t ≠ []) (r : List Char) :
    NoBlank (t ++ r) := by
  cases t with
  | nil => exact absurd rfl hne
  | cons c cs => exact identPart_noBlank (h c (by simp)) _

theorem value_parts {v : Value} {p : Position} {t : List Char} (h : ValueIs v p t) :
    (∀ c ∈ t, IdentPart c) ∧ t ≠ [] := by
  cases h with
  | ident h => exact ⟨ident_parts h, by rintro rfl; exact h⟩
  | number h =>
    obtain ⟨m, h, -⟩ := h
    exact ⟨literal_parts h, literal_ne_nil h⟩

/-- The numbers in arguments are such as the parser reads them. -/
def Numbers (w : List Char) : Prop :=
  ∀ a b t r k m, w = a ++ '=' :: (b ++ t ++ r) → BlankText b false → Literal k t m →
    LowerCase t ∧ m < 2 ^ 63

/-- One argument up to the separator. -/
theorem argument_complete {n : Nat} {args : List (List Char × Value)} {name b1 b2 b3 b4 t r : List Char}
    {v : Value} {p : Position} (hB1 : BlankText b1 false) (hid : Ident name)
    (hdup : name ∉ args.map Prod.fst) (hB2 : BlankText b2 false) (hB3 : BlankText b3 false)
    (hv : ValueIs v (after p (b1 ++ name ++ b2 ++ '=' :: b3)) t) (hB4 : BlankText b4 false)
    (hn : ∀ k m, Literal k t m → LowerCase t ∧ m < 2 ^ 63) {c : Char} (hc : c = ',' ∨ c = ']') :
    argumentsLoop (n + 1) args ⟨p, b1 ++ name ++ b2 ++ '=' :: b3 ++ t ++ b4 ++ c :: r⟩
      = if c = ',' then argumentsLoop n (args ++ [(name, v)])
          ⟨after p (b1 ++ name ++ b2 ++ '=' :: b3 ++ t ++ b4 ++ [c]), r⟩
        else .ok (args ++ [(name, v)]) ⟨after p (b1 ++ name ++ b2 ++ '=' :: b3 ++ t ++ b4), c :: r⟩ := by
  have hcp : ∀ d, (c :: r).head? = some d → ¬ IdentPart d := by
    intro d hd
    simp at hd; subst hd
    rcases hc with rfl | rfl <;> decide
  have hcn : NoBlank (c :: r) := by
    rcases hc with rfl | rfl
    · exact noBlank_char (by unfold Space; decide) (by decide) r
    · exact noBlank_char (by unfold Space; decide) (by decide) r
  have heq : ∀ d x, ('=' :: x).head? = some d → ¬ IdentPart d := by
    intro d x hd
    simp at hd; subst hd
    decide
  have hne : name ≠ [] := by rintro rfl; exact hid
  have hany : ¬ args.any (fun a => decide (a.1 = name)) = true := by
    simp only [List.any_eq_true, decide_eq_true_eq, not_exists, not_and]
    intro a ha he
    exact hdup (List.mem_map.2 ⟨a, ha, he⟩)
  have e : b1 ++ name ++ b2 ++ '=' :: b3 ++ t ++ b4 ++ c :: r
      = b1 ++ (name ++ (b2 ++ '=' :: (b3 ++ (t ++ (b4 ++ c :: r))))) := by simp
  rw [e, argumentsLoop,
    run_ok_bind (matchBlankRule_complete hB1 (parts_noBlank (ident_parts hid) hne _) p),
    run_get_bind,
    run_ok_bind (matchIdent_complete hid (blank_not_ident hB2 (fun d hd => heq d _ hd)) _)]
  simp only
  rw [run_ok_bind (matchBlankRule_complete hB2 (noBlank_char (by unfold Space; decide) (by decide) _) _),
    run_ok_bind (expect_complete _ _ _ _),
    run_ok_bind (matchBlankRule_complete hB3 (parts_noBlank (value_parts hv).1 (value_parts hv).2 _) _)]
  have hpos : after (after (after (after (after p b1) name) b2) ['=']) b3
      = after p (b1 ++ name ++ b2 ++ '=' :: b3) := by
    simp [← after_append]
  rw [hpos, run_ok_bind (matchValue_complete hv (blank_not_ident hB4 hcp) hn), if_neg hany,
    run_ok_bind (matchBlankRule_complete hB4 hcn _), run_get_bind]
  rw [if_neg (by simp [St.eof])]
  rcases hc with rfl | rfl
  · rw [if_pos (by simp [St.peek]), run_ok_bind (expect_complete _ _ _ _), if_pos rfl]
    simp [← after_append]
  · rw [if_neg (by simp [St.peek]), if_neg (by decide)]
    rw [← after_append, ← after_append]
    simp only [List.append_assoc]
    rfl

theorem numbers_of {w a b c : List Char} (h : Numbers w) (hw : w = a ++ b ++ c) : Numbers b := by
  rintro x y t r k m rfl hB hl
  exact h (a ++ x) y t (r ++ c) k m (by rw [hw]; simp) hB hl

theorem argumentsLoop_complete {seen : List (List Char)} {new : List (List Char × Value)}
    {p : Position} {u : List Char} (h : ArgsIs seen new p u) : ∀ (n : Nat)
    (args : List (List Char × Value)) (r : List Char), seen = (args.map Prod.fst).reverse → Numbers u →
    u.length ≤ n → ∃ w, u = w ++ [']'] ∧
      argumentsLoop n args ⟨p, u ++ r⟩ = .ok (args ++ new) ⟨after p w, ']' :: r⟩ := by
  induction h with
  | @last seen name v p b1 b2 b3 b4 t hB1 hid hdup hB2 hB3 hv hB4 =>
    intro n args r hs hn hlen
    refine ⟨_, rfl, ?_⟩
    obtain ⟨m, rfl⟩ : ∃ m, n = m + 1 := ⟨n - 1, by simp at hlen; omega⟩
    rw [List.append_assoc _ [']'] r, List.singleton_append,
      argument_complete hB1 hid (by rw [hs] at hdup; simpa using hdup) hB2 hB3 hv hB4
        (fun k m hl => hn (b1 ++ name ++ b2) b3 t (b4 ++ [']']) k m (by simp) hB3 hl) (.inr rfl),
      if_neg (by decide)]
  | @more seen name v p b1 b2 b3 b4 t args' u hB1 hid hdup hB2 hB3 hv hB4 _ ih =>
    intro n args r hs hn hlen
    obtain ⟨m, rfl⟩ : ∃ m, n = m + 1 := ⟨n - 1, by simp at hlen; omega⟩
    obtain ⟨w, rfl, hw⟩ := ih m (args ++ [(name, v)]) r (by rw [hs]; simp)
      (numbers_of (a := b1 ++ name ++ b2 ++ '=' :: b3 ++ t ++ b4 ++ [',']) (c := []) hn (by simp))
      (by simp at hlen ⊢; omega)
    refine ⟨b1 ++ name ++ b2 ++ '=' :: b3 ++ t ++ b4 ++ ',' :: w, by simp, ?_⟩
    have e : b1 ++ name ++ b2 ++ '=' :: b3 ++ t ++ b4 ++ ',' :: (w ++ [']']) ++ r
        = b1 ++ name ++ b2 ++ '=' :: b3 ++ t ++ b4 ++ ',' :: (w ++ [']'] ++ r) := by simp
    rw [e, argument_complete hB1 hid (by rw [hs] at hdup; simpa using hdup) hB2 hB3 hv hB4
        (fun k m hl => hn (b1 ++ name ++ b2) b3 t (b4 ++ ',' :: (w ++ [']'])) k m (by simp) hB3 hl)
        (.inl rfl),
      if_pos rfl, hw, ← after_append]
    simp

/-- `match_arguments` reads the arguments. -/
theorem matchArguments_complete {args : List (List Char × Value)} {p : Position} {a : List Char}
    (h : ArgumentsIs args p a) (hne : a ≠ []) (hn : Numbers a) {n : Nat} (hlen : a.length ≤ n)
    (r : List Char) : matchArguments n ⟨p, a ++ r⟩ = .ok args ⟨after p a, r⟩ := by
  cases h with
  | none => exact absurd rfl hne
  | @some _ _ t ha =>
    obtain ⟨w, rfl, hw⟩ := argumentsLoop_complete ha n [] r rfl
      (numbers_of (a := ['[']) (c := []) hn (by simp)) (by simp at hlen ⊢; omega)
    unfold matchArguments
    rw [List.cons_append, run_ok_bind (expect_complete _ _ _ _), run_ok_bind hw,
      run_ok_bind (expect_complete _ _ _ _)]
    simp [← after_append]
    rfl

/-! ### Nodes without spans of paragraphs -/

theorem plainAll_eq (l : List Node) : plainAll l = l.map Node.plain := by
  induction l with
  | nil => simp [plainAll]
  | cons n ns ih => rw [plainAll, ih]; rfl

theorem standsAlone_plain (n : Node) : standsAlone n.plain = standsAlone n := by
  cases n <;> simp [Node.plain, standsAlone]

def plainPair (x : Node × Bool) : Node × Bool := (x.1.plain, x.2)

def plainGroup : Group → Group
  | .paragraph ns => .paragraph (ns.map Node.plain)
  | .single n => .single n.plain

/-- The nodes of groups, with paragraphs that have no span. -/
def showing (gs : List Group) : List Node := gs.map fun
  | .paragraph ns => .list ⟨0, 0, 0⟩ 0 ns
  | .single n => n

theorem joinFront_plain (n : Node) (gs : List Group) :
    joinFront n.plain (gs.map plainGroup) = (joinFront n gs).map plainGroup := by
  cases gs with
  | nil => rfl
  | cons g gs => cases g <;> rfl

theorem paragraphs_plain (l : List (Node × Bool)) :
    paragraphs (l.map plainPair) = (paragraphs l).map plainGroup := by
  induction l with
  | nil => rfl
  | cons x xs ih =>
    obtain ⟨n, b⟩ := x
    simp only [List.map_cons, plainPair, paragraphs, standsAlone_plain, ih]
    split
    · rfl
    · split
      · rfl
      · exact joinFront_plain _ _

theorem shows_showing {lo hi : Nat} {gs : List Group} {els : List Node} (h : Shows lo hi gs els) :
    els.map Node.plain = showing (gs.map plainGroup) := by
  induction h with
  | nil => rfl
  | single _ _ ih => rw [List.map_cons, ih]; rfl
  | paragraph _ _ _ ih => rw [List.map_cons, ih, Node.plain, plainAll_eq]; rfl

theorem shows_plain {lo hi : Nat} {nodes : List (Node × Bool)} {els : List Node}
    (h : Shows lo hi (paragraphs nodes) els) :
    els.map Node.plain = showing (paragraphs (nodes.map plainPair)) := by
  rw [paragraphs_plain]; exact shows_showing h

theorem showing_append (a b : List Group) : showing (a ++ b) = showing a ++ showing b :=
  List.map_append

theorem break_plain (elements par : List Node) (start now : Position) :
    (breakParagraph elements par start now).1.map Node.plain
      = elements.map Node.plain ++ showing (pendingGroups (par.map Node.plain)) := by
  unfold breakParagraph pendingGroups
  cases par with
  | nil => simp [showing]
  | cons x xs => simp [showing, Node.plain, plainAll_eq]

/-! ### Blocks -/

theorem matchInside_complete {inner : PM (Option Node)} {p : Position} {t r : List Char}
    {res : Option Node} (hbal : Balanced t) (hne : t ≠ [])
    (hi : inner ⟨after p ['{'], t⟩ = .ok res ⟨after p ('{' :: t), []⟩) :
    matchInsideBlock inner ⟨p, '{' :: t ++ ['}'] ++ r⟩
      = .ok res ⟨after p ('{' :: t ++ ['}']), r⟩ := by
  have e : '{' :: t ++ ['}'] ++ r = '{' :: t ++ '}' :: r := by simp
  unfold matchInsideBlock
  rw [run_get_bind, e, run_ok_bind (C40_block_partial hbal hne p r), run_set_bind]
  simp only
  rw [← advance_open, run_ok_bind hi, run_get_bind, run_require_bind, if_pos (by simp [St.eof])]
  have hdrop : List.drop ((after p ('{' :: t)).start - p.start) ('{' :: t ++ '}' :: r) = '}' :: r := by
    rw [start_after, List.drop_left]
  simp only [hdrop]
  rw [run_require_bind, if_pos (by simp), run_set_bind, ← advance_close, ← after_append]
  rfl

theorem directive_found {name : List Char} {type : DirType}
    (h : (String.ofList name, type) ∈ directiveTable) : directiveTypeById name = .found type := by
  have all : ∀ e ∈ directiveTable, directiveTypeById e.1.toList = .found e.2 := by decide +kernel
  have := all _ h
  simpa using this

/-! ### The statements -/

theorem Plainly.of {w a b c : List Char} (h : Plainly w) (hw : w = a ++ b ++ c) : Plainly b := by
  constructor
  · rintro x c' d y rfl hd
    exact h.tight (a ++ x) c' d (y ++ c) (by rw [hw]; simp) hd
  · exact numbers_of h.numbers hw

theorem Plainly.blank {t b u : List Char} {broken : Bool} (h : Plainly (t ++ b ++ u)) (ht : EndsDark t)
    (hb : BlankText b broken) : b = [] ∨ ∃ c cs, b = c :: cs ∧ Space c := by
  obtain ⟨x, c, rfl, hc⟩ := ht
  obtain ⟨ps, h1, rfl, -⟩ := hb
  cases ps with
  | nil => exact .inl rfl
  | cons y ys =>
    right
    rcases h1 y (by simp) with ⟨d, hd, rfl⟩ | ⟨a, -, rfl⟩ | ⟨a, rfl, -⟩
    · exact ⟨d, _, rfl, hd⟩
    · exact absurd (h.tight x c '/' (a ++ ['\n'] ++ ys.flatten ++ u) (by simp) (.inl rfl)) hc
    · exact absurd (h.tight x c '*' (a ++ ['*', '/'] ++ ys.flatten ++ u) (by simp) (.inr rfl)) hc

/-- All functions accept what is written, within `n` steps. -/
structure AllAccept (n : Nat) : Prop where
  content : ∀ p t initial elements par start nodes, Plainly t → Series .block nodes p t → NoBlank t →
    (∀ x ∈ par, standsAlone x = false) → 4 * t.length + 10 ≤ n →
    ∃ els, contentLoop n initial elements par start ⟨p, t⟩
        = .ok (some (.list initial ((after p t).start - initial.start) els)) ⟨after p t, []⟩ ∧
      els.map Node.plain = elements.map Node.plain ++
        showing (paragraphs ((par.map Node.plain).map (fun x => (x, false)) ++ nodes.map plainPair))
  next : ∀ p b u broken initial elements par start nodes, Plainly (b ++ u) → BlankText b broken →
    NoBlank u → Series .block nodes (after p b) u → (∀ x ∈ par, standsAlone x = false) →
    4 * (b ++ u).length + 11 ≤ n →
    ∃ els, contentNext n initial elements par start ⟨p, b ++ u⟩
        = .ok (some (.list initial ((after p (b ++ u)).start - initial.start) els))
          ⟨after p (b ++ u), []⟩ ∧
      els.map Node.plain = elements.map Node.plain ++
        showing (if broken then pendingGroups (par.map Node.plain) ++ paragraphs (nodes.map plainPair)
          else paragraphs ((par.map Node.plain).map (fun x => (x, false)) ++ nodes.map plainPair))
  loop : ∀ p b u initial elements nodes, Plainly (b ++ u) → BlankText b false →
    (b = [] ∨ ∃ c cs, b = c :: cs ∧ Space c) → NoBlank u → Series .span nodes (after p b) u →
    (∀ x ∈ nodes, x.2 = false) → 4 * (b ++ u).length + 10 ≤ n →
    ∃ els, paragraphLoop n initial elements ⟨p, b ++ u⟩
        = .ok (some (.list initial ((after p (b ++ u)).start - initial.start) els))
          ⟨after p (b ++ u), []⟩ ∧
      els.map Node.plain = elements.map Node.plain ++ nodes.map (fun x => x.1.plain)
  element : ∀ p u initial elements nodes, Plainly u → NoBlank u → Series .span nodes p u →
    (∀ x ∈ nodes, x.2 = false) → 4 * u.length + 9 ≤ n →
    ∃ els, paragraphElement n initial elements ⟨p, u⟩
        = .ok (some (.list initial ((after p u).start - initial.start) els)) ⟨after p u, []⟩ ∧
      els.map Node.plain = elements.map Node.plain ++ nodes.map (fun x => x.1.plain)
  directive : ∀ context p q len type name args block t r, Plainly t →
    Written (.directive q len type name args block) p t r →
    contentAllows context (environmentOf type) = true → contentAllowsDirectives context = true →
    4 * (t ++ r).length + 5 ≤ n →
    ∃ block', matchDirective n context ⟨p, t ++ r⟩
        = .ok (type, .directive q len type name args block') ⟨after p t, r⟩ ∧
      plainBlock block' = plainBlock block
  block : ∀ type block p b r, Plainly b → BlockIs type block p b → b ≠ [] →
    4 * (b ++ r).length + 5 ≤ n →
    ∃ block', matchDirectiveContent n type ⟨p, b ++ r⟩ = .ok block' ⟨after p b, r⟩ ∧
      plainBlock block' = plainBlock block
  list : ∀ type p t initial elements nodes, contentAllowsOnlyDirectives type = true → Plainly t →
    Series type nodes p t → NoBlank t → 4 * t.length + 10 ≤ n →
    ∃ els, directivesLoop n type initial elements ⟨p, t⟩
        = .ok (some (.list initial ((after p t).start - initial.start) els)) ⟨after p t, []⟩ ∧
      els.map Node.plain = elements.map Node.plain ++ nodes.map (fun x => x.1.plain)

theorem block_start {type : ContentType} {block : Option Node} {p : Position} {b : List Char}
    (h : BlockIs type block p b) : (b = [] ∧ block = none) ∨ ∃ cs, b = '{' :: cs := by
  cases h with
  | none => exact .inl ⟨rfl, rfl⟩
  | _ => exact .inr ⟨_, rfl⟩

theorem directive_accept {n : Nat} (ih : AllAccept n) (context : ContentType) (p q : Position)
    (len : Nat) (type : DirType) (name : List Char) (args : List (List Char × Value))
    (block : Option Node) (t r : List Char) (hpl : Plainly t)
    (hw : Written (.directive q len type name args block) p t r)
    (hal : contentAllows context (environmentOf type) = true)
    (hc : contentAllowsDirectives context = true) (hn : 4 * (t ++ r).length + 5 ≤ n + 1) :
    ∃ block', matchDirective (n + 1) context ⟨p, t ++ r⟩
        = .ok (type, .directive q len type name args block') ⟨after p t, r⟩ ∧
      plainBlock block' = plainBlock block := by
  cases hw with
  | @directive _ _ _ _ a _ b _ hid htab ha hb hpart hna hnb =>
    have e : '\\' :: name ++ a ++ b ++ r = '\\' :: (name ++ (a ++ b ++ r)) := by simp
    rw [e, matchDirective_named hid hpart hc (directive_found htab) hal]
    unfold directiveRest
    rw [run_get_bind]
    have h1 : (if (⟨after p ('\\' :: name), a ++ b ++ r⟩ : St).peek '[' then matchArguments n
        else pure []) ⟨after p ('\\' :: name), a ++ b ++ r⟩
        = .ok args ⟨after p ('\\' :: name ++ a), b ++ r⟩ := by
      by_cases hane : a = []
      · subst hane
        have := hna rfl
        cases ha
        rw [if_neg (by simpa [St.peek] using this)]
        simp
        rfl
      · have hpeek : (⟨after p ('\\' :: name), a ++ b ++ r⟩ : St).peek '[' = true := by
          cases ha with
          | none => exact absurd rfl hane
          | some _ => simp [St.peek]
        rw [if_pos hpeek, List.append_assoc, matchArguments_complete ha hane
          (hpl.of (a := '\\' :: name) (c := b) rfl).numbers (by simp at hn ⊢; omega), ← after_append]
    rw [run_ok_bind h1, run_get_bind]
    have h2 : ∃ block', (if (⟨after p ('\\' :: name ++ a), b ++ r⟩ : St).peek '{' then
        matchDirectiveContent n (contentTypeOf type) else pure none)
          ⟨after p ('\\' :: name ++ a), b ++ r⟩
        = .ok block' ⟨after p ('\\' :: name ++ a ++ b), r⟩ ∧ plainBlock block' = plainBlock block := by
      by_cases hbne : b = []
      · subst hbne
        have := hnb rfl
        rcases block_start hb with ⟨-, rfl⟩ | ⟨cs, h⟩
        · rw [if_neg (by simpa [St.peek] using this)]
          exact ⟨none, by simp; rfl, rfl⟩
        · cases h
      · have hpeek : (⟨after p ('\\' :: name ++ a), b ++ r⟩ : St).peek '{' = true := by
          rcases block_start hb with ⟨h, -⟩ | ⟨cs, h⟩
          · exact absurd h hbne
          · simp [St.peek, h]
        rw [if_pos hpeek]
        obtain ⟨block', h3, h4⟩ := ih.block _ _ _ b r
          (hpl.of (a := '\\' :: name ++ a) (c := []) (by simp)) hb hbne (by simp at hn ⊢; omega)
        exact ⟨block', by rw [h3, ← after_append], h4⟩
    obtain ⟨block', h3, h4⟩ := h2
    refine ⟨block', ?_, h4⟩
    rw [run_ok_bind h3, run_get_bind]
    simp only [start_after]
    rfl

theorem spanText_accept {n : Nat} {p : Position} {b t : List Char} (hB : BlankText b false)
    (ht : t = [] ∨ TextIs t []) :
    spanInside (n + 1) false ⟨p, b ++ t⟩
      = .ok (if t = [] then none else some (.text (after p b) t.length t)) ⟨after p (b ++ t), []⟩ := by
  have hN : NoBlank t := by
    rcases ht with rfl | ht
    · exact noBlank_nil
    · simpa using textIs_noBlank ht
  rw [spanInside, run_ok_bind (matchBlank_complete hB hN p)]
  simp only [Bool.false_eq_true, if_false]
  rcases ht with rfl | ht
  · rw [run_bind]
    have : matchText ⟨after p b, []⟩ = .ok none ⟨after p b, []⟩ := by
      simp [matchText, run_get_bind, textLoop, run_set_bind, run_pure]
    rw [this]
    simp
    rfl
  · have h1 := matchText_complete ht (after p b)
    rw [List.append_nil] at h1
    rw [run_ok_bind h1, run_get_bind, if_neg ht.nonempty, ← after_append]
    rfl

theorem series_eof {context : ContentType} {nodes : List (Node × Bool)} {p : Position}
    (h : Series context nodes p []) : nodes = [] := by
  generalize ht : ([] : List Char) = t at h
  cases h with
  | nil => rfl
  | cons hw _ _ _ _ =>
    have := (written_dark hw).length_pos
    have := congrArg List.length ht
    simp at this
    omega

theorem eof_nil (p : Position) : (⟨p, []⟩ : St).eof = true := rfl

theorem not_eof_dark {t : List Char} (h : EndsDark t) (p : Position) (r : List Char) :
    ¬ (⟨p, t ++ r⟩ : St).eof = true := by
  have := h.length_pos
  cases t with
  | nil => simp at this
  | cons c cs => simp [St.eof]

theorem peekSpace_noBlank {t : List Char} (h : NoBlank t) (p : Position) :
    (⟨p, t⟩ : St).peekSpace = false := by
  unfold St.peekSpace
  cases t with
  | nil => rfl
  | cons c cs =>
    simp only
    have := h.1 c rfl
    rw [← isSpace_iff] at this
    simpa using this

/-- A node is a text or a directive. -/
theorem written_cases {node : Node} {p : Position} {t r : List Char} (h : Written node p t r) :
    (TextIs t r ∧ node = .text p t.length t) ∨
    (DirectiveStart (t ++ r) ∧ ∃ q len type name args block, node = .directive q len type name args block) := by
  cases h with
  | text h => exact .inl ⟨h, rfl⟩
  | @directive _ name _ _ a _ b _ hid _ _ _ _ _ _ =>
    refine .inr ⟨?_, _, _, _, _, _, _, rfl⟩
    refine ⟨name ++ a ++ b ++ r, by simp, ?_⟩
    intro c hc
    cases name with
    | nil => exact hid.elim
    | cons d ds =>
      simp at hc
      subst hc
      have := hid.1
      rintro (rfl | rfl | rfl) <;> revert this <;> decide

theorem text_not_directive {t r : List Char} (h : TextIs t r) : possibleDirective (t ++ r) = false := by
  rw [← Bool.not_eq_true, possibleDirective_iff]
  rintro ⟨u, hu, hesc⟩
  cases h.wordy with
  | nil => exact h.nonempty rfl
  | char hc _ _ => simp at hu; exact hc hu.1
  | escape hc _ =>
    simp only [List.cons_append, List.cons.injEq, true_and] at hu
    subst hu
    exact hesc _ rfl hc

theorem matchText_directive {w : List Char} (h : DirectiveStart w) (p : Position) :
    matchText ⟨p, w⟩ = .ok none ⟨p, w⟩ := by
  obtain ⟨u, rfl, hu⟩ := h
  have : textLoop false ⟨p, '\\' :: u⟩ ('\\' :: u) p = ⟨p, '\\' :: u⟩ := by
    cases u with
    | nil => simp [textLoop, isSpace]
    | cons c cs =>
      have := hu c rfl
      rw [← isEscapeable_iff] at this
      simp [textLoop, isSpace, this]
  unfold matchText
  rw [run_get_bind]
  simp only [this]
  rw [run_set_bind]
  simp
  rfl

theorem matchText_eof (p : Position) : matchText ⟨p, []⟩ = .ok none ⟨p, []⟩ := by
  simp [matchText, run_get_bind, textLoop, run_set_bind, run_pure]

theorem paragraphLoop_end {n : Nat} (initial p : Position) (elements : List Node) :
    paragraphLoop (n + 1) initial elements ⟨p, []⟩
      = .ok (some (.list initial (p.start - initial.start) elements)) ⟨p, []⟩ := by
  rw [paragraphLoop, run_get_bind]
  simp only [run_ite]
  rw [if_pos (eof_nil p)]
  rfl

theorem element_accept {n : Nat} (ih : AllAccept n) (p : Position) (u : List Char) (initial : Position)
    (elements : List Node) (nodes : List (Node × Bool)) (hpl : Plainly u) (hN : NoBlank u)
    (hS : Series .span nodes p u) (hall : ∀ x ∈ nodes, x.2 = false) (hn : 4 * u.length + 9 ≤ n + 1) :
    ∃ els, paragraphElement (n + 1) initial elements ⟨p, u⟩
        = .ok (some (.list initial ((after p u).start - initial.start) els)) ⟨after p u, []⟩ ∧
      els.map Node.plain = elements.map Node.plain ++ nodes.map (fun x => x.1.plain) := by
  rw [paragraphElement]
  cases hS with
  | nil =>
    rw [run_ok_bind (matchText_eof p)]
    simp only
    rw [run_get_bind, run_ite, if_neg (by simp [possibleDirective])]
    obtain ⟨m, rfl⟩ : ∃ m, n = m + 1 := ⟨n - 1, by omega⟩
    exact ⟨elements, paragraphLoop_end _ _ _, by simp⟩
  | @cons _ node broken rest _ t b u hw hal hB hN' hS =>
    have hbr : broken = false := hall _ (List.mem_cons_self)
    subst hbr
    have hd := written_dark hw
    have hlen := hd.length_pos
    have hsp := hpl.blank hd hB
    have hpl' : Plainly (b ++ u) := hpl.of (a := t) (c := []) (by simp)
    rw [after_append] at hS
    have key : ∀ node' : Node, node'.plain = node.plain →
        ∃ els, paragraphLoop n initial (elements ++ [node']) ⟨after p t, b ++ u⟩
          = .ok (some (.list initial ((after p (t ++ b ++ u)).start - initial.start) els))
            ⟨after p (t ++ b ++ u), []⟩ ∧
        els.map Node.plain = elements.map Node.plain ++
          ((node, false) :: rest).map (fun x => x.1.plain) := by
      intro node' hp
      obtain ⟨els, h1, h2⟩ := ih.loop (after p t) b u initial (elements ++ [node']) rest hpl' hB hsp hN' hS
        (fun x hx => hall x (List.mem_cons_of_mem _ hx)) (by simp at hn ⊢; omega)
      refine ⟨els, ?_, ?_⟩
      · rw [h1, ← after_append, ← List.append_assoc]
      · rw [h2]; simp [hp]
    rw [List.append_assoc t b u] at hN ⊢
    rcases written_cases hw with ⟨htext, rfl⟩ | ⟨hdir, q, len, type, name, args, block, rfl⟩
    · rw [run_ok_bind (matchText_complete htext p)]
      simp only
      rw [← List.append_assoc]
      exact key _ rfl
    · rw [run_ok_bind (matchText_directive hdir p)]
      simp only
      rw [run_get_bind, run_ite, if_pos ((possibleDirective_iff _).2 hdir)]
      obtain ⟨block', h1, h2⟩ := ih.directive .span p q len type name args block t (b ++ u)
        (hpl.of (a := []) (c := b ++ u) (by simp)) hw hal rfl (by simp at hn ⊢; omega)
      rw [run_ok_bind h1]
      simp only
      rw [← List.append_assoc]
      exact key _ (by simp [Node.plain, h2])

theorem loop_accept {n : Nat} (ih : AllAccept n) (p : Position) (b u : List Char) (initial : Position)
    (elements : List Node) (nodes : List (Node × Bool)) (hpl : Plainly (b ++ u))
    (hB : BlankText b false) (hsp : b = [] ∨ ∃ c cs, b = c :: cs ∧ Space c) (hN : NoBlank u)
    (hS : Series .span nodes (after p b) u) (hall : ∀ x ∈ nodes, x.2 = false)
    (hn : 4 * (b ++ u).length + 10 ≤ n + 1) :
    ∃ els, paragraphLoop (n + 1) initial elements ⟨p, b ++ u⟩
        = .ok (some (.list initial ((after p (b ++ u)).start - initial.start) els))
          ⟨after p (b ++ u), []⟩ ∧
      els.map Node.plain = elements.map Node.plain ++ nodes.map (fun x => x.1.plain) := by
  have hplu : Plainly u := hpl.of (a := b) (c := []) (by simp)
  obtain ⟨els, h1, h2⟩ := ih.element (after p b) u initial elements nodes hplu hN hS hall
    (by simp at hn ⊢; omega)
  rw [← after_append] at h1
  rcases hsp with rfl | ⟨c, cs, rfl, hc⟩
  · by_cases hu : u = []
    · subst hu
      rw [series_eof hS]
      exact ⟨elements, paragraphLoop_end _ _ _, by simp⟩
    · refine ⟨els, ?_, h2⟩
      rw [List.nil_append] at h1 ⊢
      rw [paragraphLoop, run_get_bind]
      simp only [run_ite]
      rw [if_neg (by simp [St.eof, hu]), if_neg (by simp [peekSpace_noBlank hN])]
      exact h1
  · refine ⟨els, ?_, h2⟩
    rw [paragraphLoop, run_get_bind]
    simp only [run_ite]
    rw [if_neg (by simp [St.eof]), if_pos (peekSpace_of (c := c) rfl hc),
      run_ok_bind (matchBlankRule_complete hB hN p), run_ite, if_neg (by simp)]
    exact h1

theorem next_accept {n : Nat} (ih : AllAccept n) (p : Position) (b u : List Char) (broken : Bool)
    (initial : Position) (elements par : List Node) (start : Position) (nodes : List (Node × Bool))
    (hpl : Plainly (b ++ u)) (hB : BlankText b broken) (hN : NoBlank u)
    (hS : Series .block nodes (after p b) u) (hpar : ∀ x ∈ par, standsAlone x = false)
    (hn : 4 * (b ++ u).length + 11 ≤ n + 1) :
    ∃ els, contentNext (n + 1) initial elements par start ⟨p, b ++ u⟩
        = .ok (some (.list initial ((after p (b ++ u)).start - initial.start) els))
          ⟨after p (b ++ u), []⟩ ∧
      els.map Node.plain = elements.map Node.plain ++
        showing (if broken then pendingGroups (par.map Node.plain) ++ paragraphs (nodes.map plainPair)
          else paragraphs ((par.map Node.plain).map (fun x => (x, false)) ++ nodes.map plainPair)) := by
  have hplu : Plainly u := hpl.of (a := b) (c := []) (by simp)
  rw [contentNext, run_ok_bind (matchBlank_complete hB hN p), run_get_bind]
  have hlen : 4 * u.length + 10 ≤ n := by simp at hn ⊢; omega
  cases broken with
  | true =>
    simp only [if_true]
    have hs := break_plain elements par start (after p b)
    cases hbp : breakParagraph elements par start (after p b) with
    | mk e' st' =>
      rw [hbp] at hs
      simp only at hs ⊢
      obtain ⟨els, h1, h2⟩ := ih.content (after p b) u initial e' [] st' nodes hplu hS hN (by simp) hlen
      rw [← after_append] at h1
      refine ⟨els, h1, ?_⟩
      rw [h2, hs, showing_append]
      simp
  | false =>
    simp only [Bool.false_eq_true, if_false]
    obtain ⟨els, h1, h2⟩ := ih.content (after p b) u initial elements par start nodes hplu hS hN hpar hlen
    rw [← after_append] at h1
    exact ⟨els, h1, h2⟩

theorem standsAlone_map {par : List Node} (h : ∀ x ∈ par, standsAlone x = false) :
    ∀ x ∈ par.map Node.plain, standsAlone x = false := by
  intro x hx
  obtain ⟨y, hy, rfl⟩ := List.mem_map.1 hx
  rw [standsAlone_plain]
  exact h y hy

theorem content_accept {n : Nat} (ih : AllAccept n) (p : Position) (t : List Char)
    (initial : Position) (elements par : List Node) (start : Position) (nodes : List (Node × Bool))
    (hpl : Plainly t) (hS : Series .block nodes p t) (hN : NoBlank t)
    (hpar : ∀ x ∈ par, standsAlone x = false) (hn : 4 * t.length + 10 ≤ n + 1) :
    ∃ els, contentLoop (n + 1) initial elements par start ⟨p, t⟩
        = .ok (some (.list initial ((after p t).start - initial.start) els)) ⟨after p t, []⟩ ∧
      els.map Node.plain = elements.map Node.plain ++
        showing (paragraphs ((par.map Node.plain).map (fun x => (x, false)) ++ nodes.map plainPair)) := by
  rw [contentLoop, run_get_bind, run_ite]
  have hpar' := standsAlone_map hpar
  cases hS with
  | nil =>
    rw [if_pos (eof_nil p)]
    have hs := break_plain elements par start p
    cases hbp : breakParagraph elements par start p with
    | mk e' st' =>
      rw [hbp] at hs
      refine ⟨e', rfl, ?_⟩
      rw [hs, List.map_nil, List.append_nil, paragraphs_end hpar']
  | @cons _ node broken rest _ t b u hw hal hB hN' hS =>
    have hd := written_dark hw
    have hlen := hd.length_pos
    have hpl' : Plainly (b ++ u) := hpl.of (a := t) (c := []) (by simp)
    rw [after_append] at hS
    -- a node that goes on with the paragraph
    have inPar : ∀ node' : Node, node'.plain = node.plain → standsAlone node = false →
        ∃ els, contentNext n initial elements (par ++ [node']) start ⟨after p t, b ++ u⟩
          = .ok (some (.list initial ((after p (t ++ b ++ u)).start - initial.start) els))
            ⟨after p (t ++ b ++ u), []⟩ ∧
        els.map Node.plain = elements.map Node.plain ++ showing (paragraphs
          ((par.map Node.plain).map (fun x => (x, false)) ++ ((node, broken) :: rest).map plainPair)) := by
      intro node' hp hst
      have hst' : standsAlone node' = false := by
        rw [← standsAlone_plain, hp, standsAlone_plain]; exact hst
      obtain ⟨els, h1, h2⟩ := ih.next (after p t) b u broken initial elements (par ++ [node']) start rest
        hpl' hB hN' hS (by
          intro x hx
          rcases List.mem_append.1 hx with hx | hx
          · exact hpar x hx
          · rw [List.mem_singleton.1 hx]; exact hst') (by simp at hn ⊢; omega)
      refine ⟨els, ?_, ?_⟩
      · rw [h1, ← after_append, ← List.append_assoc]
      · rw [h2]
        congr 2
        cases broken with
        | true =>
          simp only [if_true, List.map_cons, plainPair]
          rw [paragraphs_broken hpar' (by rw [standsAlone_plain]; exact hst)]
          simp [pendingGroups, hp]
        | false => simp [plainPair, hp]
    rw [List.append_assoc t b u] at hN ⊢
    rw [if_neg (not_eof_dark hd p _), run_require_bind, if_pos (by simp [peekSpace_noBlank hN]), run_ite]
    rcases written_cases hw with ⟨htext, rfl⟩ | ⟨hdir, q, len, type, name, args, block, rfl⟩
    · rw [if_neg (by simp [text_not_directive htext]), run_ok_bind (matchText_complete htext p)]
      simp only
      rw [← List.append_assoc]
      exact inPar _ rfl rfl
    · rw [if_pos ((possibleDirective_iff _).2 hdir)]
      obtain ⟨block', h1, h2⟩ := ih.directive .block p q len type name args block t (b ++ u)
        (hpl.of (a := []) (c := b ++ u) (by simp)) hw hal rfl (by simp at hn ⊢; omega)
      rw [run_ok_bind h1]
      simp only
      rw [run_get_bind, ← List.append_assoc]
      have hplain : Node.plain (.directive q len type name args block')
          = Node.plain (.directive q len type name args block) := by simp [Node.plain, h2]
      have hal' : contentAllows .block (environmentOf type) = true := hal
      cases henv : environmentOf type with
      | list => rw [henv] at hal'; cases hal'
      | meta_ => rw [henv] at hal'; cases hal'
      | paragraph => exact inPar _ hplain (by simp [standsAlone, henv])
      | content =>
        simp only
        have hs := break_plain elements par start (after p t)
        cases hbp : breakParagraph elements par start (after p t) with
        | mk e' st' =>
          rw [hbp] at hs
          simp only at hs ⊢
          obtain ⟨els, h3, h4⟩ := ih.next (after p t) b u broken initial
            (e' ++ [.directive q len type name args block']) [] st' rest hpl' hB hN' hS (by simp)
            (by simp at hn ⊢; omega)
          refine ⟨els, ?_, ?_⟩
          · rw [h3, ← after_append, ← List.append_assoc]
          · have e : plainPair (.directive q len type name args block, broken)
                = (Node.plain (.directive q len type name args block), broken) := rfl
            rw [h4, List.map_append, hs, List.map_cons (f := plainPair), e,
              paragraphs_alone hpar' (by rw [standsAlone_plain]; simp [standsAlone, henv])]
            rw [showing_append]
            cases broken <;> simp [pendingGroups, hplain, showing]

theorem list_accept {n : Nat} (ih : AllAccept n) (type : ContentType) (p : Position) (t : List Char)
    (initial : Position) (elements : List Node) (nodes : List (Node × Bool))
    (ht : contentAllowsOnlyDirectives type = true) (hpl : Plainly t) (hS : Series type nodes p t)
    (hN : NoBlank t) (hn : 4 * t.length + 10 ≤ n + 1) :
    ∃ els, directivesLoop (n + 1) type initial elements ⟨p, t⟩
        = .ok (some (.list initial ((after p t).start - initial.start) els)) ⟨after p t, []⟩ ∧
      els.map Node.plain = elements.map Node.plain ++ nodes.map (fun x => x.1.plain) := by
  rw [directivesLoop, run_get_bind, run_ite]
  cases hS with
  | nil =>
    rw [if_pos (eof_nil p)]
    exact ⟨elements, rfl, by simp⟩
  | @cons _ node broken rest _ t b u hw hal hB hN' hS =>
    have hd := written_dark hw
    have hlen := hd.length_pos
    have hplu : Plainly u := hpl.of (a := t ++ b) (c := []) (by simp)
    rw [List.append_assoc t b u] at hN ⊢
    rcases written_cases hw with ⟨-, rfl⟩ | ⟨hdir, q, len, dt, name, args, block, rfl⟩
    · rcases hal with rfl | rfl <;> cases ht
    · rw [if_neg (not_eof_dark hd p _), run_ite,
        if_neg (by simp [(possibleDirective_iff _).2 hdir])]
      obtain ⟨block', h1, h2⟩ := ih.directive type p q len dt name args block t (b ++ u)
        (hpl.of (a := []) (c := b ++ u) (by simp)) hw hal
        (by cases type <;> first | rfl | cases ht) (by simp at hn ⊢; omega)
      rw [run_ok_bind h1]
      simp only
      rw [run_ok_bind (matchBlank_complete hB hN' _), ← after_append]
      obtain ⟨els, h3, h4⟩ := ih.list type (after p (t ++ b)) u initial
        (elements ++ [.directive q len dt name args block']) rest ht hplu hS hN'
        (by simp at hn ⊢; omega)
      refine ⟨els, ?_, ?_⟩
      · rw [h3, ← after_append, List.append_assoc]
      · rw [h4]; simp [Node.plain, h2]

theorem block_accept {n : Nat} (ih : ∀ m ≤ n, AllAccept m) (type : ContentType) (block : Option Node)
    (p : Position) (b r : List Char) (hpl : Plainly b) (h : BlockIs type block p b) (hne : b ≠ [])
    (hn : 4 * (b ++ r).length + 5 ≤ n + 1) :
    ∃ block', matchDirectiveContent (n + 1) type ⟨p, b ++ r⟩ = .ok block' ⟨after p b, r⟩ ∧
      plainBlock block' = plainBlock block := by
  have hn' : 4 * b.length + 4 ≤ n := by simp at hn; omega
  cases h with
  | none => exact absurd rfl hne
  | @raw _ t hbal ht =>
    rw [matchDirectiveContent]
    unfold matchRawBlock
    have e : '{' :: t ++ ['}'] ++ r = '{' :: t ++ '}' :: r := by simp
    rw [e, run_ok_bind (C40_block_partial hbal ht p r)]
    exact ⟨_, rfl, rfl⟩
  | @text _ b t hbal hB hN htext =>
    rw [matchDirectiveContent]
    obtain ⟨m, rfl⟩ : ∃ m, n = m + 1 := ⟨n - 1, by omega⟩
    have h1 := spanText_accept (n := m) (p := after p ['{']) hB (.inr htext)
    rw [if_neg htext.nonempty, ← after_append, ← after_append] at h1
    exact ⟨_, matchInside_complete hbal (by simp [htext.nonempty]) h1, rfl⟩
  | @noText _ b hbal hb hB =>
    rw [matchDirectiveContent]
    obtain ⟨m, rfl⟩ : ∃ m, n = m + 1 := ⟨n - 1, by omega⟩
    have h1 := spanText_accept (n := m) (p := after p ['{']) hB (.inl rfl)
    rw [if_pos rfl, List.append_nil, ← after_append] at h1
    exact ⟨_, matchInside_complete hbal hb h1, rfl⟩
  | @span _ b t nodes hbal hbt hB hN hS hall =>
    rw [matchDirectiveContent]
    have hplt : Plainly t := hpl.of (a := '{' :: b) (c := ['}']) (by simp)
    obtain ⟨m, rfl⟩ : ∃ m, n = m + 3 := ⟨n - 3, by omega⟩
    obtain ⟨els, h1, h2⟩ := (ih (m + 1) (by omega)).loop (after p ('{' :: b)) [] t
      (after p ('{' :: b)) [] nodes hplt blankText_nil (.inl rfl) hN hS hall (by simp at hn' ⊢; omega)
    have h3 : spanInside (m + 3) true ⟨after p ['{'], b ++ t⟩
        = .ok (some (.list (after p ('{' :: b)) t.length els)) ⟨after p ('{' :: (b ++ t)), []⟩ := by
      rw [spanInside, run_ok_bind (matchBlank_complete hB hN _), ← after_append]
      simp only [Bool.false_eq_true, if_false, if_true]
      rw [List.nil_append, start_after, ← after_append] at h1
      have h4 : matchParagraph (m + 2) ⟨after p (['{'] ++ b), t⟩
          = .ok (some (.list (after p ('{' :: b)) t.length els)) ⟨after p ('{' :: b ++ t), []⟩ := by
        rw [matchParagraph, run_get_bind]; exact h1
      rw [run_ok_bind h4]
      rfl
    refine ⟨_, matchInside_complete hbal hbt h3, ?_⟩
    simp only [plainBlock, plainAll_eq]
    rw [h2]
    simp
  | @block _ b t broken nodes elements hbal hbt hB hN hS hsh =>
    rw [matchDirectiveContent]
    have hplt : Plainly t := hpl.of (a := '{' :: b) (c := ['}']) (by simp)
    obtain ⟨m, rfl⟩ : ∃ m, n = m + 3 := ⟨n - 3, by omega⟩
    obtain ⟨els, h1, h2⟩ := (ih (m + 1) (by omega)).content (after p ('{' :: b)) t
      (after p ('{' :: b)) [] [] (after p ('{' :: b)) nodes hplt hS hN (by simp) (by simp at hn' ⊢; omega)
    have h3 : blockInside (m + 3) ⟨after p ['{'], b ++ t⟩
        = .ok (some (.list (after p ('{' :: b)) t.length els)) ⟨after p ('{' :: (b ++ t)), []⟩ := by
      rw [blockInside, run_ok_bind (matchBlank_complete hB hN _), ← after_append]
      rw [start_after, ← after_append] at h1
      rw [matchContent, run_get_bind]
      exact h1
    refine ⟨_, matchInside_complete hbal hbt h3, ?_⟩
    simp only [plainBlock, plainAll_eq]
    rw [h2, shows_plain hsh]
    simp
  | @directives _ _ b t broken nodes hty hbal hbt hB hN hS =>
    have hplt : Plainly t := hpl.of (a := '{' :: b) (c := ['}']) (by simp)
    obtain ⟨m, rfl⟩ : ∃ m, n = m + 2 := ⟨n - 2, by omega⟩
    obtain ⟨els, h1, h2⟩ := (ih (m + 1) (by omega)).list type (after p ('{' :: b)) t
      (after p ['{']) [] nodes (by rcases hty with rfl | rfl <;> rfl) hplt hS hN
      (by simp at hn' ⊢; omega)
    have h3 : directivesInside (m + 2) type ⟨after p ['{'], b ++ t⟩
        = .ok (some (.list (after p ['{']) (b ++ t).length els)) ⟨after p ('{' :: (b ++ t)), []⟩ := by
      rw [directivesInside, run_get_bind, run_ok_bind (matchBlank_complete hB hN _), ← after_append]
      rw [← after_append] at h1
      have e : after p ('{' :: b ++ t) = after (after p ['{']) (b ++ t) := by
        rw [← after_append]; rfl
      rw [e, start_after] at h1
      rw [← e] at h1
      exact h1
    refine ⟨some (.list (after p ['{']) (b ++ t).length els), ?_, ?_⟩
    · have := matchInside_complete (r := r) hbal hbt h3
      rcases hty with rfl | rfl <;> rw [matchDirectiveContent] <;> exact this
    · simp only [plainBlock, plainAll_eq]
      rw [h2]
      simp

theorem all_accept (n : Nat) : AllAccept n := by
  induction n using Nat.strongRecOn with
  | ind n ih =>
    cases n with
    | zero => constructor <;> intros <;> omega
    | succ n =>
      have h := ih n (by omega)
      exact {
        content := content_accept h
        next := next_accept h
        loop := loop_accept h
        element := element_accept h
        directive := directive_accept h
        block := block_accept fun m hm => ih m (by omega)
        list := list_accept h }

/-- Documents that are read as they are written are accepted. -/
theorem parse_accept {root : Option Node} {source : List Char} (h : DocumentIs root source)
    (hpl : Plainly source) : ∃ root', plainBlock root' = plainBlock root ∧
      ∀ n, 4 * source.length + 11 ≤ n →
        parse n source = .ok root' ⟨after ⟨0, 0, 0⟩ source, []⟩ := by
  -- the tree with enough steps; more steps do not change it
  have hex : ∃ root', plainBlock root' = plainBlock root ∧
      parse (4 * source.length + 11) source = .ok root' ⟨after ⟨0, 0, 0⟩ source, []⟩ := by
    unfold parse matchDocument
    cases h with
    | @empty b broken hB =>
      refine ⟨none, rfl, ?_⟩
      have := matchBlank_complete (rule := .blank) hB noBlank_nil ⟨0, 0, 0⟩
      rw [List.append_nil] at this
      rw [run_ok_bind this, run_get_bind, run_ite, if_pos (eof_nil _)]
      rfl
    | @content b broken t nodes elements hB hN hne hS hsh =>
      have hplt : Plainly t := hpl.of (a := b) (c := []) (by simp)
      rw [run_ok_bind (matchBlank_complete hB hN _), run_get_bind, run_ite,
        if_neg (by simp [St.eof, hne]), matchContent, run_get_bind]
      obtain ⟨els, h1, h2⟩ := (all_accept (4 * (b ++ t).length + 10)).content (after ⟨0, 0, 0⟩ b) t
        (after ⟨0, 0, 0⟩ b) [] [] (after ⟨0, 0, 0⟩ b) nodes hplt hS hN (by simp) (by simp; omega)
      rw [start_after, ← after_append] at h1
      refine ⟨_, ?_, h1⟩
      · simp only [plainBlock, plainAll_eq]
        rw [h2, shows_plain hsh]
        simp
  obtain ⟨root', h1, h2⟩ := hex
  refine ⟨root', h1, fun n hn => ?_⟩
  rw [parse_mono hn (by rw [h2]; simp), h2]

end Bms.Bmd
