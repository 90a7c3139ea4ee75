import Verif.Lemmas.CReader

/-!
# The grammar of C statements and programs has no ambiguities
-/

namespace Bms.C

open GenC (Dialect)

/-! ## Where expressions and types end -/

theorem expr_split {d d' : Dialect} {ts ts' r r' : List Tok} {e e' : CExpr} (h : Derives d 0 ts e)
    (h' : Derives d' 0 ts' e') (heq : ts ++ r = ts' ++ r') (hr : Fine 0 r) (hr' : Fine 0 r') : e = e' ∧ r = r' := by
  have h1 := derives_claim h r (e, r) hr (after_zero hr)
  have h2 := derives_claim h' r' (e', r') hr' (after_zero hr')
  rw [heq] at h1
  exact Prod.mk.injEq .. ▸ h1.unique h2

theorem type_split {d d' : Dialect} {ts ts' r r' : List Tok} {t t' : Ty} (h : TypeName d ts t)
    (h' : TypeName d' ts' t') (heq : ts ++ r = ts' ++ r') : t = t' ∧ r = r' := by
  obtain ⟨w, u, rfl, h1⟩ := h.head
  obtain ⟨w', u', rfl, h2⟩ := h'.head
  rw [List.cons_append, List.cons_append] at heq
  injection heq with e1 e2
  injection e1 with e1
  subst e1
  have := h1 r
  rw [e2, h2 r'] at this
  injection this with this
  injection this with e3 e4
  exact ⟨e3.symm, e4.symm⟩

theorem semicolon_fine {p : Nat} {r : List Tok} : Fine p (pt ";" :: r) :=
  fine_punct (by decide) (fun op h => by cases op <;> cases h) (by decide)

theorem TypeName.first {d : Dialect} {t : List Tok} {ty : Ty} (h : TypeName d t ty) :
    ∃ w r, t = .word w :: r ∧ w ∈ typeHeads := by
  cases h with
  | void => exact ⟨_, _, rfl, by decide⟩
  | int => exact ⟨_, _, rfl, by decide⟩
  | boolC99 => exact ⟨_, _, rfl, by decide⟩
  | bool => exact ⟨_, _, rfl, by decide⟩
  | exactC h _ =>
    refine ⟨_, [], rfl, ?_⟩
    simp only [exactNames, List.mem_cons, List.not_mem_nil, or_false] at h
    rcases h with h | h | h | h <;> cases h <;> decide
  | exactCpp h => exact ⟨_, _, rfl, by decide⟩
  | bits h => exact ⟨_, _, rfl, by decide⟩

/-! ## What the first tokens of a statement show -/

/-- Kinds of statements. -/
def kind : CStmt → Nat
  | .decl false .. => 0
  | .decl true .. => 1
  | .ifThen .. | .ifElse .. => 2
  | .while_ .. => 3
  | .return_ _ => 4
  | .break_ => 5
  | .continue_ => 6
  | .assign .. => 7
  | .call _ => 8
  | .block _ => 9

def kindAt : List Tok → Nat
  | .word w :: ts =>
    if w ∈ typeHeads then 0
    else if w = "constexpr".toList then 1
    else if w = "if".toList then 2
    else if w = "while".toList then 3
    else if w = "return".toList then 4
    else if w = "break".toList then 5
    else if w = "continue".toList then 6
    else if ts.head? = some (pt "=") then 7 else 8
  | .punct w :: _ => if w = "{".toList then 9 else 8
  | _ => 8

theorem kindAt_id {x : List Char} (hx : IsId x) (ts : List Tok) :
    kindAt (.word x :: ts) = if ts.head? = some (pt "=") then 7 else 8 := by
  have h : ∀ w ∈ typeHeads ++ ["constexpr".toList, "if".toList, "while".toList, "return".toList, "break".toList,
      "continue".toList], w ∈ reserved := by decide
  have h' : ∀ w ∈ typeHeads ++ ["constexpr".toList, "if".toList, "while".toList, "return".toList, "break".toList,
      "continue".toList], x ≠ w := fun w hw he => hx.2 (he ▸ h w hw)
  simp only [kindAt]
  rw [if_neg (fun hm => h' x (List.mem_append_left _ hm) rfl), if_neg (h' _ (by decide)), if_neg (h' _ (by decide)),
    if_neg (h' _ (by decide)), if_neg (h' _ (by decide)), if_neg (h' _ (by decide)), if_neg (h' _ (by decide))]

theorem call_first {d : Dialect} {p : Nat} {ts : List Tok} {e : CExpr} (h : Derives d p ts e) (hc : IsCall e) :
    (∃ x r, ts = .word x :: pt "(" :: r ∧ IsId x) ∨ ∃ r, ts = pt "(" :: r := by
  revert hc
  refine Derives.rec (motive_1 := fun p ts e _ => IsCall e → (∃ x r, ts = .word x :: pt "(" :: r ∧ IsId x) ∨
    ∃ r, ts = pt "(" :: r) (motive_2 := fun _ _ _ => True)
    ?up ?cond ?bin ?cast ?unary ?call ?num ?true_ ?false_ ?var ?paren ?nil ?one ?more h
  case up => exact fun _ ih => ih
  case call => exact fun hx _ _ _ => .inl ⟨_, _, rfl, hx⟩
  case paren => exact fun _ _ _ => .inr ⟨_, rfl⟩
  case nil => trivial
  case one => intros; trivial
  case more => intros; trivial
  all_goals (intros; contradiction)

theorem stmt_kind {d : Dialect} {ts : List Tok} {s : CStmt} (h : DerivesStmt d ts s) (r : List Tok) :
    kindAt (ts ++ r) = kind s := by
  cases h with
  | decl ht =>
    obtain ⟨w, u, rfl, hw⟩ := ht.first
    simp only [List.cons_append, kindAt, if_pos hw, kind]
  | constexpr => rfl
  | ifThen => rfl
  | ifElse => rfl
  | while_ => rfl
  | return_ => rfl
  | break_ => rfl
  | continue_ => rfl
  | assign hx => 
    simp only [List.cons_append]
    rw [kindAt_id hx]
    rfl
  | call h1 h2 =>
    rcases call_first h1 h2 with ⟨x, u, rfl, hx⟩ | ⟨u, rfl⟩
    · simp only [List.cons_append]
      rw [kindAt_id hx]
      rfl
    · rfl
  | block => rfl

/-- Statements do not begin with `else` or `}`. -/
def Follow (r : List Tok) : Prop := r.head? ≠ some (kw "else")

theorem stmt_first {d : Dialect} {ts : List Tok} {s : CStmt} (h : DerivesStmt d ts s) (r : List Tok) :
    Follow (ts ++ r) ∧ (ts ++ r).head? ≠ some (pt "}") := by
  have hid : ∀ {x : List Char}, IsId x → Tok.word x ≠ kw "else" := by
    intro x hx he
    injection he with he
    exact hx.2 (he ▸ by decide)
  have hty : ∀ w ∈ typeHeads, Tok.word w ≠ kw "else" ∧ Tok.word w ≠ pt "}" := by decide
  cases h with
  | decl ht =>
    obtain ⟨w, u, rfl, hw⟩ := ht.first
    exact ⟨fun h => (hty w hw).1 (by simpa using h), fun h => (hty w hw).2 (by simpa using h)⟩
  | assign hx => exact ⟨fun h => hid hx (by simpa using h), fun h => by simp [pt] at h⟩
  | call h1 h2 =>
    rcases call_first h1 h2 with ⟨x, u, rfl, hx⟩ | ⟨u, rfl⟩
    · exact ⟨fun h => hid hx (by simpa using h), fun h => by simp [pt] at h⟩
    · exact ⟨fun h => by simp [pt, kw] at h, fun h => by revert h; simp [pt]⟩
  | constexpr => exact ⟨fun h => by revert h; simp [kw], fun h => by revert h; simp [kw, pt]⟩
  | ifThen => exact ⟨fun h => by revert h; simp [kw], fun h => by revert h; simp [kw, pt]⟩
  | ifElse => exact ⟨fun h => by revert h; simp [kw], fun h => by revert h; simp [kw, pt]⟩
  | while_ => exact ⟨fun h => by revert h; simp [kw], fun h => by revert h; simp [kw, pt]⟩
  | return_ => exact ⟨fun h => by revert h; simp [kw], fun h => by revert h; simp [kw, pt]⟩
  | break_ => exact ⟨fun h => by revert h; simp [kw], fun h => by revert h; simp [kw, pt]⟩
  | continue_ => exact ⟨fun h => by revert h; simp [kw], fun h => by revert h; simp [kw, pt]⟩
  | block => exact ⟨fun h => by revert h; simp [kw, pt], fun h => by revert h; simp [pt]⟩

/-! ## Where statements end -/

def SplitS (ts : List Tok) (s : CStmt) : Prop :=
  ∀ d' ts' s' r r', DerivesStmt d' ts' s' → ts ++ r = ts' ++ r' → Follow r → Follow r' → s = s' ∧ r = r'

/-- Sequences of statements end before `}`, or at the end. -/
def SplitSs (ts : List Tok) (ss : List CStmt) : Prop :=
  ∀ d' ts' ss' r r', DerivesStmts d' ts' ss' → ts ++ pt "}" :: r = ts' ++ pt "}" :: r' → ss = ss' ∧ r = r'

theorem cons_eq {a b : Tok} {s t : List Tok} (h : a :: s = b :: t) : s = t := by
  injection h

theorem init_split {d d' : Dialect} {ts ts' r r' : List Tok} {e e' : Option CExpr} (h : DerivesInit d ts e)
    (h' : DerivesInit d' ts' e') (heq : ts ++ pt ";" :: r = ts' ++ pt ";" :: r') : e = e' ∧ r = r' := by
  cases h with
  | none =>
    cases h' with
    | none => exact ⟨rfl, cons_eq heq⟩
    | some => exact absurd heq (by simp [pt])
  | some h =>
    cases h' with
    | none => exact absurd heq (by simp [pt])
    | some h' =>
      obtain ⟨h1, h2⟩ := expr_split h h' (cons_eq heq) semicolon_fine semicolon_fine
      exact ⟨by rw [h1], cons_eq h2⟩

theorem no_semicolon_first {d : Dialect} {p : Nat} {ts : List Tok} {e : CExpr} (h : Derives d p ts e) (r r' : List Tok) :
    pt ";" :: r ≠ ts ++ r' := by
  intro heq
  have key : ∀ {p ts e}, Derives d p ts e → ∃ t u, ts = t :: u ∧ t ≠ pt ";" := by
    intro p ts e h
    refine Derives.rec (motive_1 := fun p ts e _ => ∃ t u, ts = t :: u ∧ t ≠ pt ";") (motive_2 := fun _ _ _ => True)
      ?up ?cond ?bin ?cast ?unary ?call ?num ?true_ ?false_ ?var ?paren ?nil ?one ?more h
    case up => exact fun _ ih => ih
    case cond => rintro _ _ _ _ _ _ _ _ _ ⟨t, u, rfl, h⟩ _ _; exact ⟨t, _, rfl, h⟩
    case bin => rintro _ _ _ _ _ _ _ ⟨t, u, rfl, h⟩ _; exact ⟨t, _, rfl, h⟩
    case unary => rintro _ _ op _ _; exact ⟨_, _, rfl, by cases op <;> decide⟩
    case nil => trivial
    case one => intros; trivial
    case more => intros; trivial
    all_goals (intros; exact ⟨_, _, rfl, by simp [pt, kw]⟩)
  obtain ⟨t, u, rfl, ht⟩ := key h
  rw [List.cons_append] at heq
  injection heq with h1
  exact ht h1.symm

theorem value_split {d d' : Dialect} {ts ts' r r' : List Tok} {e e' : Option CExpr} (h : DerivesValue d ts e)
    (h' : DerivesValue d' ts' e') (heq : ts ++ pt ";" :: r = ts' ++ pt ";" :: r') : e = e' ∧ r = r' := by
  cases h with
  | none =>
    cases h' with
    | none => exact ⟨rfl, cons_eq heq⟩
    | some h' => exact absurd heq (no_semicolon_first h' _ _)
  | some h =>
    cases h' with
    | none => exact absurd heq.symm (no_semicolon_first h _ _)
    | some h' =>
      obtain ⟨h1, h2⟩ := expr_split h h' heq semicolon_fine semicolon_fine
      exact ⟨by rw [h1], cons_eq h2⟩

theorem follow_brace {r : List Tok} : Follow (pt "}" :: r) := by
  intro h
  revert h
  simp [pt, kw]

/-- What follows a block does not matter. -/
theorem block_split {ts ts' r r' : List Tok} {ss : List CStmt} (ih : SplitSs ts ss) {d' : Dialect} {s' : CStmt}
    (hs : DerivesStmt d' ts' s') (heq : pt "{" :: ts ++ [pt "}"] ++ r = ts' ++ r') : CStmt.block ss = s' ∧ r = r' := by
  have hk := stmt_kind hs r'
  rw [← heq] at hk
  change 9 = _ at hk
  cases hs <;> first | (exfalso; revert hk; simp [kind]; done) | skip
  case block h =>
    obtain ⟨rfl, rfl⟩ := ih _ _ _ _ _ h (by simpa using heq)
    exact ⟨rfl, rfl⟩

/-- For blocks, the restriction on what follows can be left out. -/
def SplitB (ts : List Tok) (s : CStmt) : Prop :=
  IsCBlock s → ∀ d' ts' s' r r', DerivesStmt d' ts' s' → ts ++ r = ts' ++ r' → s = s' ∧ r = r'

theorem fn_split {c c' : List Tok} {e e' : CExpr} {d d' : Dialect} {r r' : List Tok} {t : Tok} (h : Derives d 0 c e)
    (h' : Derives d' 0 c' e') (heq : t :: pt "(" :: c ++ pt ")" :: r = t :: pt "(" :: c' ++ pt ")" :: r') :
    e = e' ∧ r = r' := by
  obtain ⟨h1, h2⟩ := expr_split h h' (cons_eq (cons_eq heq)) close_fine close_fine
  exact ⟨h1, cons_eq h2⟩

theorem stmt_split {d : Dialect} {ts : List Tok} {s : CStmt} (h : DerivesStmt d ts s) :
    SplitS ts s ∧ SplitB ts s := by
  refine DerivesStmt.rec (motive_1 := fun ts s _ => SplitS ts s ∧ SplitB ts s) (motive_2 := fun ts ss _ => SplitSs ts ss)
    ?decl ?constexpr ?ifThen ?ifElse ?while_ ?return_ ?break_ ?continue_ ?assign ?call ?block ?nil ?cons h
  case decl =>
    intro t ty x i e ht hx hi
    refine ⟨fun d' ts' s' r r' h' heq hr hr' => ?_, False.elim⟩
    have hk := stmt_kind h' r'
    rw [← heq, stmt_kind (.decl ht hx hi)] at hk
    cases h' <;> first | (exfalso; revert hk; simp [kind]; done) | skip
    case decl ht' hx' hi' =>
      simp only [List.append_assoc, List.cons_append, List.nil_append] at heq
      obtain ⟨rfl, h2⟩ := type_split ht ht' heq
      injection h2 with h2 h3
      injection h2 with h2
      obtain ⟨rfl, rfl⟩ := init_split hi hi' h3
      exact ⟨by rw [h2], rfl⟩
  case constexpr =>
    intro t ty x i e ht hx hi hd
    refine ⟨fun d' ts' s' r r' h' heq hr hr' => ?_, False.elim⟩
    have hk := stmt_kind h' r'
    rw [← heq, stmt_kind (.constexpr ht hx hi hd)] at hk
    cases h' <;> first | (exfalso; revert hk; simp [kind]; done) | skip
    case constexpr ht' hx' hi' _ =>
      simp only [List.append_assoc, List.cons_append, List.nil_append] at heq
      obtain ⟨rfl, h2⟩ := type_split ht ht' (cons_eq heq)
      injection h2 with h2 h3
      injection h2 with h2
      obtain ⟨rfl, h4⟩ := expr_split hi hi' (cons_eq h3) semicolon_fine semicolon_fine
      exact ⟨by rw [h2], cons_eq h4⟩
  case ifThen =>
    intro c b c' b' hc hb hbb ih
    refine ⟨fun d' ts' s' r r' h' heq hr hr' => ?_, False.elim⟩
    have hk := stmt_kind h' r'
    rw [← heq, stmt_kind (.ifThen hc hb hbb)] at hk
    cases h' <;> first | (exfalso; revert hk; simp [kind]; done) | skip
    case ifThen hc' hb' hbb' =>
      simp only [List.append_assoc, List.cons_append] at heq
      obtain ⟨rfl, h2⟩ := fn_split hc hc' heq
      obtain ⟨rfl, rfl⟩ := ih.2 hbb _ _ _ _ _ hb' h2
      exact ⟨rfl, rfl⟩
    case ifElse hc' hb' hbb' he' _ =>
      exfalso
      simp only [List.append_assoc, List.cons_append] at heq
      obtain ⟨rfl, h2⟩ := fn_split hc hc' heq
      obtain ⟨_, h3⟩ := ih.2 hbb _ _ _ _ _ hb' h2
      exact hr (by rw [h3]; rfl)
  case ifElse =>
    intro c b e c' b' e' hc hb hbb he hee ih ih'
    refine ⟨fun d' ts' s' r r' h' heq hr hr' => ?_, False.elim⟩
    have hk := stmt_kind h' r'
    rw [← heq, stmt_kind (.ifElse hc hb hbb he hee)] at hk
    cases h' <;> first | (exfalso; revert hk; simp [kind]; done) | skip
    case ifThen hc' hb' hbb' =>
      exfalso
      simp only [List.append_assoc, List.cons_append] at heq
      obtain ⟨rfl, h2⟩ := fn_split hc hc' heq
      obtain ⟨_, h3⟩ := ih.2 hbb _ _ _ _ _ hb' h2
      exact hr' (by rw [← h3]; rfl)
    case ifElse hc' hb' hbb' he' _ =>
      simp only [List.append_assoc, List.cons_append] at heq
      obtain ⟨rfl, h2⟩ := fn_split hc hc' heq
      obtain ⟨rfl, h3⟩ := ih.2 hbb _ _ _ _ _ hb' h2
      obtain ⟨rfl, rfl⟩ := ih'.1 _ _ _ _ _ he' (cons_eq h3) hr hr'
      exact ⟨rfl, rfl⟩
  case while_ =>
    intro c b c' b' hc hb hbb ih
    refine ⟨fun d' ts' s' r r' h' heq hr hr' => ?_, False.elim⟩
    have hk := stmt_kind h' r'
    rw [← heq, stmt_kind (.while_ hc hb hbb)] at hk
    cases h' <;> first | (exfalso; revert hk; simp [kind]; done) | skip
    case while_ hc' hb' hbb' =>
      simp only [List.append_assoc, List.cons_append] at heq
      obtain ⟨rfl, h2⟩ := fn_split hc hc' heq
      obtain ⟨rfl, rfl⟩ := ih.2 hbb _ _ _ _ _ hb' h2
      exact ⟨rfl, rfl⟩
  case return_ =>
    intro ts e hv
    refine ⟨fun d' ts' s' r r' h' heq hr hr' => ?_, False.elim⟩
    have hk := stmt_kind h' r'
    rw [← heq, stmt_kind (.return_ hv)] at hk
    cases h' <;> first | (exfalso; revert hk; simp [kind]; done) | skip
    case return_ hv' =>
      simp only [List.append_assoc, List.cons_append, List.nil_append] at heq
      obtain ⟨rfl, rfl⟩ := value_split hv hv' (cons_eq heq)
      exact ⟨rfl, rfl⟩
  case break_ =>
    refine ⟨fun d' ts' s' r r' h' heq hr hr' => ?_, False.elim⟩
    have hk := stmt_kind h' r'
    rw [← heq, stmt_kind (.break_ (d := d))] at hk
    cases h' <;> first | (exfalso; revert hk; simp [kind]; done) | skip
    exact ⟨rfl, cons_eq (cons_eq heq)⟩
  case continue_ =>
    refine ⟨fun d' ts' s' r r' h' heq hr hr' => ?_, False.elim⟩
    have hk := stmt_kind h' r'
    rw [← heq, stmt_kind (.continue_ (d := d))] at hk
    cases h' <;> first | (exfalso; revert hk; simp [kind]; done) | skip
    exact ⟨rfl, cons_eq (cons_eq heq)⟩
  case assign =>
    intro x ts e hx he
    refine ⟨fun d' ts' s' r r' h' heq hr hr' => ?_, False.elim⟩
    have hk := stmt_kind h' r'
    rw [← heq, stmt_kind (.assign hx he)] at hk
    cases h' <;> first | (exfalso; revert hk; simp [kind]; done) | skip
    case assign hx' he' =>
      simp only [List.append_assoc, List.cons_append, List.nil_append] at heq
      injection heq with h1 h2
      injection h1 with h1
      obtain ⟨rfl, h4⟩ := expr_split he he' (cons_eq h2) semicolon_fine semicolon_fine
      exact ⟨by rw [h1], cons_eq h4⟩
  case call =>
    intro ts e he hc
    refine ⟨fun d' ts' s' r r' h' heq hr hr' => ?_, False.elim⟩
    have hk := stmt_kind h' r'
    rw [← heq, stmt_kind (.call he hc)] at hk
    cases h' <;> first | (exfalso; revert hk; simp [kind]; done) | skip
    case call he' hc' =>
      simp only [List.append_assoc, List.cons_append, List.nil_append] at heq
      obtain ⟨rfl, h4⟩ := expr_split he he' heq semicolon_fine semicolon_fine
      exact ⟨rfl, cons_eq h4⟩
  case block =>
    intro ts ss _ ih
    exact ⟨fun d' ts' s' r r' h' heq _ _ => block_split ih h' heq, fun _ d' ts' s' r r' h' heq => block_split ih h' heq⟩
  case nil =>
    intro d' ts' ss' r r' h' heq
    cases h' with
    | nil => exact ⟨rfl, cons_eq heq⟩
    | cons h1 _ =>
      exfalso
      rw [List.append_assoc] at heq
      have h5 := fun b => (stmt_first h1 b).2
      have h6 := congrArg List.head? heq
      exact h5 _ h6.symm
  case cons =>
    intro ts s rs ss h1 h2 ih1 ih2 d' ts' ss' r r' h' heq
    cases h' with
    | nil =>
      exfalso
      have := (stmt_first h1 (rs ++ pt "}" :: r)).2
      rw [← List.append_assoc, heq] at this
      exact this rfl
    | cons h3 h4 =>
      have hf : ∀ {d ts ss r}, DerivesStmts d ts ss → Follow (ts ++ pt "}" :: r) := by
        intro d ts ss r h
        cases h with
        | nil => exact follow_brace
        | cons h5 _ => rw [List.append_assoc]; exact (stmt_first h5 _).1
      rw [List.append_assoc, List.append_assoc] at heq
      obtain ⟨rfl, h5⟩ := ih1.1 _ _ _ _ _ h3 heq (hf h2) (hf h4)
      obtain ⟨rfl, rfl⟩ := ih2 _ _ _ _ _ h4 h5
      exact ⟨rfl, rfl⟩

/-! ## Declarations -/

theorem params_split {d d' : Dialect} {ts ts' r r' : List Tok} {ps ps' : List (Ty × List Char)}
    (h : DerivesParams d ts ps) (h' : DerivesParams d' ts' ps')
    (heq : ts ++ pt ")" :: r = ts' ++ pt ")" :: r') : ps = ps' ∧ r = r' := by
  induction h generalizing ts' ps' with
  | one ht hx =>
    cases h' with
    | one ht' hx' =>
      simp only [List.append_assoc, List.cons_append, List.nil_append] at heq
      obtain ⟨rfl, h2⟩ := type_split ht ht' heq
      injection h2 with h2 h3
      injection h2 with h2
      exact ⟨by rw [h2], cons_eq h3⟩
    | more ht' hx' _ =>
      simp only [List.append_assoc, List.cons_append, List.nil_append] at heq
      obtain ⟨rfl, h2⟩ := type_split ht ht' heq
      injection h2 with h2 h3
      injection h3 with h3
      exact absurd h3 (by decide)
  | more ht hx _ ih =>
    cases h' with
    | one ht' hx' =>
      simp only [List.append_assoc, List.cons_append, List.nil_append] at heq
      obtain ⟨rfl, h2⟩ := type_split ht ht' heq
      injection h2 with h2 h3
      injection h3 with h3
      exact absurd h3 (by decide)
    | more ht' hx' hp' =>
      simp only [List.append_assoc, List.cons_append, List.nil_append] at heq
      obtain ⟨rfl, h2⟩ := type_split ht ht' heq
      injection h2 with h2 h3
      injection h2 with h2
      obtain ⟨rfl, rfl⟩ := ih hp' (cons_eq h3)
      exact ⟨by rw [h2], rfl⟩

/-- A list of parameters is not `void`. -/
theorem params_void {d : Dialect} {ts r r' : List Tok} {ps : List (Ty × List Char)} (h : DerivesParams d ts ps) :
    kw "void" :: pt ")" :: r ≠ ts ++ pt ")" :: r' := by
  intro heq
  cases h with
  | one ht hx =>
    simp only [List.append_assoc, List.cons_append, List.nil_append] at heq
    have := type_split (d := .c99) (ts := [kw "void"]) .void ht heq
    exact absurd this.2 (by simp [pt])
  | more ht hx =>
    simp only [List.append_assoc, List.cons_append, List.nil_append] at heq
    have := type_split (d := .c99) (ts := [kw "void"]) .void ht heq
    exact absurd this.2 (by simp [pt])

theorem decl_first {d : Dialect} {ts : List Tok} {x : CDecl} (h : DerivesDecl d ts x) (r : List Tok) : Follow (ts ++ r) := by
  have hty : ∀ w ∈ typeHeads, Tok.word w ≠ kw "else" := by decide
  cases h with
  | const h => exact (stmt_first h r).1
  | function ht =>
    obtain ⟨w, u, rfl, hw⟩ := ht.first
    exact fun h => hty w hw (by simpa using h)
  | functionParams ht =>
    obtain ⟨w, u, rfl, hw⟩ := ht.first
    exact fun h => hty w hw (by simpa using h)

theorem const_not_type {d d' : Dialect} {ts t r r' : List Tok} {ty ty' : Ty} {x : List Char} {e : Option CExpr}
    (h : DerivesStmt d ts (.decl true ty x e)) (ht : TypeName d' t ty') : ts ++ r ≠ t ++ r' := by
  intro heq
  have h1 := stmt_kind h r
  obtain ⟨w, u, rfl, hw⟩ := ht.first
  rw [heq, List.cons_append] at h1
  simp only [kindAt, if_pos hw, kind] at h1
  cases h1

theorem cdecl_split {d d' : Dialect} {ts ts' r r' : List Tok} {x x' : CDecl} (h : DerivesDecl d ts x)
    (h' : DerivesDecl d' ts' x') (heq : ts ++ r = ts' ++ r') (hr : Follow r) (hr' : Follow r') : x = x' ∧ r = r' := by
  cases h with
  | const h =>
    cases h' with
    | const h' =>
      obtain ⟨h1, h2⟩ := (stmt_split h).1 _ _ _ _ _ h' heq hr hr'
      injection h1 with _ h1 h3 h4
      injection h4 with h4
      exact ⟨by rw [h1, h3, h4], h2⟩
    | function ht' => rw [List.append_assoc] at heq; exact absurd heq (const_not_type h ht')
    | functionParams ht' => simp only [List.append_assoc] at heq; exact absurd heq (const_not_type h ht')
  | function ht hx hb hbb =>
    cases h' with
    | const h' => rw [List.append_assoc] at heq; exact absurd heq.symm (const_not_type h' ht)
    | function ht' hx' hb' hbb' =>
      simp only [List.append_assoc, List.cons_append] at heq
      obtain ⟨rfl, h2⟩ := type_split ht ht' heq
      injection h2 with h2 h3
      injection h2 with h2
      obtain ⟨rfl, h5⟩ := (stmt_split hb).2 hbb _ _ _ _ _ hb' (cons_eq (cons_eq (cons_eq h3)))
      exact ⟨by rw [h2], h5⟩
    | functionParams ht' hx' hp' hb' hbb' =>
      simp only [List.append_assoc, List.cons_append] at heq
      obtain ⟨rfl, h2⟩ := type_split ht ht' heq
      injection h2 with h2 h3
      exact absurd (cons_eq h3) (params_void hp')
  | functionParams ht hx hp hb hbb =>
    cases h' with
    | const h' => simp only [List.append_assoc] at heq; exact absurd heq.symm (const_not_type h' ht)
    | function ht' hx' hb' hbb' =>
      simp only [List.append_assoc, List.cons_append] at heq
      obtain ⟨rfl, h2⟩ := type_split ht ht' heq
      injection h2 with h2 h3
      exact absurd (cons_eq h3).symm (params_void hp)
    | functionParams ht' hx' hp' hb' hbb' =>
      simp only [List.append_assoc, List.cons_append] at heq
      obtain ⟨rfl, h2⟩ := type_split ht ht' heq
      injection h2 with h2 h3
      injection h2 with h2
      obtain ⟨rfl, h6⟩ := params_split hp hp' (cons_eq h3)
      obtain ⟨rfl, h5⟩ := (stmt_split hb).2 hbb _ _ _ _ _ hb' h6
      exact ⟨by rw [h2], h5⟩

theorem program_follow {d : Dialect} {ts : List Tok} {xs : List CDecl} (h : DerivesProgram d ts xs) : Follow ts := by
  cases h with
  | nil => intro h; cases h
  | cons h _ => exact decl_first h _

theorem decl_nonempty {d : Dialect} {ts r : List Tok} {x : CDecl} (h : DerivesDecl d ts x) : ts ++ r ≠ [] := by
  cases h with
  | const h => cases h; simp
  | function => simp
  | functionParams => simp

/-- A sequence of tokens is derived as only one program. -/
theorem DerivesProgram.unique {d d' : Dialect} {ts : List Tok} {xs xs' : List CDecl} (h : DerivesProgram d ts xs)
    (h' : DerivesProgram d' ts xs') : xs = xs' := by
  induction h generalizing xs' with
  | nil =>
    generalize ht : ([] : List Tok) = t at h'
    cases h' with
    | nil => rfl
    | cons h1 _ => exact absurd ht.symm (decl_nonempty h1)
  | cons h1 h2 ih =>
    rename_i ts x rs xs
    generalize ht : ts ++ rs = t at h'
    cases h' with
    | nil => exact absurd ht (decl_nonempty h1)
    | cons h3 h4 =>
      obtain ⟨rfl, rfl⟩ := cdecl_split h1 h3 ht (program_follow h2) (program_follow h4)
      rw [ih h4]

end Bms.C
