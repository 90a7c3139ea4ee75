import Verif.Lemmas.CLang

/-!
# The grammar of C expressions is unambiguous

A reader of expressions that decides at every token what to do, and a proof that it reads every derived
sequence of tokens as the tree of the derivation.
-/

namespace Bms.C

open Spec (Ident IdentStart IdentPart InRange Literal Digits positional digitOf)
open GenC (Dialect)

theorem digits_fun {base : Nat} {t : List Char} {v w : Nat} (h : Digits base t v) (h' : Digits base t w) :
    v = w := by
  obtain ⟨ds, h1, _, h2⟩ := h
  obtain ⟨es, h3, _, h4⟩ := h'
  have : ds = es := (List.map_inj_right (fun _ _ h => Option.some.inj h)).1 (h1.symm.trans h3)
  rw [← h2, ← h4, this]

theorem decimal_fun {t : List Char} {v w : Nat} (h : Literal .decimal t v) (h' : Literal .decimal t w) :
    v = w := by
  cases h with
  | zero =>
    cases h' with
    | zero => rfl
    | decimal hc _ => exact absurd rfl hc
  | decimal hc hd =>
    cases h' with
    | zero => exact absurd rfl hc
    | decimal _ hd' => exact digits_fun hd hd'

open Classical in
/-- The value of a number. -/
noncomputable def litVal (w : List Char) : Nat :=
  if h : ∃ n, Literal .decimal w n then h.choose else 0

theorem litVal_eq {w : List Char} {n : Nat} (h : Literal .decimal w n) : litVal w = n := by
  have he : ∃ n, Literal .decimal w n := ⟨n, h⟩
  unfold litVal
  rw [dif_pos he]
  exact decimal_fun he.choose_spec h

/-! ## Helpers of the reader -/

def strip (t : Tok) : List Tok → Option (List Tok)
  | [] => none
  | x :: xs => if x = t then some xs else none

theorem strip_self (t : Tok) (xs : List Tok) : strip t (t :: xs) = some xs := by simp [strip]

theorem strip_ne {t x : Tok} (h : x ≠ t) (xs : List Tok) : strip t (x :: xs) = none := by simp [strip, h]

def allBinOps : List BinOp :=
  [.lor, .land, .bor, .bxor, .band, .eq, .ne, .lt, .gt, .le, .ge, .shl, .shr, .add, .sub, .mul, .div, .rem]

def allUnOps : List UnOp := [.plus, .minus, .lnot, .bnot]

theorem mem_allBinOps (op : BinOp) : op ∈ allBinOps := by cases op <;> decide

theorem mem_allUnOps (op : UnOp) : op ∈ allUnOps := by cases op <;> decide

/-- The operator of the level at the beginning. -/
def binAt (p : Nat) : List Tok → Option (BinOp × List Tok)
  | [] => none
  | t :: r => (allBinOps.find? fun op => op.tok = t ∧ op.level = p).map (·, r)

def unAt : List Tok → Option (UnOp × List Tok)
  | [] => none
  | t :: r => (allUnOps.find? fun op => op.tok = t).map (·, r)

theorem binAt_self (op : BinOp) (r : List Tok) : binAt op.level (op.tok :: r) = some (op, r) := by
  cases op <;> rfl

theorem binAt_none {p : Nat} {r : List Tok} (h : ∀ t ∈ r.head?, ∀ op : BinOp, t = op.tok → op.level ≠ p) :
    binAt p r = none := by
  cases r with
  | nil => rfl
  | cons t r =>
    simp only [binAt, Option.map_eq_none_iff, List.find?_eq_none, decide_eq_true_eq]
    intro op _ hh
    exact h t rfl op hh.1.symm hh.2

theorem unAt_self (op : UnOp) (r : List Tok) : unAt (op.tok :: r) = some (op, r) := by
  cases op <;> rfl

theorem unAt_none {r : List Tok} (h : ∀ t ∈ r.head?, ∀ op : UnOp, t ≠ op.tok) : unAt r = none := by
  cases r with
  | nil => rfl
  | cons t r =>
    simp only [unAt, Option.map_eq_none_iff, List.find?_eq_none, decide_eq_true_eq]
    intro op _ hh
    exact h t rfl op hh.symm

/-- Words that begin names of types. -/
def typeHeads : List (List Char) :=
  ["void", "int", "_Bool", "bool", "unsigned", "std", "uint8_t", "uint16_t", "uint32_t", "uint64_t"].map
    String.toList

theorem typeHeads_reserved : ∀ w ∈ typeHeads, w ∈ reserved := by decide

/-- The type that a name begins with, given its first word. -/
noncomputable def typeAt (w : List Char) (r : List Tok) : Option (Ty × List Tok) :=
  if w = "void".toList then some (.void, r)
  else if w = "int".toList then some (.int, r)
  else if w = "_Bool".toList then some (.bool, r)
  else if w = "bool".toList then some (.bool, r)
  else if w = "unsigned".toList then
    match r with
    | _ :: _ :: .number x :: _ :: r => some (.bits (litVal x), r)
    | _ => none
  else if w = "std".toList then
    match r with
    | _ :: .word x :: r => (exactNames.find? fun p => p.2 = x).map fun p => (.exact p.1, r)
    | _ => none
  else (exactNames.find? fun p => p.2 = w).map fun p => (.exact p.1, r)

theorem typeAt_none {w : List Char} {r : List Tok} (h : w ∉ typeHeads) : typeAt w r = none := by
  simp only [typeHeads, List.map_cons, List.map_nil, List.mem_cons, List.not_mem_nil, or_false, not_or] at h
  obtain ⟨h1, h2, h3, h4, h5, h6, h7, h8, h9, h10⟩ := h
  simp only [typeAt, if_neg h1, if_neg h2, if_neg h3, if_neg h4, if_neg h5, if_neg h6,
    Option.map_eq_none_iff, List.find?_eq_none, decide_eq_true_eq]
  intro p hp hw
  simp only [exactNames, List.mem_cons, List.not_mem_nil, or_false] at hp
  rcases hp with rfl | rfl | rfl | rfl
  · exact h7 hw.symm
  · exact h8 hw.symm
  · exact h9 hw.symm
  · exact h10 hw.symm

noncomputable def castAt : List Tok → Option (Ty × List Tok)
  | t :: .word w :: r =>
    if t = pt "(" then
      match typeAt w r with
      | some (ty, r) => (strip (pt ")") r).map (ty, ·)
      | none => none
    else none
  | _ => none

theorem TypeName.head {d : Dialect} {t : List Tok} {ty : Ty} (h : TypeName d t ty) :
    ∃ w r, t = .word w :: r ∧ ∀ rest, typeAt w (r ++ rest) = some (ty, rest) := by
  cases h with
  | void => exact ⟨_, [], rfl, fun rest => rfl⟩
  | int => exact ⟨_, [], rfl, fun rest => rfl⟩
  | boolC99 => exact ⟨_, [], rfl, fun rest => rfl⟩
  | bool => exact ⟨_, [], rfl, fun rest => rfl⟩
  | exactC h _ =>
    refine ⟨_, [], rfl, fun rest => ?_⟩
    simp only [exactNames, List.mem_cons, List.not_mem_nil, or_false] at h
    rcases h with h | h | h | h <;> cases h <;> rfl
  | exactCpp h =>
    refine ⟨_, _, rfl, fun rest => ?_⟩
    simp only [exactNames, List.mem_cons, List.not_mem_nil, or_false] at h
    rcases h with h | h | h | h <;> cases h <;> rfl
  | bits h =>
    refine ⟨_, _, rfl, fun rest => ?_⟩
    rw [← litVal_eq h]
    rfl

theorem castAt_self {d : Dialect} {t : List Tok} {ty : Ty} (h : TypeName d t ty) (r : List Tok) :
    castAt (pt "(" :: t ++ pt ")" :: r) = some (ty, r) := by
  obtain ⟨w, u, rfl, h2⟩ := h.head
  simp only [List.cons_append, castAt, if_pos, h2, strip_self, Option.map_some]

/-- A name that is followed by a parenthesis. -/
def callAt : List Tok → Option (List Char × List Tok)
  | .word x :: t :: r => if t = pt "(" then some (x, r) else none
  | _ => none

/-! ## The reader -/

mutual

noncomputable def read : Nat → Nat → List Tok → Option (CExpr × List Tok)
  | 0, _, _ => none
  | n + 1, p, ts =>
    if p ≤ 10 then (read n (p + 1) ts).bind fun r => cont n p r.1 r.2
    else if p = 11 then
      match castAt ts with
      | some c => (read n 11 c.2).map fun r => (.cast c.1 r.1, r.2)
      | none => read n 12 ts
    else if p = 12 then
      match unAt ts with
      | some c => (read n 11 c.2).map fun r => (.unary c.1 r.1, r.2)
      | none => read n 13 ts
    else if p = 13 then
      match callAt ts with
      | some c => (readArgs n c.2).map fun r => (.call c.1 r.1, r.2)
      | none => read n 14 ts
    else
      match ts with
      | .number w :: r => some (.num (litVal w), r)
      | .word w :: r =>
        if w = "true".toList then some (.bool true, r)
        else if w = "false".toList then some (.bool false, r)
        else some (.var w, r)
      | _ :: r => (read n 0 r).bind fun q => (strip (pt ")") q.2).map (q.1, ·)
      | [] => none

/-- What follows an expression of the level above. -/
noncomputable def cont : Nat → Nat → CExpr → List Tok → Option (CExpr × List Tok)
  | 0, _, _, _ => none
  | n + 1, p, a, ts =>
    if p = 0 then
      match strip (pt "?") ts with
      | some r => (read n 0 r).bind fun q => (strip (pt ":") q.2).bind fun r =>
          (read n 0 r).map fun z => (.cond a q.1 z.1, z.2)
      | none => some (a, ts)
    else
      match binAt p ts with
      | some c => (read n (p + 1) c.2).bind fun r => cont n p (.bin c.1 a r.1) r.2
      | none => some (a, ts)

noncomputable def readArgs : Nat → List Tok → Option (List CExpr × List Tok)
  | 0, _ => none
  | n + 1, ts =>
    match strip (pt ")") ts with
    | some r => some ([], r)
    | none => moreArgs n ts

noncomputable def moreArgs : Nat → List Tok → Option (List CExpr × List Tok)
  | 0, _ => none
  | n + 1, ts => (read n 0 ts).bind fun q =>
    match strip (pt ")") q.2 with
    | some r => some ([q.1], r)
    | none => (strip (pt ",") q.2).bind fun r => (moreArgs n r).map fun z => (q.1 :: z.1, z.2)

end

theorem read_low {n p : Nat} (hp : p ≤ 10) (ts : List Tok) :
    read (n + 1) p ts = (read n (p + 1) ts).bind fun r => cont n p r.1 r.2 := by
  rw [read.eq_def]
  exact if_pos hp

theorem read_cast (n : Nat) (ts : List Tok) : read (n + 1) 11 ts =
    match castAt ts with
    | some c => (read n 11 c.2).map fun r => (.cast c.1 r.1, r.2)
    | none => read n 12 ts := by
  rw [read.eq_def]
  rfl

theorem read_unary (n : Nat) (ts : List Tok) : read (n + 1) 12 ts =
    match unAt ts with
    | some c => (read n 11 c.2).map fun r => (.unary c.1 r.1, r.2)
    | none => read n 13 ts := by
  rw [read.eq_def]
  rfl

theorem read_postfix (n : Nat) (ts : List Tok) : read (n + 1) 13 ts =
    match callAt ts with
    | some c => (readArgs n c.2).map fun r => (.call c.1 r.1, r.2)
    | none => read n 14 ts := by
  rw [read.eq_def]
  rfl

theorem read_number (n : Nat) (w : List Char) (r : List Tok) :
    read (n + 1) 14 (.number w :: r) = some (.num (litVal w), r) := by
  rw [read.eq_def]
  rfl

theorem read_word (n : Nat) (w : List Char) (r : List Tok) : read (n + 1) 14 (.word w :: r) =
    if w = "true".toList then some (.bool true, r)
    else if w = "false".toList then some (.bool false, r)
    else some (.var w, r) := by
  rw [read.eq_def]
  rfl

theorem read_paren (n : Nat) (w : List Char) (r : List Tok) : read (n + 1) 14 (.punct w :: r) =
    (read n 0 r).bind fun q => (strip (pt ")") q.2).map (q.1, ·) := by
  rw [read.eq_def]
  rfl

/-- With enough fuel. -/
def Ev {α : Type} (f : Nat → Option α) (a : α) : Prop := ∃ N, ∀ n ≥ N, f n = some a

theorem Ev.pure {α : Type} (a : α) : Ev (fun _ => some a) a := ⟨0, fun _ _ => rfl⟩

theorem Ev.succ {α : Type} {f g : Nat → Option α} {a : α} (h : Ev g a) (hf : ∀ n, f (n + 1) = g n) :
    Ev f a := by
  obtain ⟨N, h⟩ := h
  refine ⟨N + 1, fun n hn => ?_⟩
  obtain ⟨m, rfl⟩ : ∃ m, n = m + 1 := ⟨n - 1, by omega⟩
  rw [hf]
  exact h m (by omega)

theorem Ev.bind {α β : Type} {f : Nat → Option α} {g : Nat → α → Option β} {a : α} {b : β} (h : Ev f a)
    (h' : Ev (fun n => g n a) b) : Ev (fun n => (f n).bind (g n)) b := by
  obtain ⟨N, h⟩ := h
  obtain ⟨M, h'⟩ := h'
  refine ⟨max N M, fun n hn => ?_⟩
  simp only [h n (by omega), Option.bind_some]
  exact h' n (by omega)

theorem Ev.map {α β : Type} {f : Nat → Option α} {g : α → β} {a : α} (h : Ev f a) :
    Ev (fun n => (f n).map g) (g a) := by
  obtain ⟨N, h⟩ := h
  exact ⟨N, fun n hn => by simp only [h n hn, Option.map_some]⟩

theorem Ev.congr {α : Type} {f g : Nat → Option α} {a : α} (h : Ev g a) (hf : ∀ n, f n = g n) : Ev f a := by
  obtain ⟨N, h⟩ := h
  exact ⟨N, fun n hn => by rw [hf]; exact h n hn⟩

theorem Ev.unique {α : Type} {f : Nat → Option α} {a b : α} (h : Ev f a) (h' : Ev f b) : a = b := by
  obtain ⟨N, h⟩ := h
  obtain ⟨M, h'⟩ := h'
  have h1 := h (max N M) (by omega)
  rw [h' (max N M) (by omega)] at h1
  exact (Option.some.inj h1).symm

/-! ## What derived sequences begin with -/

theorem level_range (op : BinOp) : 1 ≤ op.level ∧ op.level ≤ 10 := by cases op <;> decide

theorem binTok_inj : ∀ {a b : BinOp}, a.tok = b.tok → a = b := by
  intro a b h
  revert h
  cases a <;> cases b <;> decide

theorem binTok_ne (op : BinOp) : op.tok ≠ pt "(" ∧ op.tok ≠ pt "?" ∧ op.tok ≠ pt ")" ∧ op.tok ≠ pt ":" ∧
    op.tok ≠ pt "," := by
  cases op <;> decide

theorem unTok_ne (op : UnOp) : op.tok ≠ pt "(" ∧ op.tok ≠ pt ")" := by
  cases op <;> decide

/-- The first tokens of an expression of the level. -/
def First (p : Nat) (ts : List Tok) : Prop :=
  ∃ t r, ts = t :: r ∧ t ≠ pt ")" ∧
    ((∃ w, t = .number w) ∨ (∃ w, t = .word w ∧ w ∉ typeHeads) ∨ t = pt "(" ∨ (p ≤ 12 ∧ ∃ op : UnOp, t = op.tok)) ∧
    (12 ≤ p → t = pt "(" → ∃ u r', r = u :: r' ∧ ∀ w, u = .word w → w ∉ typeHeads)

theorem derives_level {d : Dialect} {p : Nat} {ts : List Tok} {e : CExpr} (h : Derives d p ts e) : p ≤ 14 := by
  refine Derives.rec (motive_1 := fun p _ _ _ => p ≤ 14) (motive_2 := fun _ _ _ => True)
    ?_ ?_ ?_ ?_ ?_ ?_ ?_ ?_ ?_ ?_ ?_ ?_ ?_ ?_ h
  all_goals first
    | (intros; trivial)
    | (intros; omega)
    | skip
  all_goals
    intros
    rename_i op _ _ _ _
    have := level_range op
    omega

theorem derives_first {d : Dialect} {p : Nat} {ts : List Tok} {e : CExpr} (h : Derives d p ts e) :
    First p ts := by
  refine Derives.rec (motive_1 := fun p ts _ _ => First p ts) (motive_2 := fun _ _ _ => True)
    ?up ?cond ?bin ?cast ?unary ?call ?num ?true_ ?false_ ?var ?paren ?nil ?one ?more h
  case up =>
    rintro p ts e _ ⟨t, r, h1, h0, h2, h3⟩
    refine ⟨t, r, h1, h0, ?_, fun hp => h3 (by omega)⟩
    rcases h2 with h | h | h | ⟨hp, h⟩
    · exact .inl h
    · exact .inr (.inl h)
    · exact .inr (.inr (.inl h))
    · exact .inr (.inr (.inr ⟨by omega, h⟩))
  case cond =>
    rintro c a b c' a' b' _ _ _ ⟨t, r, rfl, h0, h2, _⟩ _ _
    refine ⟨t, _, rfl, h0, ?_, fun hp => by omega⟩
    rcases h2 with h | h | h | ⟨hp, h⟩
    · exact .inl h
    · exact .inr (.inl h)
    · exact .inr (.inr (.inl h))
    · exact .inr (.inr (.inr ⟨by omega, h⟩))
  case bin =>
    rintro l r a b op _ _ ⟨t, r', rfl, h0, h2, _⟩ _
    have := level_range op
    refine ⟨t, _, rfl, h0, ?_, fun hp => by omega⟩
    rcases h2 with h | h | h | ⟨hp, h⟩
    · exact .inl h
    · exact .inr (.inl h)
    · exact .inr (.inr (.inl h))
    · exact .inr (.inr (.inr ⟨by omega, h⟩))
  case cast =>
    intro t ty ts e _ _ _
    exact ⟨_, _, rfl, by decide, .inr (.inr (.inl rfl)), fun hp => by omega⟩
  case unary =>
    intro ts e op _ _
    exact ⟨_, _, rfl, (unTok_ne op).2, .inr (.inr (.inr ⟨by omega, op, rfl⟩)),
      fun _ h => absurd h (unTok_ne op).1⟩
  case call =>
    intro x ts as hx _ _
    exact ⟨_, _, rfl, by simp [pt], .inr (.inl ⟨_, rfl, fun h => hx.2 (typeHeads_reserved _ h)⟩), by simp [pt]⟩
  case num =>
    intro w n _
    exact ⟨_, _, rfl, by simp [pt], .inl ⟨_, rfl⟩, by simp [pt]⟩
  case true_ =>
    exact ⟨_, _, rfl, by decide, .inr (.inl ⟨_, rfl, by decide⟩), by simp [pt, kw]⟩
  case false_ =>
    exact ⟨_, _, rfl, by decide, .inr (.inl ⟨_, rfl, by decide⟩), by simp [pt, kw]⟩
  case var =>
    intro x hx
    exact ⟨_, _, rfl, by simp [pt], .inr (.inl ⟨_, rfl, fun h => hx.2 (typeHeads_reserved _ h)⟩), by simp [pt]⟩
  case paren =>
    rintro ts e _ ⟨t, r, rfl, h0, h2, _⟩
    refine ⟨_, _, rfl, by decide, .inr (.inr (.inl rfl)), fun _ _ => ⟨t, _, rfl, ?_⟩⟩
    rintro w rfl
    rcases h2 with ⟨w', h⟩ | ⟨w', h, h'⟩ | h | ⟨_, op, h⟩
    · cases h
    · cases h; exact h'
    · cases h
    · cases op <;> cases h
  all_goals (intros; trivial)

/-! ## Every derivation is what is read -/

/-- What may follow an expression of the level. -/
def Fine (p : Nat) (r : List Tok) : Prop :=
  ∀ t ∈ r.head?, t ≠ pt "(" ∧ (∀ op : BinOp, t = op.tok → op.level ≤ p) ∧ (p = 0 → t ≠ pt "?")

theorem Fine.mono {p q : Nat} {r : List Tok} (h : Fine p r) (hpq : p ≤ q) : Fine q r := by
  intro t ht
  obtain ⟨h1, h2, h3⟩ := h t ht
  exact ⟨h1, fun op ho => Nat.le_trans (h2 op ho) hpq, fun hq => h3 (by omega)⟩

/-- What comes after an expression: on the levels with operators, more may follow. -/
noncomputable def after (n p : Nat) (e : CExpr) (r : List Tok) : Option (CExpr × List Tok) :=
  if p ≤ 10 then cont n p e r else some (e, r)

def Claim (p : Nat) (ts : List Tok) (e : CExpr) : Prop :=
  ∀ rest res, Fine p rest → Ev (fun n => after n p e rest) res → Ev (fun n => read n p (ts ++ rest)) res

/-- Nothing more follows. -/
theorem cont_stop {p : Nat} {e : CExpr} {r : List Tok} (hp : p ≤ 10)
    (h : ∀ t ∈ r.head?, (∀ op : BinOp, t = op.tok → op.level ≠ p) ∧ (p = 0 → t ≠ pt "?")) :
    Ev (fun n => cont n p e r) (e, r) := by
  refine Ev.succ (.pure _) fun n => ?_
  rw [cont]
  by_cases hp0 : p = 0
  · rw [if_pos hp0]
    have : strip (pt "?") r = none := by
      cases r with
      | nil => rfl
      | cons t r => exact strip_ne ((h t rfl).2 hp0) r
    rw [this]
  · rw [if_neg hp0, binAt_none fun t ht => (h t ht).1]

theorem after_stop {p q : Nat} {e : CExpr} {r : List Tok} (h : Fine p r) (hq : p < q) :
    Ev (fun n => after n q e r) (e, r) := by
  unfold after
  by_cases hp : q ≤ 10
  · simp only [if_pos hp]
    refine cont_stop hp fun t ht => ?_
    obtain ⟨_, h2, h3⟩ := h t ht
    exact ⟨fun op ho => by have := h2 op ho; omega, fun h => by omega⟩
  · simp only [if_neg hp]
    exact .pure _

theorem after_zero {e : CExpr} {r : List Tok} (h : Fine 0 r) : Ev (fun n => after n 0 e r) (e, r) := by
  unfold after
  simp only [Nat.zero_le, if_true]
  refine cont_stop (by omega) fun t ht => ?_
  obtain ⟨_, h2, h3⟩ := h t ht
  exact ⟨fun op ho => by have := h2 op ho; have := level_range op; omega, h3⟩

theorem fine_punct {p : Nat} {s : String} {r : List Tok} (h1 : pt s ≠ pt "(") (h2 : ∀ op : BinOp, pt s ≠ op.tok)
    (h3 : pt s ≠ pt "?") : Fine p (pt s :: r) := by
  intro t ht
  cases ht
  exact ⟨h1, fun op ho => absurd ho (h2 op), fun _ => h3⟩

theorem close_fine {p : Nat} {r : List Tok} : Fine p (pt ")" :: r) :=
  fine_punct (by decide) (fun op h => (binTok_ne op).2.2.1 h.symm) (by decide)

theorem colon_fine {p : Nat} {r : List Tok} : Fine p (pt ":" :: r) :=
  fine_punct (by decide) (fun op h => (binTok_ne op).2.2.2.1 h.symm) (by decide)

theorem comma_fine {p : Nat} {r : List Tok} : Fine p (pt "," :: r) :=
  fine_punct (by decide) (fun op h => (binTok_ne op).2.2.2.2 h.symm) (by decide)

theorem question_fine {p : Nat} {r : List Tok} (hp : p ≠ 0) : Fine p (pt "?" :: r) := by
  intro t ht
  cases ht
  exact ⟨by decide, fun op ho => absurd ho.symm (binTok_ne op).2.1, fun h => absurd h hp⟩

theorem op_fine {op : BinOp} {r : List Tok} : Fine op.level (op.tok :: r) := by
  intro t ht
  cases ht
  refine ⟨(binTok_ne op).1, fun op' ho => by rw [binTok_inj ho]; exact Nat.le_refl _, fun h => ?_⟩
  have := level_range op
  omega

theorem derives_primary {d : Dialect} {ts : List Tok} {e : CExpr} (h : Derives d 14 ts e) :
    (∃ w, ts = [.word w]) ∨ ∃ t r, ts = t :: r ∧ ∀ w, t ≠ .word w := by
  generalize hp : 14 = p at h
  cases h with
  | up h => exact absurd (derives_level h) (by omega)
  | cond => omega
  | @bin _ _ _ _ op => have := level_range op; omega
  | cast => omega
  | unary => omega
  | call => omega
  | num => exact .inr ⟨_, _, rfl, by simp⟩
  | true_ => exact .inl ⟨_, rfl⟩
  | false_ => exact .inl ⟨_, rfl⟩
  | var => exact .inl ⟨_, rfl⟩
  | paren => exact .inr ⟨_, _, rfl, by simp [pt]⟩

theorem callAt_none {d : Dialect} {ts rest : List Tok} {e : CExpr} (h : Derives d 14 ts e) {p : Nat}
    (hf : Fine p rest) : callAt (ts ++ rest) = none := by
  rcases derives_primary h with ⟨w, rfl⟩ | ⟨t, r, rfl, ht⟩
  · cases rest with
    | nil => rfl
    | cons u rest => simp only [List.cons_append, List.nil_append, callAt, if_neg (hf u rfl).1]
  · cases t with
    | word w => exact absurd rfl (ht w)
    | number w => rfl
    | punct w => rfl

theorem claim_up {d : Dialect} {p : Nat} {ts : List Tok} {e : CExpr} (hd : Derives d (p + 1) ts e)
    (h : Claim (p + 1) ts e) : Claim p ts e := by
  intro rest res hf ha
  have hlev := derives_level hd
  by_cases hp : p ≤ 10
  · have h1 := h rest (e, rest) (hf.mono (by omega)) (after_stop hf (by omega))
    refine Ev.succ (h1.bind (g := fun n r => cont n p r.1 r.2) ?_) fun n => by
      show read (n + 1) p _ = _
      rw [read_low hp]
    exact ha.congr fun n => by simp only [after, if_pos hp]
  · have h2 : res = (e, rest) := by
      refine ha.unique (Ev.congr (.pure _) fun n => ?_)
      simp only [after, if_neg hp]
    subst h2
    have h1 := h rest (e, rest) (hf.mono (by omega)) (after_stop hf (by omega))
    obtain ⟨t, r, rfl, h0, hfst, hsnd⟩ := derives_first hd
    obtain rfl | rfl | rfl : p = 11 ∨ p = 12 ∨ p = 13 := by omega
    · refine Ev.succ h1 fun n => ?_
      show read (n + 1) _ _ = _
      rw [read_cast]
      have : castAt (t :: r ++ rest) = none := by
        by_cases ht : t = pt "("
        · obtain ⟨u, r', rfl, hu⟩ := hsnd (by omega) ht
          subst ht
          cases u with
          | word w =>
            simp only [List.cons_append, castAt, if_true, typeAt_none (hu w rfl)]
          | number w => rfl
          | punct w => rfl
        · rw [List.cons_append]
          cases r ++ rest with
          | nil => rfl
          | cons u r' =>
            cases u with
            | word w => simp only [castAt, if_neg ht]
            | number w => rfl
            | punct w => rfl
      rw [this]
    · refine Ev.succ h1 fun n => ?_
      show read (n + 1) _ _ = _
      rw [read_unary]
      have : unAt (t :: r ++ rest) = none := by
        refine unAt_none fun t' ht' op hop => ?_
        cases ht'
        rcases hfst with ⟨w, h⟩ | ⟨w, h, _⟩ | h | ⟨h, _⟩
        · rw [h] at hop; cases op <;> cases hop
        · rw [h] at hop; cases op <;> cases hop
        · rw [h] at hop; exact (unTok_ne op).1 hop.symm
        · omega
      rw [this]
    · refine Ev.succ h1 fun n => ?_
      show read (n + 1) _ _ = _
      rw [read_postfix, callAt_none hd hf]

theorem claim_cond {c a b : List Tok} {c' a' b' : CExpr} (hc : Claim 1 c c') (ha : Claim 0 a a')
    (hb : Claim 0 b b') : Claim 0 (c ++ pt "?" :: a ++ pt ":" :: b) (.cond c' a' b') := by
  intro rest res hf haft
  have hres : res = (.cond c' a' b', rest) := haft.unique (after_zero hf)
  subst hres
  have hb' := hb rest (b', rest) hf (after_zero hf)
  have ha' := ha (pt ":" :: (b ++ rest)) (a', pt ":" :: (b ++ rest)) colon_fine (after_zero colon_fine)
  have hc' := hc (pt "?" :: (a ++ pt ":" :: (b ++ rest))) (c', pt "?" :: (a ++ pt ":" :: (b ++ rest))) (question_fine (by omega))
    (by
      unfold after
      simp only [show (1 : Nat) ≤ 10 by omega, if_true]
      refine cont_stop (e := c') (by omega) fun t ht => ?_
      cases ht
      exact ⟨fun op ho => absurd ho.symm (binTok_ne op).2.1, fun h => by omega⟩)
  refine Ev.succ (hc'.bind (g := fun n r => cont n 0 r.1 r.2) ?_) fun n => by
    show read (n + 1) 0 _ = _
    rw [read_low (by omega)]
    simp only [List.append_assoc, List.cons_append]
  refine Ev.succ (g := fun n => (read n 0 (a ++ pt ":" :: (b ++ rest))).bind fun q =>
      (strip (pt ":") q.2).bind fun r => (read n 0 r).map fun z => (.cond c' q.1 z.1, z.2)) ?_ fun n => by
    show cont (n + 1) 0 _ _ = _
    rw [cont, if_pos rfl, strip_self]
  refine ha'.bind (g := fun n q => (strip (pt ":") q.2).bind fun r =>
    (read n 0 r).map fun z => (CExpr.cond c' q.1 z.1, z.2)) ?_
  simp only [strip_self, Option.bind_some]
  exact hb'.map (g := fun z => (CExpr.cond c' a' z.1, z.2))

theorem claim_bin {l r : List Tok} {a b : CExpr} {op : BinOp} (hl : Claim op.level l a)
    (hr : Claim (op.level + 1) r b) : Claim op.level (l ++ op.tok :: r) (.bin op a b) := by
  intro rest res hf haft
  have hlev := level_range op
  have h1 := hr rest (b, rest) (hf.mono (by omega)) (after_stop hf (by omega))
  rw [List.append_assoc, List.cons_append]
  refine hl _ _ op_fine ?_
  unfold after at haft ⊢
  simp only [if_pos hlev.2] at haft ⊢
  refine Ev.succ (h1.bind (g := fun n q => cont n op.level (.bin op a q.1) q.2) haft) fun n => ?_
  show cont (n + 1) _ _ _ = _
  rw [cont, if_neg (by omega), binAt_self]

theorem claim_high {p : Nat} {e : CExpr} {rest : List Tok} {res : CExpr × List Tok} (hp : ¬ p ≤ 10)
    (h : Ev (fun n => after n p e rest) res) : res = (e, rest) := by
  refine h.unique (Ev.congr (.pure _) fun n => ?_)
  simp only [after, if_neg hp]

theorem claim_cast {d : Dialect} {t : List Tok} {ty : Ty} {ts : List Tok} {e : CExpr} (ht : TypeName d t ty)
    (h : Claim 11 ts e) : Claim 11 (pt "(" :: t ++ pt ")" :: ts) (.cast ty e) := by
  intro rest res hf haft
  rw [claim_high (by omega) haft]
  have h1 := h rest (e, rest) hf (Ev.congr (.pure _) fun n => by simp [after])
  refine Ev.succ (h1.map (g := fun r => (CExpr.cast ty r.1, r.2))) fun n => ?_
  show read (n + 1) 11 _ = _
  rw [read_cast]
  have := castAt_self ht (ts ++ rest)
  simp only [List.cons_append, List.append_assoc] at this ⊢
  rw [this]

theorem claim_unary {ts : List Tok} {e : CExpr} {op : UnOp} (h : Claim 11 ts e) :
    Claim 12 (op.tok :: ts) (.unary op e) := by
  intro rest res hf haft
  rw [claim_high (by omega) haft]
  have h1 := h rest (e, rest) (fun t ht => ?_) (Ev.congr (.pure _) fun n => by simp [after])
  · refine Ev.succ (h1.map (g := fun r => (CExpr.unary op r.1, r.2))) fun n => ?_
    show read (n + 1) 12 _ = _
    rw [read_unary, List.cons_append, unAt_self]
  · obtain ⟨h1, _, h3⟩ := hf t ht
    exact ⟨h1, fun op _ => by have := level_range op; omega, fun h => by omega⟩

def ClaimArgs (ts : List Tok) (es : List CExpr) : Prop :=
  (es = [] ∧ ts = []) ∨ (es ≠ [] ∧ First 0 ts ∧
    ∀ rest, Ev (fun n => moreArgs n (ts ++ pt ")" :: rest)) (es, rest))

theorem claim_one {d : Dialect} {ts : List Tok} {e : CExpr} (hd : Derives d 0 ts e) (h : Claim 0 ts e) :
    ClaimArgs ts [e] := by
  refine .inr ⟨by simp, derives_first hd, fun rest => ?_⟩
  have h1 := h (pt ")" :: rest) _ close_fine (after_zero close_fine)
  refine Ev.succ (h1.bind (g := fun n q =>
    match strip (pt ")") q.2 with
    | some r => some ([q.1], r)
    | none => (strip (pt ",") q.2).bind fun r => (moreArgs n r).map fun z => (q.1 :: z.1, z.2)) ?_) fun n => by
      show moreArgs (n + 1) _ = _
      rw [moreArgs]
  simp only [strip_self]
  exact .pure _

theorem claim_more {d : Dialect} {ts rs : List Tok} {e : CExpr} {es : List CExpr} (hd : Derives d 0 ts e)
    (h : Claim 0 ts e) (hs : ClaimArgs rs es) (hne : es ≠ []) : ClaimArgs (ts ++ pt "," :: rs) (e :: es) := by
  rcases hs with ⟨h1, _⟩ | ⟨_, _, h2⟩
  · exact absurd h1 hne
  · refine .inr ⟨by simp, ?_, fun rest => ?_⟩
    · obtain ⟨t, r, rfl, h0, h3, h4⟩ := derives_first hd
      exact ⟨t, _, rfl, h0, h3, fun h => by omega⟩
    · have h1 := h (pt "," :: (rs ++ pt ")" :: rest)) _ comma_fine (after_zero comma_fine)
      rw [List.append_assoc, List.cons_append]
      refine Ev.succ (h1.bind (g := fun n q =>
        match strip (pt ")") q.2 with
        | some r => some ([q.1], r)
        | none => (strip (pt ",") q.2).bind fun r => (moreArgs n r).map fun z => (q.1 :: z.1, z.2)) ?_) fun n => by
          show moreArgs (n + 1) _ = _
          rw [moreArgs]
      simp only [strip_ne (show pt "," ≠ pt ")" by decide), strip_self, Option.bind_some]
      exact (h2 rest).map (g := fun z => (e :: z.1, z.2))

theorem claim_call {x : List Char} {ts : List Tok} {as : List CExpr} (h : ClaimArgs ts as) :
    Claim 13 (.word x :: pt "(" :: ts ++ [pt ")"]) (.call x as) := by
  intro rest res hf haft
  rw [claim_high (by omega) haft]
  have h1 : Ev (fun n => readArgs n (ts ++ pt ")" :: rest)) (as, rest) := by
    rcases h with ⟨rfl, rfl⟩ | ⟨_, ⟨t, r, rfl, h0, _, _⟩, h2⟩
    · refine Ev.succ (.pure _) fun n => ?_
      show readArgs (n + 1) _ = _
      rw [readArgs, List.nil_append, strip_self]
    · refine Ev.succ (h2 rest) fun n => ?_
      show readArgs (n + 1) _ = _
      rw [readArgs, List.cons_append, strip_ne h0]
  refine Ev.succ (h1.map (g := fun r => (CExpr.call x r.1, r.2))) fun n => ?_
  show read (n + 1) 13 _ = _
  rw [read_postfix]
  simp only [List.cons_append, List.append_assoc, List.nil_append, callAt, if_true]

theorem claim_paren {ts : List Tok} {e : CExpr} (h : Claim 0 ts e) :
    Claim 14 (pt "(" :: ts ++ [pt ")"]) e := by
  intro rest res hf haft
  rw [claim_high (by omega) haft]
  have h1 := h (pt ")" :: rest) _ close_fine (after_zero close_fine)
  refine Ev.succ (h1.bind (g := fun _ q => (strip (pt ")") q.2).map (q.1, ·)) ?_) fun n => by
    show read (n + 1) 14 _ = _
    rw [List.cons_append, List.cons_append, List.append_assoc, List.cons_append, List.nil_append]
    exact read_paren n _ _
  simp only [strip_self, Option.map_some]
  exact .pure _

theorem derives_claim {d : Dialect} {p : Nat} {ts : List Tok} {e : CExpr} (h : Derives d p ts e) :
    Claim p ts e := by
  refine Derives.rec (motive_1 := fun p ts e _ => Claim p ts e) (motive_2 := fun ts es _ => ClaimArgs ts es)
    ?up ?cond ?bin ?cast ?unary ?call ?num ?true_ ?false_ ?var ?paren ?nil ?one ?more h
  case up => exact fun hd ih => claim_up hd ih
  case cond => exact fun _ _ _ h1 h2 h3 => claim_cond h1 h2 h3
  case bin => exact fun _ _ h1 h2 => claim_bin h1 h2
  case cast => exact fun ht _ ih => claim_cast ht ih
  case unary => exact fun _ ih => claim_unary ih
  case call => exact fun _ _ ih => claim_call ih
  case num =>
    intro w n hw rest res hf haft
    rw [claim_high (by omega) haft, ← litVal_eq hw]
    refine Ev.succ (.pure _) fun n => ?_
    show read (n + 1) 14 _ = _
    first
      | exact read_number _ _ _
      | (rw [List.cons_append, List.nil_append, kw, read_word]; rfl)
  case true_ =>
    intro rest res hf haft
    rw [claim_high (by omega) haft]
    refine Ev.succ (.pure _) fun n => ?_
    show read (n + 1) 14 _ = _
    first
      | exact read_number _ _ _
      | (rw [List.cons_append, List.nil_append, kw, read_word]; rfl)
  case false_ =>
    intro rest res hf haft
    rw [claim_high (by omega) haft]
    refine Ev.succ (.pure _) fun n => ?_
    show read (n + 1) 14 _ = _
    first
      | exact read_number _ _ _
      | (rw [List.cons_append, List.nil_append, kw, read_word]; rfl)
  case var =>
    intro x hx rest res hf haft
    rw [claim_high (by omega) haft]
    refine Ev.succ (.pure _) fun n => ?_
    show read (n + 1) 14 _ = _
    rw [List.cons_append, List.nil_append, read_word]
    have h1 : x ≠ "true".toList := fun h => hx.2 (h ▸ by decide)
    have h2 : x ≠ "false".toList := fun h => hx.2 (h ▸ by decide)
    rw [if_neg h1, if_neg h2]
  case paren => exact fun _ ih => claim_paren ih
  case nil => exact .inl ⟨rfl, rfl⟩
  case one => exact fun hd ih => claim_one hd ih
  case more => exact fun hd _ hne ih1 ih2 => claim_more hd ih1 ih2 hne

/-- A sequence of tokens is derived as only one tree. -/
theorem Derives.unique {d d' : Dialect} {ts : List Tok} {e e' : CExpr} (h : Derives d 0 ts e)
    (h' : Derives d' 0 ts e') : e = e' := by
  have h1 := derives_claim h [] (e, []) (by simp [Fine]) (after_zero (by simp [Fine]))
  have h2 := derives_claim h' [] (e', []) (by simp [Fine]) (after_zero (by simp [Fine]))
  exact congrArg Prod.fst (h1.unique h2)

end Bms.C
