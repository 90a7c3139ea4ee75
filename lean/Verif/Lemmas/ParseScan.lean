import Verif.Lemmas.ParseSound

/-!
# The search for a comparison operator
-/

namespace Bms.Parse

open Spec (Tree Derives Sym tok ident lexeme unobstructed comparisonOperators)

/-- `shouldCommit` depends on the types of the tokens. -/
def commitT (level : UInt64) : List TokenType → Bool
  | [] => false
  | t :: ts =>
    match t with
    | .left_brace | .right_brace | .semicolon => false
    | .left_parenthesis => commitT (level + 1) ts
    | .right_parenthesis => commitT (level - 1) ts
    | ty =>
      if level ≠ 0 then commitT level ts
      else if ty = .keyword_if then false
      else if ty.isComparisonOperator then true
      else commitT level ts

theorem shouldCommit_eq (level : UInt64) (ts : List Token) :
    shouldCommit level ts = commitT level (ts.map (·.type)) := by
  induction ts generalizing level with
  | nil => rfl
  | cons t ts ih =>
    simp only [shouldCommit, List.map_cons, commitT]
    split <;> simp_all

/-- The token ends the search. -/
def isDelim (t : TokenType) : Bool := t = .left_brace || t = .right_brace || t = .semicolon

theorem commitT_cons (level : UInt64) (t : TokenType) (ts : List TokenType) :
    commitT level (t :: ts) =
      if isDelim t then false
      else if t = .left_parenthesis then commitT (level + 1) ts
      else if t = .right_parenthesis then commitT (level - 1) ts
      else if level ≠ 0 then commitT level ts
      else if t = .keyword_if then false
      else if t.isComparisonOperator then true
      else commitT level ts := by
  cases t <;> rfl

theorem isComparison_iff (t : TokenType) :
    t.isComparisonOperator = true ↔ t ∈ comparisonOperators := by
  cases t <;> decide

theorem level_succ (a b : Nat) :
    UInt64.ofNat a - UInt64.ofNat b + 1 = UInt64.ofNat (a + 1) - UInt64.ofNat b := by
  rw [UInt64.ofNat_add]
  show _ = UInt64.ofNat a + 1 - UInt64.ofNat b
  grind

theorem level_pred (a b : Nat) (h : a ≠ 0) :
    UInt64.ofNat a - UInt64.ofNat b - 1 = UInt64.ofNat (a - 1) - UInt64.ofNat b := by
  obtain ⟨a, rfl⟩ := Nat.exists_eq_succ_of_ne_zero h
  have : UInt64.ofNat a.succ = UInt64.ofNat a + 1 := UInt64.ofNat_add a 1
  rw [this]
  simp only [Nat.succ_eq_add_one, Nat.add_sub_cancel]
  grind

theorem level_zero {a b : Nat} (ha : a < 2 ^ 64) (hb : b < 2 ^ 64) :
    UInt64.ofNat a - UInt64.ofNat b = 0 ↔ a = b := by
  constructor
  · intro h
    have h : UInt64.ofNat a = UInt64.ofNat b := by grind
    have := congrArg UInt64.toNat h
    simpa [UInt64.toNat_ofNat', Nat.mod_eq_of_lt ha, Nat.mod_eq_of_lt hb] using this
  · rintro rfl; simp

/-- After another expression at depth `d`, the search from depth `d` finds nothing. -/
theorem commitT_after (ts : List TokenType) {after : Nat → Bool} {depth d : Nat}
    (ha : after d = true) (hd : d < 2 ^ 64) (hb : depth + ts.length < 2 ^ 64)
    (hu : unobstructed after depth ts = true) :
    commitT (UInt64.ofNat depth - UInt64.ofNat d) ts = false := by
  induction ts generalizing after depth with
  | nil => rfl
  | cons t ts ih =>
    rw [commitT_cons]
    simp only [List.length_cons] at hb
    rw [unobstructed] at hu
    by_cases h1 : t = .left_parenthesis
    · subst h1
      simp only [if_true, isDelim, reduceCtorEq] at hu ⊢
      simp only [decide_false, Bool.or_self, Bool.false_eq_true, if_false]
      rw [level_succ]
      exact ih ha (by omega) hu
    by_cases h2 : t = .right_parenthesis
    · subst h2
      simp only [if_true, if_false, isDelim, reduceCtorEq, Bool.and_eq_true,
        decide_eq_true_eq] at hu ⊢
      simp only [decide_false, Bool.or_self, Bool.false_eq_true, if_false]
      rw [level_pred _ _ (by simpa using hu.1)]
      exact ih (by simp [ha]) (by omega) hu.2
    rw [if_neg h1, if_neg h2] at hu
    rw [if_neg h1, if_neg h2]
    split
    · rfl
    rename_i hdel
    have hdel' : ¬(t = .left_brace ∨ t = .right_brace ∨ t = .semicolon) := by
      simpa [isDelim, or_assoc] using hdel
    by_cases h3 : t = .comma ∨ t = .keyword_else
    · rw [if_pos h3] at hu
      have := ih (after := fun d => d = depth || after d) (by simp [ha]) (by omega) hu
      rw [this]
      rcases h3 with rfl | rfl <;> simp [TokenType.isComparisonOperator]
    rw [if_neg h3] at hu
    by_cases h4 : t = .keyword_if
    · subst h4
      simp only [if_true] at hu
      split
      · rename_i hne
        refine ih ?_ (by omega) hu
        have : depth ≠ d := fun e => hne ((level_zero (by omega) hd).mpr e)
        simp [ha, Ne.symm this]
      · rfl
    rw [if_neg h4, if_neg hdel'] at hu
    rw [if_neg h4]
    by_cases h5 : t ∈ comparisonOperators
    · rw [if_pos h5] at hu
      simp only [Bool.and_eq_true, Bool.not_eq_true'] at hu
      have : depth ≠ d := fun e => by rw [e, ha] at hu; cases hu.1
      rw [if_pos (fun e => this ((level_zero (by omega) hd).mp e))]
      exact ih ha (by omega) hu.2
    · rw [if_neg h5] at hu
      rw [if_neg (fun h => h5 ((isComparison_iff t).mp h))]
      have := ih ha (by omega) hu
      split <;> exact this

/-! ## Balanced parentheses -/

/-- The parenthesis depth after tokens. -/
def depthAfter (d : Nat) : List TokenType → Option Nat
  | [] => some d
  | t :: ts =>
    if t = .left_parenthesis then depthAfter (d + 1) ts
    else if t = .right_parenthesis then if d = 0 then none else depthAfter (d - 1) ts
    else depthAfter d ts

theorem depthAfter_append (d : Nat) (ts ts' : List TokenType) :
    depthAfter d (ts ++ ts') = (depthAfter d ts).bind fun d' => depthAfter d' ts' := by
  induction ts generalizing d with
  | nil => rfl
  | cons t ts ih =>
    simp only [List.cons_append, depthAfter]
    split
    · exact ih _
    split
    · split
      · rfl
      · exact ih _
    · exact ih _

theorem depthAfter_other {d : Nat} {t : TokenType} {ts : List TokenType}
    (h : t ≠ .left_parenthesis) (h' : t ≠ .right_parenthesis) :
    depthAfter d (t :: ts) = depthAfter d ts := by
  rw [depthAfter, if_neg h, if_neg h']

/-- The types of lexemes. -/
abbrev types (w : List Spec.Terminal) : List TokenType := w.map Prod.fst

theorem types_map (src : List Char) (ts : List Token) :
    types (ts.map (lexeme src)) = ts.map (·.type) := by
  simp [types, List.map_map, Function.comp_def, lexeme]

theorem balanced {l : Bool} {sym : Sym} {w : List Spec.Terminal} {ts : List (Option Tree)}
    (h : Derives l sym w ts) (d : Nat) : depthAfter d (types w) = some d := by
  have op : ∀ {d t} {w : List TokenType} {L : List TokenType}, t ∈ L →
      TokenType.left_parenthesis ∉ L → TokenType.right_parenthesis ∉ L →
      depthAfter d (t :: w) = depthAfter d w := fun ht h1 h2 =>
    depthAfter_other (fun e => h1 (e ▸ ht)) (fun e => h2 (e ▸ ht))
  induction h generalizing d with
  | integer ht => simp only [types, List.map]; rw [op ht (by decide) (by decide)]; rfl
  | boolean ht => simp only [types, List.map]; rw [op ht (by decide) (by decide)]; rfl
  | argumentValue ht => simp only [types, List.map]; rw [op ht (by decide) (by decide)]; rfl
  | keyValue ht =>
    simp only [types, List.map, ident, tok]
    rw [depthAfter_other (by decide) (by decide), depthAfter_other (by decide) (by decide),
      op ht (by decide) (by decide)]; rfl
  | unary ht _ ih =>
    simp only [types, List.map, tok] at ih ⊢
    rw [op ht (by decide) (by decide)]; exact ih d
  | arithmetic ht _ _ ih ih' =>
    simp only [types, List.map_append, List.map, tok, depthAfter_append] at ih ih' ⊢
    rw [ih, Option.bind_some, op ht (by decide) (by decide)]; exact ih' d
  | comparison ht _ _ ih ih' =>
    simp only [types, List.map_append, List.map, tok, depthAfter_append] at ih ih' ⊢
    rw [ih, Option.bind_some, op ht (by decide) (by decide)]; exact ih' d
  | binary ht _ _ ih ih' =>
    simp only [types, List.map_append, List.map, tok, depthAfter_append] at ih ih' ⊢
    rw [ih, Option.bind_some, op ht (by decide) (by decide)]; exact ih' d
  | elseIf _ ih =>
    have := ih d
    simp only [types, List.map, tok] at this ⊢
    rw [depthAfter_other (by decide) (by decide)]; exact this
  | _ => simp_all [types, depthAfter, depthAfter_append, tok, ident]

/-- The nonterminals in expressions. -/
def inExpression : Sym → Bool
  | .primary | .parenthesized | .optArguments | .arguments | .call | .postfix | .prefix
  | .arithmetic | .comparison | .binary | .ifExpression | .conversion | .expression | .type
  | .optAnnotations | .annotations | .annotation | .annotationArguments
  | .annotationArgument => true
  | _ => false

theorem noDelim {l : Bool} {sym : Sym} {w : List Spec.Terminal} {ts : List (Option Tree)}
    (h : Derives l sym w ts) (hs : inExpression sym = true) :
    ∀ t ∈ types w, isDelim t = false := by
  have op : ∀ {t} {L : List TokenType}, t ∈ L → (∀ x ∈ L, isDelim x = false) →
      isDelim t = false := fun ht h => h _ ht
  induction h with
  | integer ht => simp only [types, List.map, List.mem_singleton, forall_eq]; exact op ht (by decide)
  | boolean ht => simp only [types, List.map, List.mem_singleton, forall_eq]; exact op ht (by decide)
  | argumentValue ht =>
    simp only [types, List.map, List.mem_singleton, forall_eq]; exact op ht (by decide)
  | keyValue ht =>
    have := op ht (by decide)
    simp_all [types, ident, tok, isDelim]
  | unary ht _ ih =>
    have := op ht (by decide)
    simp only [types, List.map, tok, List.mem_cons]
    rintro t (rfl | h)
    · exact this
    · exact ih rfl t h
  | arithmetic ht _ _ ih ih' =>
    have := op ht (by decide)
    simp only [types, List.map_append, List.map, tok, List.mem_append, List.mem_cons]
    rintro t (h | rfl | h)
    · exact ih rfl t h
    · exact this
    · exact ih' rfl t h
  | comparison ht _ _ ih ih' =>
    have := op ht (by decide)
    simp only [types, List.map_append, List.map, tok, List.mem_append, List.mem_cons]
    rintro t (h | rfl | h)
    · exact ih rfl t h
    · exact this
    · exact ih' rfl t h
  | binary ht _ _ ih ih' =>
    have := op ht (by decide)
    simp only [types, List.map_append, List.map, tok, List.mem_append, List.mem_cons]
    rintro t (h | rfl | h)
    · exact ih rfl t h
    · exact this
    · exact ih' rfl t h
  | const => cases hs
  | letType => cases hs
  | letInit => cases hs
  | staticAssert => cases hs
  | function => cases hs
  | block => cases hs
  | _ =>
    first
    | (cases hs; done)
    | (simp only [inExpression, forall_const] at *
       simp only [types, List.map_append, List.map, tok, ident, List.mem_append, List.mem_cons,
         List.not_mem_nil, or_false, false_or] at *
       intro t ht
       simp_all [isDelim]
       try grind)

/-- Tokens inside parentheses are skipped. -/
theorem commitT_inside (ts r : List TokenType) {l k k' : Nat} (hl : 0 < l)
    (hd : ∀ t ∈ ts, isDelim t = false) (h : depthAfter k ts = some k')
    (hb : l + k + ts.length < 2 ^ 64) :
    commitT (UInt64.ofNat (l + k)) (ts ++ r) = commitT (UInt64.ofNat (l + k')) r := by
  induction ts generalizing k with
  | nil => cases h; rfl
  | cons t ts ih =>
    have hd' : ∀ t ∈ ts, isDelim t = false := fun x hx => hd x (by simp [hx])
    simp only [List.length_cons] at hb
    rw [List.cons_append, commitT_cons, if_neg (by simp [hd t (by simp)])]
    have e0 : ∀ a, UInt64.ofNat a - UInt64.ofNat 0 = UInt64.ofNat a := fun a => by
      show UInt64.ofNat a - 0 = _; grind
    rw [depthAfter] at h
    split at h
    · rename_i ht
      rw [if_pos ht]
      have := level_succ (l + k) 0
      rw [e0, e0] at this
      rw [this]
      exact ih (k := k + 1) hd' h (by omega)
    rename_i h1
    split at h
    · rename_i ht
      rw [if_neg h1, if_pos ht]
      split at h
      · cases h
      · rename_i hk
        have := level_pred (l + k) 0 (by omega)
        rw [e0, e0] at this
        rw [this, show l + k - 1 = l + (k - 1) by omega]
        exact ih hd' h (by omega)
    · rename_i h2
      have hne : UInt64.ofNat (l + k) ≠ 0 := fun e => by
        have := (level_zero (a := l + k) (b := 0) (by omega) (by omega)).mp (by rw [e0]; exact e)
        omega
      rw [if_neg h1, if_neg h2, if_pos hne]
      exact ih hd' h (by omega)

/-- A parenthesized part is skipped. -/
theorem commitT_group {l : Bool} {sym : Sym} {w : List Spec.Terminal} {ts : List (Option Tree)}
    (h : Derives l sym w ts) (hs : inExpression sym = true) (hb : w.length + 1 < 2 ^ 64)
    (r : List TokenType) :
    commitT 0 (.left_parenthesis :: (types w ++ .right_parenthesis :: r)) = commitT 0 r := by
  rw [commitT_cons, if_neg (by decide), if_pos rfl]
  have := commitT_inside (types w) (.right_parenthesis :: r) (l := 1) (k := 0) (k' := 0) (by omega)
    (noDelim h hs) (balanced h 0) (by simpa [types] using by omega)
  have e : (0 : UInt64) + 1 = UInt64.ofNat (1 + 0) := by decide
  rw [e, this, commitT_cons, if_neg (by decide), if_neg (by decide), if_pos rfl]
  rfl

/-- A token that the search skips. -/
theorem commitT_skip {t : TokenType} {r : List TokenType} (h1 : isDelim t = false)
    (h2 : t ≠ .left_parenthesis) (h3 : t ≠ .right_parenthesis) (h4 : t ≠ .keyword_if)
    (h5 : t.isComparisonOperator = false) : commitT 0 (t :: r) = commitT 0 r := by
  rw [commitT_cons, if_neg (by simp [h1]), if_neg h2, if_neg h3, if_neg (by simp), if_neg h4,
    if_neg (by simp [h5])]

/-- The nonterminals without `if` and comparison operators. -/
def inOperand : Sym → Bool
  | .primary | .parenthesized | .call | .postfix | .prefix | .arithmetic | .optAnnotations
  | .annotations | .annotation => true
  | _ => false

/-- The search skips an operand. -/
theorem commitT_operand {l : Bool} {sym : Sym} {w : List Spec.Terminal} {ts : List (Option Tree)}
    (h : Derives l sym w ts) (hs : inOperand sym = true) (hb : w.length < 2 ^ 64)
    (r : List TokenType) : commitT 0 (types w ++ r) = commitT 0 r := by
  have op : ∀ {t r} {L : List TokenType}, t ∈ L → (∀ t ∈ L, isDelim t = false ∧
      t ≠ .left_parenthesis ∧ t ≠ .right_parenthesis ∧ t ≠ .keyword_if ∧
      t.isComparisonOperator = false) → commitT 0 (t :: r) = commitT 0 r := fun ht h =>
    have ⟨h1, h2, h3, h4, h5⟩ := h _ ht
    commitT_skip h1 h2 h3 h4 h5
  have skip : ∀ {t r}, (isDelim t = false ∧
      t ≠ .left_parenthesis ∧ t ≠ .right_parenthesis ∧ t ≠ .keyword_if ∧
      t.isComparisonOperator = false) → commitT 0 (t :: r) = commitT 0 r := fun h =>
    have ⟨h1, h2, h3, h4, h5⟩ := h
    commitT_skip h1 h2 h3 h4 h5
  induction h generalizing r with
  | integer ht => exact op ht (by decide)
  | boolean ht => exact op ht (by decide)
  | string _ => exact skip (t := .string_literal) (by decide)
  | id => exact skip (t := .identifier) (by decide)
  | paren _ ih => exact ih rfl hb r
  | parenthesized h _ =>
    have hb' := hb
    simp only [List.cons_append, List.length_cons, List.length_append, List.length_nil] at hb'
    have := commitT_group h rfl (by omega) r
    simpa [types, tok] using this
  | call h h' _ ih' =>
    have hb' := hb
    simp only [List.cons_append, List.length_cons, List.length_append] at hb'
    simp only [types, List.cons_append, List.map_cons, List.map_append, List.append_assoc, ident,
      tok]
    rw [skip (by decide), commitT_group h rfl (by omega)]
    exact ih' rfl (by omega) r
  | callPostfix _ ih => exact ih rfl hb r
  | primary _ ih => exact ih rfl hb r
  | unary ht _ ih =>
    have hb' := hb
    simp only [List.length_cons] at hb'
    simp only [types, List.cons_append, List.map_cons, tok]
    rw [op ht (by decide)]
    exact ih rfl (by omega) r
  | prefixPostfix _ ih => exact ih rfl hb r
  | arithmetic ht _ _ ih ih' =>
    have hb' := hb
    simp only [List.length_append, List.length_cons] at hb'
    simp only [types, List.cons_append, List.map_cons, List.map_append, List.append_assoc, tok]
    rw [ih rfl (by omega), op ht (by decide)]
    exact ih' rfl (by omega) r
  | arithmeticPrefix _ ih => exact ih rfl hb r
  | noAnnotations => rfl
  | someAnnotations _ ih => exact ih rfl hb r
  | lastAnnotation _ ih => exact ih rfl hb r
  | annotations _ _ ih ih' =>
    have hb' := hb
    simp only [List.length_append] at hb'
    simp only [types, List.map_append, List.append_assoc]
    rw [ih rfl (by omega)]
    exact ih' rfl (by omega) r
  | annotation =>
    simp only [types, List.map_cons, List.map_nil, List.cons_append, List.nil_append, tok, ident]
    rw [skip (by decide), skip (by decide)]
  | annotationEmpty =>
    simp only [types, List.map_cons, List.map_nil, List.cons_append, List.nil_append, tok, ident]
    rw [skip (by decide), skip (by decide)]
    exact commitT_group (l := true) (sym := .optArguments) .noArguments rfl (by decide) r
  | annotationArgs h _ =>
    have hb' := hb
    simp only [List.cons_append, List.length_cons, List.length_append, List.length_nil] at hb'
    simp only [types, List.map_cons, List.map_nil, List.cons_append, List.nil_append, tok, ident,
      List.map_append, List.append_assoc]
    rw [skip (by decide), skip (by decide)]
    exact commitT_group h rfl (by omega) r
  | _ => cases hs

end Bms.Parse
