import Verif.Lemmas.CReader
import Verif.Spec.GenC
import Verif.Props.ToString

/-!
# What the generator of C and C++ code writes is derived by the C grammar
-/

namespace Bms.C

open Spec (Ident IdentStart IdentPart InRange Literal Digits WholeParts IfAny IsBlock IsIf digitOf)
open GenC (Dialect Options)
open GenBms (exprType infixText parenthesize indent separate isIf)

instance decIdent : (w : List Char) → Decidable (Ident w)
  | [] => inferInstanceAs (Decidable False)
  | c :: cs => inferInstanceAs (Decidable (IdentStart c ∧ ∀ d ∈ cs, IdentPart d))

/-! ## Numbers, values and types -/

theorem digit_char {c : Char} {d : Nat} (h : digitOf c = some d) (hd : d < 10) : InRange '0' c '9' := by
  unfold digitOf at h
  split at h
  · assumption
  · split at h
    · simp only [Option.some.injEq] at h; omega
    · split at h
      · simp only [Option.some.injEq] at h; omega
      · cases h

theorem digits_chars {t : List Char} {v : Nat} (h : Digits 10 t v) : ∀ c ∈ t, InRange '0' c '9' := by
  obtain ⟨ds, h1, h2, _⟩ := h
  intro c hc
  have : digitOf c ∈ t.map digitOf := List.mem_map_of_mem hc
  rw [h1] at this
  obtain ⟨d, h3, h4⟩ := List.mem_map.1 this
  exact digit_char h4.symm (h2 d h3)

theorem literal_chars {t : List Char} {v : Nat} (h : Literal .decimal t v) :
    ∃ c r, t = c :: r ∧ InRange '0' c '9' ∧ ∀ x ∈ r, InRange '0' x '9' := by
  cases h with
  | zero => exact ⟨_, _, rfl, by decide, by simp⟩
  | decimal _ h =>
    have := digits_chars h
    exact ⟨_, _, rfl, this _ (by simp), fun x hx => this x (List.mem_cons_of_mem _ hx)⟩

theorem number_writes {t : List Char} {v : Nat} (h : Literal .decimal t v) : Writes Stop t [.number t] := by
  obtain ⟨c, r, rfl, h1, h2⟩ := literal_chars h
  exact .number h1 fun x hx => .inl (.inr (h2 x hx))

theorem toString_literal {n : Nat} (h : WholeParts n) : Literal .decimal (toStringUint n) n := by
  obtain ⟨v, h1, _, h2⟩ := C68_to_string_partial n
  rw [h2.2 h] at h1
  exact h1

theorem Derives.down {d : Dialect} {p q : Nat} {ts : List Tok} {e : CExpr} (h : Derives d p ts e)
    (hq : q ≤ p) : Derives d q ts e := by
  obtain ⟨k, rfl⟩ : ∃ k, p = q + k := ⟨p - q, by omega⟩
  induction k with
  | zero => exact h
  | succ k ih => exact ih (.up h) (by omega)

/-- The first character of a value or an expression: no sign, or a sign with which it begins. -/
def HeadOk (signs : Char → Prop) (s : List Char) : Prop :=
  Heads (fun c => IdentStart c ∨ InRange '0' c '9' ∨ c = '(' ∨ (c ∈ ['-', '+', '!', '~'] ∧ signs c)) s

theorem kw_writes (s : String) (h : Ident s.toList) : Writes Stop s.toList [kw s] := .word h

theorem value_writes {d : Dialect} {t : CType} {x : Int} (h : WritableV t x) :
    ∃ ts c, Writes Stop (GenC.value t x) ts ∧ Derives d 11 ts c ∧ ConstIs t x c ∧
      HeadOk (fun c => c = '-' ∧ x < 0) (GenC.value t x) := by
  cases t with
  | void =>
    refine ⟨[pt "(", kw "void", pt ")", .number "0".toList], _, ?_,
      .cast (t := [kw "void"]) .void (Derives.down (.num .zero) (by omega)), .void, .cons (.inr (.inr (.inl rfl)))⟩
    have h1 : Writes Stop ("void".toList ++ [')']) ([kw "void"] ++ [pt ")"]) :=
      (kw_writes "void" (by decide)).append (Writes.mono (.solo (by decide)) fun _ _ => trivial) (.cons (by decide))
    have h2 := (Writes.solo (c := ')') (by decide)).append_any (number_writes .zero)
    have h3 : Writes Stop ("void".toList ++ ([')'] ++ ['0'])) _ :=
      (kw_writes "void" (by decide)).append h2 (.cons (by decide))
    exact (Writes.solo (c := '(') (by decide)).append_any h3
  | bool =>
    rcases h with rfl | rfl
    · refine ⟨[kw "false"], _, ?_, Derives.down .false_ (by omega), .false_, ?_⟩
      · exact kw_writes "false" (by decide)
      · exact ⟨'f', rfl, .inl (by decide)⟩
    · refine ⟨[kw "true"], _, ?_, Derives.down .true_ (by omega), .true_, ?_⟩
      · exact kw_writes "true" (by decide)
      · exact ⟨'t', rfl, .inl (by decide)⟩
  | int =>
    obtain ⟨h1, h2⟩ := h
    have hl := toString_literal h2
    obtain ⟨c, r, hcr, hc, _⟩ := literal_chars hl
    by_cases hx : 0 ≤ x
    · refine ⟨[.number (toStringUint x.natAbs)], .num x.natAbs, ?_, Derives.down (.num hl) (by omega), ?_, ?_⟩
      · simp only [GenC.value, C68_nonnegative h1 hx]
        exact number_writes hl
      · have := NumberIs.nonneg x.natAbs
        rw [show ((x.natAbs : Nat) : Int) = x by omega] at this
        exact .int this
      · simp only [GenC.value, C68_nonnegative h1 hx, hcr]
        exact .cons (.inr (.inl hc))
    · refine ⟨[pt "-", .number (toStringUint x.natAbs)], .unary .minus (.num x.natAbs), ?_, ?_, ?_, ?_⟩
      · simp only [GenC.value, C68_negative h1 (by omega)]
        refine (Writes.sign (c := '-') (by decide)).append (number_writes hl) ?_
        rw [hcr]
        refine .cons fun hm => ?_
        have : ∀ c ∈ continues '-', ¬ InRange '0' c '9' := by decide
        exact this c hm hc
      · exact .up (Derives.unary (op := .minus) (Derives.down (.num hl) (by omega)))
      · have := NumberIs.neg (x.natAbs - 1)
        rw [show -(((x.natAbs - 1 : Nat) : Int) + 1) = x by omega,
          show x.natAbs - 1 + 1 = x.natAbs by omega] at this
        exact .int this
      · simp only [GenC.value, C68_negative h1 (by omega)]
        exact .cons (.inr (.inr (.inr ⟨by decide, rfl, by omega⟩)))
  | uint w =>
    obtain ⟨h0, h1, hw, h2⟩ := h
    have hl := toString_literal h2
    obtain ⟨c, r, hcr, hc, _⟩ := literal_chars hl
    have hu : toU128 x = x.natAbs := by
      have : (2 : Int) ^ w ≤ 2 ^ 128 := by
        have : (2 : Nat) ^ w ≤ 2 ^ 128 := Nat.pow_le_pow_right (by omega) (by omega)
        exact_mod_cast this
      unfold toU128
      omega
    refine ⟨[.number (toStringUint x.natAbs)], .num x.natAbs, ?_, Derives.down (.num hl) (by omega), ?_, ?_⟩
    · simp only [GenC.value, hu]
      exact number_writes hl
    · have := ConstIs.uint (w := w) (n := x.natAbs)
      rw [show ((x.natAbs : Nat) : Int) = x by omega] at this
      exact this
    · simp only [GenC.value, hu, hcr]
      exact .cons (.inr (.inl hc))

/-- The dialect fits the options. -/
def Fits (o : Options) (d : Dialect) : Prop := d ≠ .cpp20 → (o.c23 = true ↔ d = .c23)

theorem fits_dialect (l : GenC.Language) (o : Options) : Fits o (GenC.dialect l o) := by
  intro h
  unfold GenC.dialect at *
  cases l
  · by_cases hc : o.c23 = true
    · simp [hc]
    · simp [hc]
  · simp at h

theorem std_writes (w : String) (h : Ident w.toList) :
    Writes Stop ("std".toList ++ "::".toList ++ w.toList) [kw "std", pt "::", kw w] := by
  have h1 := Writes.colons.append_any (kw_writes w h)
  have h2 := (kw_writes "std" (by decide)).append h1 (.cons (by decide))
  rw [List.append_assoc]
  exact h2

theorem exact_writes {d : Dialect} {n : Nat} (w : String) (h : (n, w.toList) ∈ exactNames)
    (hi : Ident w.toList) :
    ∃ ts, Writes Stop (GenC.typeText.std d ++ w.toList) ts ∧ TypeName d ts (.exact n) := by
  unfold GenC.typeText.std
  by_cases hd : d = .cpp20
  · subst hd
    rw [if_pos rfl]
    exact ⟨_, std_writes w hi, .exactCpp h⟩
  · rw [if_neg hd]
    exact ⟨_, kw_writes w hi, .exactC h hd⟩

theorem bits_writes (n : Nat) :
    Writes Stop (GenC.typeText .c23 (.bituint n))
      [kw "unsigned", kw "_BitInt", pt "(", .number (stdToString n), pt ")"] := by
  have hl := stdToString_literal n
  have h1 : Writes Stop (stdToString n ++ [')']) ([.number (stdToString n)] ++ [pt ")"]) :=
    (number_writes hl).append (Writes.mono (.solo (by decide)) fun _ _ => trivial) (.cons (by decide))
  have h2 := (Writes.solo (c := '(') (by decide)).append_any h1
  have h3 := (kw_writes "_BitInt" (by decide)).append h2 (.cons (by decide))
  have h4 := (Writes.space (c := ' ') (by decide)).append_any h3
  have h5 := (kw_writes "unsigned" (by decide)).append h4 (.cons (by decide))
  exact h5

theorem type_writes {o : Options} {d : Dialect} (hf : Fits o d) {t : CType} {s : List Char}
    (h : GenC.generateType o d t = .ok s) :
    ∃ ts ty, Writes Stop s ts ∧ TypeName d ts ty ∧ TypeIs t ty := by
  have key : ∀ tt, GenC.targetType o d t = .ok tt → ∃ ts ty, Writes Stop (GenC.typeText d tt) ts ∧
      TypeName d ts ty ∧ TypeIs t ty := by
    intro tt htt
    cases t with
    | void => cases htt; exact ⟨_, _, kw_writes "void" (by decide), .void, .void⟩
    | int => cases htt; exact ⟨_, _, kw_writes "int" (by decide), .int, .int⟩
    | bool =>
      cases htt
      unfold GenC.typeText
      by_cases hd : d = .c99
      · subst hd
        exact ⟨_, _, kw_writes "_Bool" (by decide), .boolC99, .bool⟩
      · rw [if_neg hd]
        exact ⟨_, _, kw_writes "bool" (by decide), .bool hd, .bool⟩
    | uint w =>
      have hbits : (d ≠ .cpp20 ∧ o.c23 = true) → ∃ ts ty, Writes Stop (GenC.typeText d (.bituint w)) ts ∧
          TypeName d ts ty ∧ TypeIs (.uint w) ty := by
        rintro ⟨h1, h2⟩
        have := (hf h1).1 h2
        subst this
        exact ⟨_, _, bits_writes w, .bits (stdToString_literal w), .bits⟩
      unfold GenC.targetType at htt
      simp only at htt
      by_cases h1 : (d ≠ .cpp20 ∧ o.c23 = true) ∧ o.preferBitint = true
      · rw [if_pos h1] at htt
        cases htt
        exact hbits h1.1
      · rw [if_neg h1] at htt
        by_cases h8 : w = 8
        · subst h8
          cases htt
          obtain ⟨ts, h3, h4⟩ := exact_writes (d := d) (n := 8) "uint8_t" (by decide) (by decide)
          exact ⟨ts, _, h3, h4, .exact⟩
        rw [if_neg h8] at htt
        by_cases h8 : w = 16
        · subst h8
          cases htt
          obtain ⟨ts, h3, h4⟩ := exact_writes (d := d) (n := 16) "uint16_t" (by decide) (by decide)
          exact ⟨ts, _, h3, h4, .exact⟩
        rw [if_neg h8] at htt
        by_cases h8 : w = 32
        · subst h8
          cases htt
          obtain ⟨ts, h3, h4⟩ := exact_writes (d := d) (n := 32) "uint32_t" (by decide) (by decide)
          exact ⟨ts, _, h3, h4, .exact⟩
        rw [if_neg h8] at htt
        by_cases h8 : w = 64
        · subst h8
          cases htt
          obtain ⟨ts, h3, h4⟩ := exact_writes (d := d) (n := 64) "uint64_t" (by decide) (by decide)
          exact ⟨ts, _, h3, h4, .exact⟩
        rw [if_neg h8] at htt
        by_cases h2 : d ≠ .cpp20 ∧ o.c23 = true
        · rw [if_pos h2] at htt
          cases htt
          exact hbits h2
        · rw [if_neg h2] at htt
          cases htt
  unfold GenC.generateType at h
  cases htt : GenC.targetType o d t with
  | ok tt =>
    rw [htt] at h
    cases h
    exact key tt htt
  | err e => rw [htt] at h; cases h
  | throws => rw [htt] at h; cases h
  | ub => rw [htt] at h; cases h

theorem typeNode_concrete {t : AType} {ct : CType} (h : TypeOf t ct) :
    (t.concreteType : Outcome GenC.GenError (Option CType)) = .ok (some ct) := by
  cases h with
  | void => rfl
  | bool => rfl
  | int => rfl
  | @uint k cv w e h1 h2 =>
    have e1 : decide ((w : Int) ≤ 128) = true := by simp; omega
    have e2 : decide ((w : Int) > 1) = true := by simp; omega
    have e3 : (decide ((w : Int) > 0) && decide ((w : Int) < 128)) = true := by simp; omega
    simp only [AType.concreteType, CType.mkUint, Outcome.assert, Outcome.map]
    simp only [e1, e2, e3]
    rfl

theorem type_node {o : Options} {d : Dialect} {t : AType} {ct : CType} (h : TypeOf t ct) :
    GenC.type o d t = GenC.generateType o d ct := by
  unfold GenC.type
  rw [typeNode_concrete h]
  rfl

/-! ## Parentheses -/

/-- The level of an operation with two operands. -/
def binLevel (op : ExprType) : Nat := ((binOps.lookup op).map BinOp.level).getD 0

theorem binLevel_eq {op : ExprType} {op' : BinOp} (h : (op, op') ∈ binOps) : binLevel op = op'.level := by
  have : ∀ p ∈ binOps, binLevel p.1 = p.2.level := by decide
  exact this _ h

theorem binOps_fun : ∀ {op : ExprType} {a b : BinOp}, (op, a) ∈ binOps → (op, b) ∈ binOps → a = b := by
  intro op a b h1 h2
  have : ∀ p ∈ binOps, ∀ q ∈ binOps, p.1 = q.1 → p.2 = q.2 := by decide
  exact this _ h1 _ h2 rfl

/-- The level of the text of an expression. -/
def lev : AExpr → Nat
  | .binary _ _ op _ _ => binLevel op
  | _ => 11

theorem needs_binary {op op2 : ExprType} {a b : BinOp} (h : (op, a) ∈ binOps) (h2 : (op2, b) ∈ binOps)
    (hn : GenC.needsParentheses op op2 = false) : a.level ≤ b.level := by
  have : ∀ p ∈ binOps, ∀ q ∈ binOps, GenC.needsParentheses p.1 q.1 = false → p.2.level ≤ q.2.level := by decide
  exact this _ h _ h2 hn

/-- Operations with one operand, and conversions. -/
def prefixTypes : List ExprType := [.conversion, .unary_plus, .unary_minus, .logical_not, .bitwise_not]

theorem needs_prefix {op op2 : ExprType} {b : BinOp} (h : op ∈ prefixTypes) (h2 : (op2, b) ∈ binOps) :
    GenC.needsParentheses op op2 = true := by
  have : ∀ q ∈ binOps, ∀ g ∈ prefixTypes, GenC.needsParentheses g q.1 = true := by decide
  exact this _ h2 _ h

/-- The text of an expression of the level. -/
structure Written (cs : Consts) (d : Dialect) (p : Nat) (e : AExpr) (s : List Char) (ts : List Tok)
    (c : CExpr) : Prop where
  writes : Writes Stop s ts
  derives : Derives d p ts c
  means : MeansE cs e c

/-- In parentheses. -/
theorem Written.paren {cs : Consts} {d : Dialect} {p : Nat} {e : AExpr} {s : List Char} {ts : List Tok}
    {c : CExpr} (h : Written cs d p e s ts c) :
    Written cs d 14 e (parenthesize s) (pt "(" :: ts ++ [pt ")"]) c := by
  refine ⟨?_, .paren (h.derives.down (by omega)), h.means⟩
  have h1 : Writes Stop (s ++ [')']) (ts ++ [pt ")"]) :=
    h.writes.append (Writes.mono (.solo (by decide)) fun _ _ => trivial) (.cons (by decide))
  exact (Writes.solo (c := '(') (by decide)).append_any h1

/-- An operand: in parentheses, or on a level that is high enough. -/
theorem Written.sub {cs : Consts} {o : Options} {d : Dialect} {p q : Nat} {outer : ExprType} {e : AExpr}
    {s : List Char} {ts : List Tok} {c : CExpr} (h : Written cs d p e s ts c) (hq : q ≤ 14)
    (hp : o.alwaysParenthesize = false → GenC.needsParentheses outer (exprType e) = false → q ≤ p) :
    ∃ ts', Written cs d q e (GenC.sub o outer (exprType e) s) ts' c := by
  unfold GenC.sub
  by_cases hb : (o.alwaysParenthesize || GenC.needsParentheses outer (exprType e)) = true
  · rw [if_pos hb]
    exact ⟨_, h.paren.writes, h.paren.derives.down hq, h.means⟩
  · rw [if_neg hb]
    simp only [Bool.or_eq_true, not_or, Bool.not_eq_true] at hb
    exact ⟨ts, h.writes, h.derives.down (hp hb.1 hb.2), h.means⟩

theorem ok_bind {α β : Type} {x : Outcome GenC.GenError α} {f : α → Outcome GenC.GenError β} {b : β}
    (h : (x >>= f) = .ok b) : ∃ a, x = .ok a ∧ f a = .ok b := by
  cases x with
  | ok a => exact ⟨a, rfl, h⟩
  | err e => cases h
  | throws => cases h
  | ub => cases h

theorem infix_text (op : ExprType) : infixText op.token = ' ' :: op.token.codeName.toList ++ [' '] := rfl

theorem binOps_tok {op : ExprType} {op' : BinOp} (h : (op, op') ∈ binOps) :
    Spelling op.token.codeName.toList op'.tok := by
  have : ∀ p ∈ binOps, p.1.token.codeName.toList ∈ punctuators ∧ p.2.tok = .punct p.1.token.codeName.toList := by
    decide
  obtain ⟨h1, h2⟩ := this _ h
  simp only at h1 h2
  rw [h2]
  exact .punct h1

theorem unOps_tok {op : ExprType} {op' : UnOp} (h : (op, op') ∈ unOps) :
    ∃ c, GenBms.code op.token = [c] ∧ op'.tok = .punct [c] ∧ c ∈ ['-', '+', '!', '~'] ∧
      (c = '-' ↔ op = .unary_minus) ∧ (c = '+' ↔ op = .unary_plus) ∧ op ∈ prefixTypes := by
  simp only [unOps, List.mem_cons, List.not_mem_nil, or_false, Prod.mk.injEq] at h
  rcases h with ⟨rfl, rfl⟩ | ⟨rfl, rfl⟩ | ⟨rfl, rfl⟩ | ⟨rfl, rfl⟩
  · exact ⟨'+', by decide, by decide, by decide, by decide, by decide, by decide⟩
  · exact ⟨'-', by decide, by decide, by decide, by decide, by decide, by decide⟩
  · exact ⟨'!', by decide, by decide, by decide, by decide, by decide, by decide⟩
  · exact ⟨'~', by decide, by decide, by decide, by decide, by decide, by decide⟩

/-- What the first character of an expression shows. -/
def Signs (cs : Consts) (e : AExpr) (c : Char) : Prop :=
  (c = '-' → BeginsWith cs .unary_minus e) ∧ (c = '+' → BeginsWith cs .unary_plus e)

/-- The first character of an expression that is no operation with two operands. -/
def Head (cs : Consts) (e : AExpr) (s : List Char) : Prop :=
  (∀ k cv op l r, e ≠ .binary k cv op l r) → HeadOk (Signs cs e) s

theorem HeadOk.mono {p q : Char → Prop} {s : List Char} (h : HeadOk p s) (hpq : ∀ c, p c → q c) :
    HeadOk q s :=
  Heads.mono h fun c hc => by
    rcases hc with h | h | h | ⟨h, h'⟩
    · exact .inl h
    · exact .inr (.inl h)
    · exact .inr (.inr (.inl h))
    · exact .inr (.inr (.inr ⟨h, hpq c h'⟩))

theorem constValue_writes {cs : Consts} {d : Dialect} {t : CType} {x : Int} (h : WritableV t x)
    {e : AExpr} (hm : ∀ c, ConstIs t x c → MeansE cs e c)
    (hs : x < 0 → BeginsWith cs .unary_minus e) :
    ∃ ts c, Written cs d 11 e (GenC.value t x) ts c ∧ Head cs e (GenC.value t x) := by
  obtain ⟨ts, c, h1, h2, h3, h4⟩ := value_writes (d := d) h
  refine ⟨ts, c, ⟨h1, h2, hm c h3⟩, fun _ => h4.mono ?_⟩
  rintro c ⟨rfl, hx⟩
  exact ⟨fun _ => hs hx, fun h => by cases h⟩

theorem sub_head {cs : Consts} {o : Options} {op : ExprType} {op' : UnOp} (hop : (op, op') ∈ unOps) {e : AExpr}
    {s : List Char} (hh : Head cs e s) (hb : ∀ k cv op l r, e = .binary k cv op l r → ∃ b, (op, b) ∈ binOps)
    (hs : o.alwaysParenthesize = true ∨ (op = .unary_plus ∨ op = .unary_minus → ¬ BeginsWith cs op e))
    {c : Char} (hc : GenBms.code op.token = [c]) :
    Heads (fun x => x ∉ continues c) (GenC.sub o op (exprType e) s) := by
  obtain ⟨c', h1, _, h2, h3, h4, h5⟩ := unOps_tok hop
  rw [h1] at hc
  cases hc
  have hparen : ∀ c ∈ ['-', '+', '!', '~'], '(' ∉ continues c := by decide
  unfold GenC.sub
  by_cases hb' : (o.alwaysParenthesize || GenC.needsParentheses op (exprType e)) = true
  · rw [if_pos hb']
    exact .cons (hparen c h2)
  · rw [if_neg hb']
    simp only [Bool.or_eq_true, not_or, Bool.not_eq_true] at hb'
    have hs' := hs.resolve_left (by simp [hb'.1])
    have := hh (fun k cv op2 l r he => by
      subst he
      obtain ⟨b, hbb⟩ := hb _ _ _ _ _ rfl
      have := needs_prefix h5 hbb
      rw [show exprType (.binary k cv op2 l r) = op2 from rfl, this] at hb'
      cases hb'.2)
    refine Heads.mono this ?_
    rintro x (hx | hx | rfl | ⟨hx, hsg⟩)
    · have : ∀ c ∈ ['-', '+', '!', '~'], ∀ x ∈ continues c, ¬ IdentStart x := by decide
      exact fun hm => this c h2 x hm hx
    · have : ∀ c ∈ ['-', '+', '!', '~'], ∀ x ∈ continues c, ¬ InRange '0' x '9' := by decide
      exact fun hm => this c h2 x hm hx
    · exact hparen c h2
    · intro hm
      have : ∀ c ∈ ['-', '+', '!', '~'], ∀ x ∈ ['-', '+', '!', '~'], x ∈ continues c → x = c ∧ (c = '-' ∨ c = '+') := by
        decide
      obtain ⟨rfl, hcc⟩ := this c h2 x hx hm
      rcases hcc with hcc | hcc
      · have := h3.1 hcc
        subst this
        exact hs' (.inr rfl) (hsg.1 hcc)
      · have := h4.1 hcc
        subst this
        exact hs' (.inl rfl) (hsg.2 hcc)

mutual

theorem expr_writes {cs : Consts} {o : Options} {d : Dialect} (hf : Fits o d) (e : AExpr) {inExpr : Bool}
    {s : List Char} (hw : WritableE cs o.alwaysParenthesize o.c23 e)
    (h : GenC.expr cs o d inExpr e = .ok s) :
    (∃ ts c, Written cs d (lev e) e s ts c) ∧ Head cs e s := by
  match e with
  | .literal k cv l =>
    obtain ⟨t, x, rfl, hv⟩ := hw
    simp only [GenC.expr, GenC.constValue] at h
    cases h
    obtain ⟨ts, c, h1, h2⟩ := constValue_writes (d := d) (e := .literal k (some ⟨t, some x⟩) l) (cs := cs) hv
      (fun c hc => .literal hc) (fun hx => ⟨rfl, t, x, rfl, hx⟩)
    exact ⟨⟨ts, c, h1⟩, h2⟩
  | .id k cv x ref g =>
    rcases hw with ⟨hno, hid⟩ | ⟨hc, t, v, hr, hv⟩
    · have hs : s = x := by
        simp only [GenC.expr] at h
        cases ref with
        | none => cases h; rfl
        | some r =>
          cases r with
          | node n =>
            cases hn : cs n with
            | none => simp only [hn] at h; cases h; rfl
            | some v => exact absurd ⟨n, rfl, hn⟩ (hno v)
          | param n => cases h; rfl
          | builtin n => cases h; rfl
      subst hs
      refine ⟨⟨_, _, .word hid.1, Derives.down (.var hid) (by simp [lev]), .var hno⟩, fun _ => ?_⟩
      cases s with
      | nil => exact hid.1.elim
      | cons c s => exact .cons (.inl hid.1.1)
    · obtain ⟨n, rfl, hn⟩ := hr
      simp only [GenC.expr, hn, hc, GenC.constValue, if_neg (show ¬ false = true by decide)] at h
      cases h
      obtain ⟨ts, c, h1, h2⟩ := constValue_writes (d := d) (e := .id k cv x (some (.node n)) g) (cs := cs) hv
        (fun c hc => .constant ⟨n, rfl, hn⟩ hc) (fun hx => ⟨rfl, t, v, ⟨n, rfl, hn⟩, hx⟩)
      exact ⟨⟨ts, c, h1⟩, h2⟩
  | .conversion k cv e t =>
    obtain ⟨hw, ct, ht⟩ := hw
    simp only [GenC.expr] at h
    obtain ⟨st, h1, h⟩ := ok_bind h
    obtain ⟨se, h2, h⟩ := ok_bind h
    cases h
    rw [type_node ht] at h1
    obtain ⟨tts, ty, h3, h4, h5⟩ := type_writes hf h1
    obtain ⟨⟨ts, c, h6⟩, _⟩ := expr_writes hf e hw h2
    obtain ⟨ts', h7⟩ := h6.sub (o := o) (q := 11) (outer := .conversion) (by omega) (fun _ hn => by
      cases e with
      | binary k cv op l r =>
        obtain ⟨⟨b, hb, _⟩, _⟩ := hw
        rw [show exprType (.binary k cv op l r) = op from rfl, needs_prefix (by decide) hb] at hn
        cases hn
      | _ => exact Nat.le_refl _)
    refine ⟨⟨_, _, ?_, .cast h4 h7.derives, .conversion ht h5 h6.means⟩, fun _ => .cons (.inr (.inr (.inl rfl)))⟩
    have h8 := (Writes.solo (c := ')') (by decide)).append_any h7.writes
    have h9 := h3.append h8 (.cons (by decide))
    have := (Writes.solo (c := '(') (by decide)).append_any h9
    simp only [parenthesize, List.cons_append, List.append_assoc, List.nil_append] at this ⊢
    exact this
  | .ite .. => exact hw.elim
  | .binary k cv op l r =>
    obtain ⟨⟨op', hop, hlv⟩, hwl, hwr⟩ := hw
    simp only [GenC.expr] at h
    obtain ⟨sl, h1, h⟩ := ok_bind h
    obtain ⟨sr, h2, h⟩ := ok_bind h
    cases h
    obtain ⟨⟨tl, cl, h3⟩, _⟩ := expr_writes hf l hwl h1
    obtain ⟨⟨tr, cr, h4⟩, _⟩ := expr_writes hf r hwr h2
    have hrange := level_range op'
    have hle : ∀ e, WritableE cs o.alwaysParenthesize o.c23 e → GenC.needsParentheses op (exprType e) = false →
        op'.level ≤ lev e := by
      intro e hwe hn
      cases e with
      | binary k2 cv2 op2 l2 r2 =>
        obtain ⟨⟨b, hb, _⟩, _⟩ := hwe
        rw [lev, binLevel_eq hb]
        exact needs_binary hop hb hn
      | _ => simp only [lev]; omega
    obtain ⟨tl', h5⟩ := h3.sub (o := o) (q := op'.level) (outer := op) (by omega) (fun _ hn => hle l hwl hn)
    obtain ⟨tr', h6⟩ := h4.sub (o := o) (q := op'.level + 1) (outer := op) (by omega) (fun ha hn => by
      have h7 := hle r hwr hn
      have h8 : lev r ≠ op'.level := by
        intro he
        have hno := hlv.resolve_left (by simp [ha])
        cases r with
        | binary k2 cv2 op2 l2 r2 =>
          obtain ⟨⟨b, hb, _⟩, _⟩ := hwr
          rw [lev, binLevel_eq hb] at he
          exact hno ⟨b, hb, he⟩
        | _ => simp only [lev] at he; omega
      omega)
    refine ⟨⟨tl' ++ op'.tok :: tr', .bin op' cl cr, ?_, ?_, .binary hop h3.means h4.means⟩,
      fun hne => absurd rfl (hne k cv op l r)⟩
    · have h7 := (Writes.infix (binOps_tok hop)).append_any h6.writes
      have h8 := h5.writes.append h7 (.cons (by decide))
      rw [infix_text]
      simp only [List.cons_append, List.append_assoc, List.nil_append] at h8 ⊢
      exact h8
    · rw [lev, binLevel_eq hop]
      exact .bin h5.derives h6.derives
  | .prefix k cv op e =>
    obtain ⟨⟨op', hop⟩, hs, hwe⟩ := hw
    simp only [GenC.expr] at h
    obtain ⟨se, h1, h⟩ := ok_bind h
    cases h
    obtain ⟨⟨te, ce, h2⟩, h3⟩ := expr_writes hf e hwe h1
    obtain ⟨c, e1, e2, e3, e4, e5, e6⟩ := unOps_tok hop
    have hbin : ∀ k cv op l r, e = .binary k cv op l r → ∃ b, (op, b) ∈ binOps := by
      intro k cv op l r he
      subst he
      obtain ⟨⟨b, hb, _⟩, _⟩ := hwe
      exact ⟨b, hb⟩
    obtain ⟨te', h4⟩ := h2.sub (o := o) (q := 11) (outer := op) (by omega) (fun _ hn => by
      cases e with
      | binary k cv op2 l r =>
        obtain ⟨b, hb⟩ := hbin _ _ _ _ _ rfl
        rw [show exprType (.binary k cv op2 l r) = op2 from rfl, needs_prefix e6 hb] at hn
        cases hn
      | _ => exact Nat.le_refl _)
    have hhead := sub_head (o := o) hop h3 hbin hs e1
    refine ⟨⟨op'.tok :: te', .unary op' ce, ?_, .up (.unary h4.derives), .prefix hop h2.means⟩, fun _ => ?_⟩
    · rw [e1, e2]
      exact (Writes.sign e3).append h4.writes hhead
    · rw [e1]
      exact .cons (.inr (.inr (.inr ⟨e3, fun hc => (e4.1 hc), fun hc => (e5.1 hc)⟩)))
  | .call k cv st x ref args =>
    obtain ⟨hid, hwa⟩ := hw
    simp only [GenC.expr] at h
    obtain ⟨sa, h1, h⟩ := ok_bind h
    cases h
    obtain ⟨ta, ca, h2, h3, h4⟩ := args_writes hf args hwa h1
    refine ⟨⟨.word x :: pt "(" :: ta ++ [pt ")"], .call x ca, ?_, (Derives.call hid h3).down (by simp [lev]), .call h4⟩,
      fun _ => ?_⟩
    · have h5 : Writes Stop (sa ++ [')']) (ta ++ [pt ")"]) :=
        h2.append (Writes.mono (.solo (by decide)) fun _ _ => trivial) (.cons (by decide))
      have h6 := (Writes.solo (c := '(') (by decide)).append_any h5
      exact (Writes.word hid.1).append h6 (.cons (by decide))
    · cases x with
      | nil => exact hid.1.elim
      | cons c x => exact .cons (.inl hid.1.1)

theorem args_writes {cs : Consts} {o : Options} {d : Dialect} (hf : Fits o d) (es : List AExpr)
    {s : List Char} (hw : WritableEs cs o.alwaysParenthesize o.c23 es)
    (h : GenC.arguments cs o d true es = .ok s) :
    ∃ ts c, Writes Stop s ts ∧ DerivesArgs d ts c ∧ MeansEs cs es c := by
  match es with
  | [] =>
    cases h
    exact ⟨[], [], .nil _, .nil, .nil⟩
  | e :: es =>
    simp only [GenC.arguments] at h
    obtain ⟨se, h1, h⟩ := ok_bind h
    obtain ⟨sr, h2, h⟩ := ok_bind h
    cases h
    obtain ⟨⟨te, ce, h3⟩, _⟩ := expr_writes hf e hw.1 h1
    cases es with
    | nil =>
      cases h2
      refine ⟨te, [ce], ?_, .one (h3.derives.down (by omega)), .cons h3.means .nil⟩
      simpa using h3.writes
    | cons e2 es =>
      have key : ∃ sr', sr = ',' :: ' ' :: sr' ∧ GenC.arguments cs o d true (e2 :: es) = .ok sr' := by
        simp only [GenC.arguments] at h2 ⊢
        obtain ⟨s2, h4, h2⟩ := ok_bind h2
        obtain ⟨s3, h5, h2⟩ := ok_bind h2
        cases h2
        refine ⟨s2 ++ s3, by simp, ?_⟩
        rw [h4, h5]
        simp only [Bind.bind, Outcome.bind, if_true, List.nil_append]
      obtain ⟨sr', rfl, h4⟩ := key
      obtain ⟨tr, cr, h5, h6, h7⟩ := args_writes hf (e2 :: es) hw.2 h4
      have hne : cr ≠ [] := by
        rintro rfl
        cases h7
      refine ⟨te ++ pt "," :: tr, ce :: cr, ?_, .more (h3.derives.down (by omega)) h6 hne, .cons h3.means h7⟩
      have h8 := (Writes.space (c := ' ') (by decide)).append_any h5
      have h9 := (Writes.solo (c := ',') (by decide)).append_any h8
      have := h3.writes.append h9 (.cons (by decide))
      simpa [pt] using this

end

end Bms.C
