import Verif.Lemmas.SpelledText
import Verif.Spec.GenBms
import Verif.Spec.Build

/-!
# What the generator of BMS code writes is derived by the grammar
-/

namespace Bms.GenBms

open Spec
open Tree (node)

/-- Room behind tokens, and no comments. -/
def Neat (ty : TokenType) (more : List Char) : Prop :=
  Roomy ty more ∧ ty ≠ .line_comment ∧ ty ≠ .block_comment

theorem neat {ty : TokenType} (h1 : ty ≠ .logical_and) (h2 : ty ≠ .logical_not)
    (h3 : ty ≠ .line_comment) (h4 : ty ≠ .block_comment) (more : List Char) : Neat ty more :=
  ⟨⟨fun h => absurd h h1, fun h => absurd h h2, fun h => absurd h h4⟩, h3, h4⟩

/-- What may follow a word. -/
def Stop (c : Char) : Prop := ¬ IdentPart c ∧ ¬ Joins c

instance (c : Char) : Decidable (Stop c) := inferInstanceAs (Decidable (_ ∧ _))

/-- What may follow a symbol. -/
def Sep (c : Char) : Prop := ¬ Joins c

instance (c : Char) : Decidable (Sep c) := inferInstanceAs (Decidable (¬ _))

/-- The text is written with the items, if `P` holds of the character that follows. -/
def Writes (P : Char → Prop) (text : List Char) (items : List (TokenType × List Char)) : Prop :=
  ∀ more rest, (∀ c ∈ more.head?, P c) → Spelled Neat more rest → Spelled Neat (text ++ more) (items ++ rest)

/-- The text begins with a character of which `P` holds. -/
def Heads (P : Char → Prop) (text : List Char) : Prop := ∃ c, text.head? = some c ∧ P c

theorem Heads.append {P : Char → Prop} {a b : List Char} (h : Heads P a) : Heads P (a ++ b) := by
  obtain ⟨c, h1, h2⟩ := h
  cases a with
  | nil => cases h1
  | cons d a => exact ⟨c, h1, h2⟩

theorem Heads.mono {P Q : Char → Prop} {a : List Char} (h : Heads P a) (hp : ∀ c, P c → Q c) : Heads Q a :=
  let ⟨c, h1, h2⟩ := h; ⟨c, h1, hp c h2⟩

theorem Writes.mono {P Q : Char → Prop} {a : List Char} {is : List (TokenType × List Char)}
    (h : Writes P a is) (hp : ∀ c, Q c → P c) : Writes Q a is :=
  fun more rest h1 h2 => h more rest (fun c hc => hp c (h1 c hc)) h2

theorem Writes.append {P Q : Char → Prop} {a b : List Char} {is js : List (TokenType × List Char)}
    (ha : Writes P a is) (hb : Writes Q b js) (hh : Heads P b) : Writes Q (a ++ b) (is ++ js) := by
  intro more rest h1 h2
  rw [List.append_assoc, List.append_assoc]
  refine ha _ _ (fun c hc => ?_) (hb _ _ h1 h2)
  obtain ⟨d, h3, h4⟩ := (hh.append (b := more))
  rw [h3] at hc
  cases hc
  exact h4

theorem spelled_gap {g more : List Char} {items : List (TokenType × List Char)}
    (hg : ∀ c ∈ g, White c) (h : Spelled Neat more items) : Spelled Neat (g ++ more) items := by
  cases h with
  | nil h => exact .nil fun c hc => (List.mem_append.mp hc).elim (hg c) (h c)
  | @cons gap text more ty items h1 h2 h3 h4 h5 h6 h7 =>
    rw [← List.append_assoc, ← List.append_assoc]
    exact .cons (fun c hc => (List.mem_append.mp hc).elim (hg c) (h1 c)) h2 h3 h4 h5 h6 h7

theorem Writes.gap {P : Char → Prop} {g a : List Char} {is : List (TokenType × List Char)}
    (ha : Writes P a is) (hg : ∀ c ∈ g, White c) : Writes P (g ++ a) is := by
  intro more rest h1 h2
  rw [List.append_assoc]
  exact spelled_gap hg (ha more rest h1 h2)

theorem Writes.space {P : Char → Prop} {a : List Char} {is : List (TokenType × List Char)}
    (ha : Writes P a is) : Writes P (' ' :: a) is := ha.gap (g := [' ']) (by decide)

theorem Writes.line {P : Char → Prop} {a : List Char} {is : List (TokenType × List Char)}
    (ha : Writes P a is) : Writes P ('\n' :: a) is := ha.gap (g := ['\n']) (by decide)

theorem writes_nil {P : Char → Prop} : Writes P [] [] := fun _ _ _ h => h

theorem writes_word {ty : TokenType} {text : List Char} (h : Lexeme ty text) (hi : Ident text) :
    Writes Stop text [(ty, text)] := by
  intro more rest h1 h2
  have ht : ty ≠ .logical_and ∧ ty ≠ .logical_not ∧ ty ≠ .line_comment ∧ ty ≠ .block_comment := by
    rcases keyword_lexeme h hi with hk | ⟨-, rfl⟩
    · obtain ⟨sp, e1, e2⟩ := keyword_some hk
      subst e2
      refine ⟨?_, ?_, ?_, ?_⟩ <;> rintro rfl <;> cases e1 <;> exact absurd hi.1 (by decide)
    · decide
  exact spelled_word (gap := []) h hi (by simp) (fun c hc => (h1 c hc).1)
    (neat ht.1 ht.2.1 ht.2.2.1 ht.2.2.2 _) h2

theorem writes_name {x : List Char} (h : IsName x) : Writes Stop x [(.identifier, x)] := by
  refine writes_word h ?_
  cases h with
  | @fixed _ sp h => cases h
  | identifier h _ => exact h

theorem writes_keyword {ty : TokenType} (h : spelling ty = some ty.codeName) (hi : Ident (code ty)) :
    Writes Stop (code ty) [(ty, code ty)] := writes_word (.fixed h) hi

theorem writes_literal {k : LiteralType} {v : Nat} {x : List Char} (h : Literal k x v) :
    Writes Stop x [(tokenTypeOf k, x)] := by
  intro more rest h1 h2
  refine spelled_literal (gap := []) h (by simp) (fun c hc => (h1 c hc).1) ?_ h2
  cases k <;> exact neat (by decide) (by decide) (by decide) (by decide) _

theorem writes_symbol {ty : TokenType} {sp : String} (h : spelling ty = some sp) (hs : IsSymbol ty)
    (h1 : ty ≠ .logical_and) (h2 : ty ≠ .logical_not) : Writes Sep sp.toList [(ty, sp.toList)] := by
  intro more rest h3 h4
  refine spelled_symbol (gap := []) h hs (by simp) h3 (neat h1 h2 ?_ ?_ _) h4
  all_goals rintro rfl; cases h

/-- A symbol and a space. -/
theorem writes_infix {P : Char → Prop} {ty : TokenType} (h : spelling ty = some ty.codeName)
    (hs : IsSymbol ty) (h2 : ty ≠ .logical_not) : Writes P (infixText ty) [(ty, code ty)] := by
  have : Writes P (code ty ++ [' ']) [(ty, code ty)] := by
    intro more rest h3 h4
    rw [List.append_assoc]
    refine spelled_symbol (gap := []) h hs (by simp) ?_ ⟨⟨fun _ => ⟨' ', rfl, by decide⟩,
      fun h => absurd h h2, fun h' => ?_⟩, ?_, ?_⟩ (spelled_gap (g := [' ']) (by decide) h4)
    · intro c hc; cases hc; decide
    · subst h'; cases h
    all_goals rintro rfl; cases h
  exact this.space

/-- A keyword and a space. -/
theorem writes_infix_keyword {P : Char → Prop} {ty : TokenType} (h : spelling ty = some ty.codeName)
    (hi : Ident (code ty)) : Writes P (infixText ty) [(ty, code ty)] := by
  have h1 : Writes P [' '] [] := (writes_nil (P := P)).space
  have := (writes_keyword h hi).append h1 ⟨' ', rfl, by decide⟩
  exact this.space

/-! ## Derivations -/

/-- What the grammar sees of an item. -/
def term (i : TokenType × List Char) : Terminal := (i.1, if i.1 ∈ textual then i.2 else [])

/-- The text is derived from the nonterminal and stands for the trees. -/
def Shown (P : Char → Prop) (s : Sym) (text : List Char) (ts : List (Option Tree)) : Prop :=
  ∃ items, Writes P text items ∧ Heads Sep text ∧ Derives false s (items.map term) ts

variable {o : Options}

theorem Shown.up {P : Char → Prop} {s s' : Sym} {text : List Char} {ts : List (Option Tree)}
    (h : Shown P s text ts) (hu : ∀ w ts, Derives false s w ts → Derives false s' w ts) :
    Shown P s' text ts :=
  let ⟨is, h1, h2, h3⟩ := h; ⟨is, h1, h2, hu _ _ h3⟩

theorem writes_left : Writes Sep ['('] [(.left_parenthesis, ['('])] :=
  writes_symbol (ty := .left_parenthesis) (sp := "(") rfl ⟨_, rfl, by decide⟩ (by decide) (by decide)
theorem writes_right : Writes Sep [')'] [(.right_parenthesis, [')'])] :=
  writes_symbol (ty := .right_parenthesis) (sp := ")") rfl ⟨_, rfl, by decide⟩ (by decide) (by decide)
theorem writes_semicolon : Writes Sep [';'] [(.semicolon, [';'])] :=
  writes_symbol (ty := .semicolon) (sp := ";") rfl ⟨_, rfl, by decide⟩ (by decide) (by decide)
theorem writes_colon : Writes Sep [':'] [(.colon, [':'])] :=
  writes_symbol (ty := .colon) (sp := ":") rfl ⟨_, rfl, by decide⟩ (by decide) (by decide)
theorem writes_comma : Writes Sep [','] [(.comma, [','])] :=
  writes_symbol (ty := .comma) (sp := ",") rfl ⟨_, rfl, by decide⟩ (by decide) (by decide)

theorem Stop.sep {c : Char} (h : Stop c) : Sep c := h.2

theorem Shown.parens {text : List Char} {ts : List (Option Tree)} (h : Shown Stop .expression text ts) :
    Shown Sep .parenthesized (parenthesize text) ts := by
  obtain ⟨is, h1, h2, h3⟩ := h
  refine ⟨(.left_parenthesis, ['(']) :: (is ++ [(.right_parenthesis, [')'])]), ?_, ⟨'(', rfl, by decide⟩, ?_⟩
  · exact writes_left.append (h1.append writes_right ⟨')', rfl, by decide⟩) h2.append
  · rw [List.map_cons, List.map_append]
    exact .parenthesized h3

theorem parens_postfix {w : List Terminal} {ts : List (Option Tree)} (h : Derives false .parenthesized w ts) :
    Derives false .postfix w ts := .primary (.paren h)

/-- The nonterminal of an operation. -/
def opSym (op : ExprType) : Sym :=
  if op.isBinaryComparison then .comparison else if op.isBinaryArithmetic then .arithmetic else .binary

/-- The nonterminal of an expression. -/
def symE : AExpr → Sym
  | .literal .. => .primary
  | .id .. => .primary
  | .conversion .. => .conversion
  | .ite .. => .ifExpression
  | .binary _ _ op _ _ => opSym op
  | .prefix .. => .prefix
  | .call .. => .call

/-- The nonterminals that derive all that an expression of a precedence group is derived from. -/
def Above (s s' : Sym) : Prop := ∀ w ts, Derives false s w ts → Derives false s' w ts

theorem primary_postfix : Above .primary .postfix := fun _ _ h => .primary h
theorem call_postfix : Above .call .postfix := fun _ _ h => .callPostfix h
theorem postfix_prefix : Above .postfix .prefix := fun _ _ h => .prefixPostfix h
theorem prefix_arithmetic : Above .prefix .arithmetic := fun _ _ h => .arithmeticPrefix h
theorem prefix_binary : Above .prefix .binary := fun _ _ h => .binaryPrefix h

theorem arithmetic_binary : Above .arithmetic .binary := by
  intro w ts h
  cases h with
  | arithmetic h1 h2 h3 => exact .binary (by simp [binaryOperators, h1]) h2 h3
  | arithmeticPrefix h => exact .binaryPrefix h

theorem op_binary (op : ExprType) : Above (opSym op) .binary := by
  unfold opSym
  split
  · exact fun _ _ h => .binaryComparison h
  split
  · exact arithmetic_binary
  · exact fun _ _ h => h

theorem binary_if : Above .binary .ifExpression := fun _ _ h => .ifBinary h
theorem if_expression : Above .ifExpression .expression := fun _ _ h => .expressionIf h

theorem Above.trans {a b c : Sym} (h1 : Above a b) (h2 : Above b c) : Above a c :=
  fun w ts h => h2 w ts (h1 w ts h)

theorem postfix_binary : Above .postfix .binary := postfix_prefix.trans prefix_binary

/-- Every expression. -/
theorem above_expression (e : AExpr) : Above (symE e) .expression := by
  have hb : Above .binary .expression := binary_if.trans if_expression
  cases e with
  | literal => exact primary_postfix.trans (postfix_binary.trans hb)
  | id => exact primary_postfix.trans (postfix_binary.trans hb)
  | conversion => exact fun _ _ h => .expressionConversion h
  | ite => exact if_expression
  | binary => exact (op_binary _).trans hb
  | «prefix» => exact prefix_binary.trans hb
  | call => exact call_postfix.trans (postfix_binary.trans hb)

/-- Operands are derived where they are written. -/
theorem Shown.sub {s : Sym} {outer : ExprType} {e : AExpr} {text : List Char} {ts : List (Option Tree)}
    (h : Shown Stop (symE e) text ts) (hp : Above .postfix s)
    (hs : o.alwaysParenthesize = true ∨ needsParentheses outer (exprType e) = true ∨ Above (symE e) s) :
    Shown Stop s (GenBms.sub o outer (exprType e) text) ts := by
  unfold GenBms.sub
  have hpar : Shown Stop s (parenthesize text) ts := by
    obtain ⟨is, h1, h2, h3⟩ := (h.up (above_expression e)).parens
    exact ⟨is, h1.mono fun _ => Stop.sep, h2, hp _ _ (parens_postfix h3)⟩
  split
  · exact hpar
  · rename_i hn
    simp only [Bool.or_eq_true, not_or] at hn
    rcases hs with hs | hs | hs
    · exact absurd hs hn.1
    · exact absurd hs hn.2
    · exact h.up hs

/-- Operands of a unary operation. -/
theorem unary_operand {op : ExprType} {e : AExpr} (ho : IsUnary op)
    (hb : ∀ op' l r k cv, e = .binary k cv op' l r → IsBinary op') (hu : ∀ op' e' k cv, e = .prefix k cv op' e' → IsUnary op') :
    needsParentheses op (exprType e) = true ∨ Above (symE e) .postfix := by
  cases e with
  | literal => exact .inr primary_postfix
  | id => exact .inr primary_postfix
  | call => exact .inr call_postfix
  | conversion | ite =>
    left; revert ho; simp only [exprType]; cases op <;> simp only [IsUnary] <;> decide
  | binary k cv op' l r =>
    left
    have := hb _ _ _ _ _ rfl
    revert ho this
    simp only [exprType]
    cases op <;> simp only [IsUnary] <;> first | (intro h; exact absurd h (by decide)) | (intro _; cases op' <;> simp only [IsBinary] <;> decide)
  | «prefix» k cv op' e' =>
    left
    have := hu _ _ _ _ rfl
    revert ho this
    simp only [exprType]
    cases op <;> simp only [IsUnary] <;> first | (intro h; exact absurd h (by decide)) | (intro _; cases op' <;> decide)

/-- The nonterminal of the operands of an operation. -/
def operandSym (op : ExprType) : Sym := if op.isBinaryComparison then .arithmetic else .prefix

theorem binary_operand {op : ExprType} {e : AExpr} (ho : IsBinary op)
    (hb : ∀ op' l r k cv, e = .binary k cv op' l r → IsBinary op') :
    needsParentheses op (exprType e) = true ∨ Above (symE e) (operandSym op) := by
  have h : Above .prefix (operandSym op) := by
    unfold operandSym; split
    · exact prefix_arithmetic
    · exact fun _ _ h => h
  cases e with
  | literal => exact .inr (primary_postfix.trans (postfix_prefix.trans h))
  | id => exact .inr (primary_postfix.trans (postfix_prefix.trans h))
  | call => exact .inr (call_postfix.trans (postfix_prefix.trans h))
  | «prefix» => exact .inr h
  | conversion | ite =>
    left; revert ho; simp only [exprType]; cases op <;> simp only [IsBinary] <;> decide
  | binary k cv op' l r =>
    have h2 := hb _ _ _ _ _ rfl
    by_cases hc : op.isBinaryComparison = true ∧ op'.isBinaryArithmetic = true
    · right
      have e1 : operandSym op = .arithmetic := if_pos hc.1
      have e2 : symE (.binary k cv op' l r) = .arithmetic := by
        show opSym op' = _
        unfold opSym
        rw [if_neg, if_pos hc.2]
        revert h2; have := hc.2; revert this; simp only [IsBinary]; cases op' <;> decide
      rw [e1, e2]
      exact fun _ _ h => h
    · left
      revert ho h2 hc
      simp only [exprType]
      cases op <;> simp only [IsBinary] <;> first | (intro h; exact absurd h (by decide)) | (intro _; cases op' <;> decide)

/-! ## Expressions and types -/

theorem printable_binary {a : Bool} {e : AExpr} (h : PrintableE a e) :
    ∀ op l r k cv, e = .binary k cv op l r → IsBinary op := by
  rintro op l r k cv rfl
  simp only [PrintableE] at h
  exact h.1

theorem printable_unary {a : Bool} {e : AExpr} (h : PrintableE a e) :
    ∀ op e' k cv, e = .prefix k cv op e' → IsUnary op := by
  rintro op e' k cv rfl
  simp only [PrintableE] at h
  exact h.1

theorem binary_token {op : ExprType} (h : IsBinary op) :
    spelling op.token = some op.token.codeName ∧ binaryOperation op.token = some op ∧
    op.token ≠ .logical_not ∧ op.token ∉ textual ∧ op.token ∈ binaryOperators ∧
    (op.isBinaryComparison = true → op.token ∈ comparisonOperators) ∧
    (op.isBinaryArithmetic = true → op.token ∈ arithmeticOperators) := by
  revert h
  cases op <;> simp only [IsBinary] <;> decide

theorem binary_symbol {op : ExprType} (h : IsBinary op) : IsSymbol op.token := by
  revert h
  unfold IsBinary
  cases op <;> first
    | (intro h; exact absurd h (by decide))
    | exact fun _ => ⟨_, rfl, by decide⟩

theorem unary_token {op : ExprType} (h : IsUnary op) (hn : op ≠ .logical_not) :
    spelling op.token = some op.token.codeName ∧ unaryOperation op.token = some op ∧
    op.token ≠ .logical_not ∧ op.token ≠ .logical_and ∧ op.token ∉ textual ∧ op.token ∈ unaryOperators ∧
    Heads Sep (code op.token) := by
  revert h hn
  unfold IsUnary
  cases op <;> first
    | (intro h; exact absurd h (by decide))
    | (intro _ h; exact absurd rfl h)
    | exact fun _ _ => ⟨rfl, rfl, by decide, by decide, by decide, by decide, ⟨_, rfl, by decide⟩⟩

theorem unary_symbol {op : ExprType} (h : IsUnary op) : IsSymbol op.token := by
  revert h
  unfold IsUnary
  cases op <;> first
    | (intro h; exact absurd h (by decide))
    | exact fun _ => ⟨_, rfl, by decide⟩

theorem term_tok {ty : TokenType} {x : List Char} (h : ty ∉ textual) : term (ty, x) = tok ty := by
  unfold term; rw [if_neg h]

theorem heads_word {s : List Char} (h : Ident s) : Heads Sep s := by
  match s, h with
  | c :: t, h =>
    refine ⟨c, rfl, fun hj => ?_⟩
    have := h.1
    unfold Joins at hj
    simp only [List.mem_cons, List.not_mem_nil, or_false] at hj
    rcases hj with rfl | rfl | rfl | rfl | rfl | rfl | rfl <;> exact absurd this (by decide)

theorem heads_literal {k : LiteralType} {v : Nat} {s : List Char} (h : Spec.Literal k s v) :
    Heads Sep s := by
  obtain ⟨c, t, rfl, hc⟩ := literal_shape h
  refine ⟨c, rfl, fun hj => ?_⟩
  unfold Joins at hj
  simp only [List.mem_cons, List.not_mem_nil, or_false] at hj
  rcases hj with rfl | rfl | rfl | rfl | rfl | rfl | rfl <;> exact absurd hc (by decide)

theorem name_ident {x : List Char} (h : IsName x) : Ident x := by
  cases h with
  | @fixed _ sp h => cases h
  | identifier h _ => exact h

theorem heads_infix {ty : TokenType} : Heads Stop (infixText ty) := ⟨' ', rfl, by decide⟩

theorem shown_literal {k : Key} {cv : Option Value} {l : Option Lit} {a : Bool}
    (h : PrintableE a (.literal k cv l)) :
    ∃ t, ExprIs t (.literal 0 none l) ∧ Shown Stop .primary (literal l) [some t] := by
  simp only [PrintableE] at h
  obtain ⟨h1, h2⟩ := h
  match l with
  | none => exact absurd rfl h1
  | some .true_ =>
    refine ⟨node (.literal "true".toList .keyword_true) [], .literal .true_,
      [(.keyword_true, "true".toList)], ?_, ⟨_, rfl, by decide⟩, ?_⟩
    · exact writes_keyword (ty := .keyword_true) rfl ⟨by decide, by decide⟩
    · exact .boolean (by decide)
  | some .false_ =>
    refine ⟨node (.literal "false".toList .keyword_false) [], .literal .false_,
      [(.keyword_false, "false".toList)], ?_, ⟨_, rfl, by decide⟩, ?_⟩
    · exact writes_keyword (ty := .keyword_false) rfl ⟨by decide, by decide⟩
    · exact .boolean (by decide)
  | some (.integer x) =>
    obtain ⟨lk, v, hl⟩ := h2 x rfl
    have hk : tokenTypeOf lk ∈ integerLiterals ∧ tokenTypeOf lk ∈ textual := by cases lk <;> decide
    refine ⟨node (.literal x (tokenTypeOf lk)) [], .literal (.integer hk.1), [(tokenTypeOf lk, x)],
      writes_literal hl, heads_literal hl, ?_⟩
    show Derives false .primary [term (tokenTypeOf lk, x)] _
    unfold term
    rw [if_pos hk.2]
    exact .integer hk.1

theorem arguments_rest {es : List AExpr} (h : es ≠ []) :
    arguments o false es = ',' :: ' ' :: arguments o true es := by
  cases es with
  | nil => exact absurd rfl h
  | cons e es => rfl

mutual

theorem shown_expr : ∀ (e : AExpr), PrintableE o.alwaysParenthesize e →
    ∃ t, ExprIs t (plainE e) ∧ Shown Stop (symE e) (expr o e) [some t]
  | .literal k cv l, h => by
    rw [expr, plainE]
    exact shown_literal h
  | .id k cv x r g, h => by
    rw [expr, plainE]
    simp only [PrintableE] at h
    exact ⟨node (.id_expression x) [], .id, [(.identifier, x)], writes_name h, heads_word (name_ident h), .id⟩
  | .conversion k cv e t, h => by
    rw [expr, plainE]
    simp only [PrintableE] at h
    obtain ⟨h1, h2, h3⟩ := h
    obtain ⟨te, e1, e2⟩ := shown_expr e h1
    obtain ⟨tt, t1, is', t2, t3, t4⟩ := shown_type t h2
    obtain ⟨is, e3, e4, e5⟩ := e2.sub (o := o) (outer := .conversion) (s := .prefix) postfix_prefix (by
      rcases h3 with h3 | h3
      · exact .inl h3
      · right
        cases e with
        | literal => exact .inr (primary_postfix.trans postfix_prefix)
        | id => exact .inr (primary_postfix.trans postfix_prefix)
        | call => exact .inr (call_postfix.trans postfix_prefix)
        | «prefix» => exact .inr fun _ _ h => h
        | conversion | ite => left; rfl
        | binary => exact absurd h3 (by simp [NotBinary]))
    refine ⟨node .conversion_expression [some te, some tt], .conversion e1 t1,
      is ++ [(.keyword_as, code .keyword_as)] ++ is', ?_, e4.append.append, ?_⟩
    · refine (e3.append (writes_infix_keyword (ty := .keyword_as) rfl ⟨by decide, by decide⟩) heads_infix).append
        t2 t3
    · rw [List.map_append, List.map_append, List.append_assoc]
      exact .conversion e5 t4
  | .ite k cv l c r, h => by
    rw [expr, plainE]
    simp only [PrintableE] at h
    have side : ∀ e, PrintableE o.alwaysParenthesize e → o.alwaysParenthesize = true ∨
        needsParentheses .if_expression (exprType e) = true ∨ Above (symE e) .binary := by
      intro e he
      right
      cases e with
      | literal => exact .inr (primary_postfix.trans postfix_binary)
      | id => exact .inr (primary_postfix.trans postfix_binary)
      | call => exact .inr (call_postfix.trans postfix_binary)
      | «prefix» => exact .inr prefix_binary
      | conversion | ite => left; rfl
      | binary => exact .inr (op_binary _)
    obtain ⟨tl, l1, l2⟩ := shown_expr l h.1
    obtain ⟨tc, c1, c2⟩ := shown_expr c h.2.1
    obtain ⟨tr, r1, r2⟩ := shown_expr r h.2.2
    obtain ⟨isl, l3, l4, l5⟩ := l2.sub (o := o) postfix_binary (side l h.1)
    obtain ⟨isc, c3, c4, c5⟩ := c2.sub (o := o) postfix_binary (side c h.2.1)
    obtain ⟨isr, r3, r4, r5⟩ := r2.sub (o := o) postfix_binary (side r h.2.2)
    refine ⟨node .if_expression [some tl, some tc, some tr], .ite l1 c1 r1,
      isl ++ [(.keyword_if, code .keyword_if)] ++ isc ++ [(.keyword_else, code .keyword_else)] ++ isr, ?_,
      l4.append.append.append.append, ?_⟩
    · exact ((((l3.append (writes_infix_keyword (ty := .keyword_if) rfl ⟨by decide, by decide⟩)
        heads_infix).append c3 c4).append
        (writes_infix_keyword (ty := .keyword_else) rfl ⟨by decide, by decide⟩) heads_infix).append r3 r4)
    · simp only [List.map_append, List.append_assoc]
      have := Derives.ifExpression l5 c5 (.ifBinary r5)
      rw [List.append_assoc] at this
      exact this
  | .binary k cv op l r, h => by
    rw [expr, plainE]
    simp only [PrintableE] at h
    obtain ⟨h1, h2, h3⟩ := h
    obtain ⟨tl, l1, l2⟩ := shown_expr l h2
    obtain ⟨tr, r1, r2⟩ := shown_expr r h3
    have hp : Above .postfix (operandSym op) := by
      unfold operandSym; split
      · exact postfix_prefix.trans prefix_arithmetic
      · exact postfix_prefix
    obtain ⟨isl, l3, l4, l5⟩ := l2.sub (o := o) hp (.inr (binary_operand h1 (printable_binary h2)))
    obtain ⟨isr, r3, r4, r5⟩ := r2.sub (o := o) hp (.inr (binary_operand h1 (printable_binary h3)))
    obtain ⟨b1, b2, b3, b4, b5, b6, b7⟩ := binary_token h1
    refine ⟨node (.binary_expression op.token) [some tl, some tr], .binary b2 l1 r1,
      isl ++ [(op.token, code op.token)] ++ isr, ?_, l4.append.append, ?_⟩
    · exact (l3.append (writes_infix b1 (binary_symbol h1) b3) heads_infix).append r3 r4
    · rw [List.map_append, List.map_append, List.append_assoc]
      show Derives false (opSym op) (_ ++ (term (op.token, _) :: _)) _
      rw [term_tok b4]
      unfold opSym
      unfold operandSym at l5 r5
      split
      · rename_i hc
        rw [if_pos hc] at l5 r5
        exact .comparison (b6 hc) l5 r5
      · rename_i hc
        rw [if_neg hc] at l5 r5
        split
        · rename_i ha
          exact .arithmetic (b7 ha) l5 r5
        · exact .binary b5 l5 r5
  | .prefix k cv op e, h => by
    rw [expr, plainE]
    simp only [PrintableE] at h
    obtain ⟨h1, h2, h3⟩ := h
    obtain ⟨te, e1, e2⟩ := shown_expr e h3
    obtain ⟨is, e3, e4, e5⟩ := e2.sub (o := o) (s := .postfix) (fun _ _ h => h)
      (.inr (unary_operand h1 (printable_binary h3) (printable_unary h3)))
    obtain ⟨b1, b2, b3, b4, b5, b6, b7⟩ := unary_token h1 h2
    refine ⟨node (.prefix_expression op.token) [some te], .pre b2 e1, (op.token, code op.token) :: is, ?_,
      b7.append, ?_⟩
    · exact (writes_symbol b1 (unary_symbol h1) b4 b3).append e3 e4
    · rw [List.map_cons, term_tok b5]
      exact .unary b6 e5
  | .call k cv st x r args, h => by
    rw [expr, plainE]
    simp only [PrintableE] at h
    obtain ⟨rfl, h2, h3⟩ := h
    cases args with
    | nil =>
      refine ⟨node (.function_call_expression x false) ([] ++ [none]), .call (by rw [plainEs]; exact .nil),
        [(.identifier, x), (.left_parenthesis, ['(']), (.right_parenthesis, [')'])], ?_,
        (heads_word (name_ident h2)).append, ?_⟩
      · rw [arguments]
        exact ((writes_name h2).append (writes_left.append writes_right ⟨_, rfl, by decide⟩)
          ⟨_, rfl, by decide⟩).mono fun _ => Stop.sep
      · exact .call (w := []) .noArguments .noAnnotations
    | cons e es =>
      obtain ⟨ts, a1, is, a2, a3, a4⟩ := shown_args (e :: es) h3 (by simp)
      refine ⟨node (.function_call_expression x false) (ts ++ [none]), .call a1,
        (.identifier, x) :: (.left_parenthesis, ['(']) :: (is ++ [(.right_parenthesis, [')'])]), ?_,
        (heads_word (name_ident h2)).append, ?_⟩
      · exact ((writes_name h2).append (writes_left.append (a2.append writes_right ⟨_, rfl, by decide⟩)
          a3.append) ⟨_, rfl, by decide⟩).mono fun _ => Stop.sep
      · simp only [List.map_cons, List.map_append, List.map_nil]
        exact .call (.someArguments a4) .noAnnotations

theorem shown_type : ∀ (t : AType), PrintableT o.alwaysParenthesize t →
    ∃ tt, TypeIs tt (plainT t) ∧ Shown Stop .type (type o t) [some tt]
  | .base k cv b, _ => by
    rw [type, plainT]
    cases b with
    | void => exact ⟨_, .void, [(.keyword_void, _)],
        writes_keyword (ty := .keyword_void) rfl ⟨by decide, by decide⟩, ⟨_, rfl, by decide⟩, .typeVoid⟩
    | bool => exact ⟨_, .bool, [(.keyword_bool, _)],
        writes_keyword (ty := .keyword_bool) rfl ⟨by decide, by decide⟩, ⟨_, rfl, by decide⟩, .typeBool⟩
    | int => exact ⟨_, .int, [(.keyword_int, _)],
        writes_keyword (ty := .keyword_int) rfl ⟨by decide, by decide⟩, ⟨_, rfl, by decide⟩, .typeInt⟩
  | .uint k cv c w, h => by
    rw [type, plainT]
    simp only [PrintableT] at h
    obtain ⟨tw, w1, w2⟩ := shown_expr w h
    obtain ⟨is, w3, w4, w5⟩ := (w2.up (above_expression w)).parens
    refine ⟨node (.type .Uint) [some tw], .uint w1, (.keyword_uint, code .keyword_uint) :: is, ?_,
      ⟨_, rfl, by decide⟩, ?_⟩
    · exact ((writes_keyword (ty := .keyword_uint) rfl ⟨by decide, by decide⟩).append w3
        ⟨_, rfl, by decide⟩).mono fun _ => Stop.sep
    · exact .typeUint w5

theorem shown_args : ∀ (es : List AExpr), PrintableEs o.alwaysParenthesize es → es ≠ [] →
    ∃ ts, ExprsIs ts (plainEs es) ∧ Shown Stop .arguments (arguments o true es) ts
  | [], _, h => absurd rfl h
  | e :: es, h, _ => by
    simp only [PrintableEs] at h
    obtain ⟨te, e1, is, e2, e3, e4⟩ := shown_expr e h.1
    by_cases hn : es = []
    · subst hn
      refine ⟨[some te], by simp only [plainEs]; exact .cons e1 .nil, is, ?_, ?_, ?_⟩
      · simpa [arguments] using e2
      · simpa [arguments] using e3
      · exact .argument (above_expression e _ _ e4)
    · obtain ⟨ts, a1, is', a2, a3, a4⟩ := shown_args es h.2 hn
      refine ⟨[some te] ++ ts, by rw [plainEs]; exact .cons e1 a1, is ++ (.comma, [',']) :: is', ?_, ?_, ?_⟩
      · rw [arguments, arguments_rest hn]
        simp only [if_true, List.nil_append]
        exact e2.append (writes_comma.append a2.space ⟨_, rfl, by decide⟩) ⟨_, rfl, by decide⟩
      · simpa [arguments] using e3.append
      · rw [List.map_append, List.map_cons]
        exact .argumentsComma (above_expression e _ _ e4) a4

end

/-! ## Statements -/

theorem Writes.append_any {Q : Char → Prop} {a b : List Char} {is js : List (TokenType × List Char)}
    (ha : Writes (fun _ => True) a is) (hb : Writes Q b js) : Writes Q (a ++ b) (is ++ js) := by
  intro more rest h1 h2
  rw [List.append_assoc, List.append_assoc]
  exact ha _ _ (fun _ _ => trivial) (hb _ _ h1 h2)

theorem white_sep {c : Char} (h : White c) : Sep c := by
  intro hj
  unfold Joins at hj
  simp only [List.mem_cons, List.not_mem_nil, or_false] at hj
  rcases hj with rfl | rfl | rfl | rfl | rfl | rfl | rfl <;> exact absurd h (by decide)

theorem Heads.gap {g a : List Char} (h : Heads Sep a) (hg : ∀ c ∈ g, White c) : Heads Sep (g ++ a) := by
  cases g with
  | nil => exact h
  | cons c g => exact ⟨c, rfl, white_sep (hg c (List.mem_cons_self ..))⟩

theorem Shown.gap {P : Char → Prop} {s : Sym} {g text : List Char} {ts : List (Option Tree)}
    (h : Shown P s text ts) (hg : ∀ c ∈ g, White c) : Shown P s (g ++ text) ts :=
  let ⟨is, h1, h2, h3⟩ := h; ⟨is, h1.gap hg, h2.gap hg, h3⟩

theorem indent_white (hw : White o.indentChar) (d : Nat) (b : Bool) : ∀ c ∈ indent o d b, White c := by
  intro c hc
  unfold indent at hc
  split at hc
  · rw [List.eq_of_mem_replicate hc]; exact hw
  · cases hc

theorem separate_white (b : Bool) : ∀ c ∈ separate b, White c := by cases b <;> decide

theorem separate_heads (b : Bool) (a : List Char) : Heads Stop (separate b ++ a) := by
  cases b
  · exact ⟨' ', rfl, by decide⟩
  · exact ⟨'\n', rfl, by decide⟩

theorem writes_left_brace : Writes Sep ['{'] [(.left_brace, ['{'])] :=
  writes_symbol (ty := .left_brace) (sp := "{") rfl ⟨_, rfl, by decide⟩ (by decide) (by decide)
theorem writes_right_brace : Writes Sep ['}'] [(.right_brace, ['}'])] :=
  writes_symbol (ty := .right_brace) (sp := "}") rfl ⟨_, rfl, by decide⟩ (by decide) (by decide)

theorem shown_any (e : AExpr) (h : PrintableE o.alwaysParenthesize e) :
    ∃ t, ExprIs t (plainE e) ∧ Shown Stop .expression (expr o e) [some t] :=
  let ⟨t, h1, h2⟩ := shown_expr e h
  ⟨t, h1, h2.up (above_expression e)⟩

/-- A name and its type. -/
theorem named {x : List Char} {t : Option AType} (hx : IsName x)
    (ht : IfAny (PrintableT o.alwaysParenthesize) t) :
    ∃ tt is, OptIs TypeIs tt (t.map plainT) ∧ Writes Stop (x ++ optType o t) ((.identifier, x) :: is) ∧
      Derives false .optType (is.map term) [tt] := by
  cases t with
  | none => exact ⟨none, [], .none, by simpa [optType] using writes_name hx, .noType⟩
  | some t =>
    obtain ⟨tt, t1, is, t2, t3, t4⟩ := shown_type t ht
    refine ⟨some tt, (.colon, [':']) :: is, .some t1, ?_, .someType t4⟩
    exact (writes_name hx).append (writes_colon.append t2.space ⟨_, rfl, by decide⟩) ⟨_, rfl, by decide⟩

/-- An initializer. -/
theorem initialized (e : AExpr) (h : PrintableE o.alwaysParenthesize e) :
    ∃ t is, ExprIs t (plainE e) ∧ Writes Stop (infixText .assign ++ expr o e) is ∧
      Derives false .initializer (is.map term) [some t] := by
  obtain ⟨t, h1, is, h2, h3, h4⟩ := shown_any e h
  refine ⟨t, (.assign, code .assign) :: is, h1, ?_, .initializer h4⟩
  exact (writes_infix (P := Sep) (ty := .assign) rfl ⟨_, rfl, by decide⟩ (by decide)).append h2 h3

theorem shown_const (hw : White o.indentChar) {x : List Char} {t : Option AType} {e : AExpr} (hx : IsName x)
    (ht : IfAny (PrintableT o.alwaysParenthesize) t) (he : PrintableE o.alwaysParenthesize e) :
    ∃ tt te, OptIs TypeIs tt (t.map plainT) ∧ ExprIs te (plainE e) ∧
      ∀ depth sol, Shown Sep .const_ (constant o depth sol x t e)
        [some (node (.const x) [none, tt, some te])] := by
  obtain ⟨tt, is, t1, t2, t3⟩ := named hx ht
  obtain ⟨te, js, e1, e2, e3⟩ := initialized e he
  refine ⟨tt, te, t1, e1, fun depth sol => ?_⟩
  have key : Shown Sep .const_ (code .keyword_const ++ (' ' :: (x ++ optType o t) ++
      (infixText .assign ++ expr o e) ++ [';'])) [some (node (.const x) [none, tt, some te])] := by
    refine ⟨(.keyword_const, code .keyword_const) :: ((.identifier, x) :: is ++ js ++ [(.semicolon, [';'])]),
      ?_, ⟨_, rfl, by decide⟩, ?_⟩
    · exact (writes_keyword (ty := .keyword_const) rfl ⟨by decide, by decide⟩).append
        ((t2.space.append e2 ⟨_, rfl, by decide⟩).append writes_semicolon ⟨_, rfl, by decide⟩)
        ⟨_, rfl, by decide⟩
    · simp only [List.map_append, List.map_cons, List.map_nil]
      exact .const (wa := []) .noAnnotations t3 e3
  have := key.gap (indent_white hw depth sol)
  unfold constant
  simpa only [List.append_assoc, List.cons_append] using this

theorem shown_staticAssert (hw : White o.indentChar) {e : AExpr} (he : PrintableE o.alwaysParenthesize e) :
    ∃ te, ExprIs te (plainE e) ∧
      ∀ depth sol, Shown Sep .static_assert (staticAssert o depth sol e)
        [some (node .static_assert [some te])] := by
  obtain ⟨te, e1, e2⟩ := shown_any e he
  obtain ⟨is, e3, e4, e5⟩ := e2.parens
  refine ⟨te, e1, fun depth sol => ?_⟩
  have key : Shown Sep .static_assert (code .keyword_static_assert ++ (parenthesize (expr o e) ++ [';']))
      [some (node .static_assert [some te])] := by
    refine ⟨(.keyword_static_assert, code .keyword_static_assert) :: (is ++ [(.semicolon, [';'])]),
      ?_, ⟨_, rfl, by decide⟩, ?_⟩
    · exact (writes_keyword (ty := .keyword_static_assert) rfl ⟨by decide, by decide⟩).append
        (e3.append writes_semicolon ⟨_, rfl, by decide⟩) ⟨_, rfl, by decide⟩
    · simp only [List.map_append, List.map_cons, List.map_nil]
      exact .staticAssert e5
  have := key.gap (indent_white hw depth sol)
  unfold staticAssert
  simpa only [List.append_assoc, List.cons_append] using this

theorem shown_let (hw : White o.indentChar) {x : List Char} {t : Option AType} {e : Option AExpr}
    (hx : IsName x) (ht : IfAny (PrintableT o.alwaysParenthesize) t)
    (he : IfAny (PrintableE o.alwaysParenthesize) e) (hn : t ≠ none ∨ e ≠ none) :
    ∃ tt te, OptIs TypeIs tt (t.map plainT) ∧ OptIs ExprIs te (e.map plainE) ∧
      ∀ depth sol, Shown Sep .let_ (indent o depth sol ++ code .keyword_let ++ ' ' :: x ++ optType o t ++
        optInitializer o e ++ [';'])
        [some (node (.let x) [none, tt, te])] := by
  obtain ⟨tt, is, t1, t2, t3⟩ := named hx ht
  cases e with
  | none =>
    refine ⟨tt, none, t1, .none, fun depth sol => ?_⟩
    have key : Shown Sep .let_ (code .keyword_let ++ (' ' :: (x ++ optType o t) ++ [';']))
        [some (node (.let x) [none, tt, none])] := by
      refine ⟨(.keyword_let, code .keyword_let) :: ((.identifier, x) :: is ++ [(.semicolon, [';'])]),
        ?_, ⟨_, rfl, by decide⟩, ?_⟩
      · exact (writes_keyword (ty := .keyword_let) rfl ⟨by decide, by decide⟩).append
          (t2.space.append writes_semicolon ⟨_, rfl, by decide⟩) ⟨_, rfl, by decide⟩
      · simp only [List.map_append, List.map_cons, List.map_nil]
        generalize is.map term = w at t3
        have ht : ∃ t', t = some t' := by
          cases t with
          | none => simp at hn
          | some t => exact ⟨t, rfl⟩
        obtain ⟨t', rfl⟩ := ht
        cases t1 with
        | some t1 =>
          generalize hl : [some _] = l at t3
          cases t3 with
          | noType => cases hl
          | someType t3 => subst hl; exact .letType (wa := []) .noAnnotations t3
    have := key.gap (indent_white hw depth sol)
    simpa only [optInitializer, List.append_assoc, List.cons_append, List.nil_append] using this
  | some e =>
    obtain ⟨te, js, e1, e2, e3⟩ := initialized e he
    refine ⟨tt, some te, t1, .some e1, fun depth sol => ?_⟩
    have key : Shown Sep .let_ (code .keyword_let ++ (' ' :: (x ++ optType o t) ++
        (infixText .assign ++ expr o e) ++ [';'])) [some (node (.let x) [none, tt, some te])] := by
      refine ⟨(.keyword_let, code .keyword_let) :: ((.identifier, x) :: is ++ js ++ [(.semicolon, [';'])]),
        ?_, ⟨_, rfl, by decide⟩, ?_⟩
      · exact (writes_keyword (ty := .keyword_let) rfl ⟨by decide, by decide⟩).append
          ((t2.space.append e2 ⟨_, rfl, by decide⟩).append writes_semicolon ⟨_, rfl, by decide⟩)
          ⟨_, rfl, by decide⟩
      · simp only [List.map_append, List.map_cons, List.map_nil]
        exact .letInit (wa := []) .noAnnotations t3 e3
    have := key.gap (indent_white hw depth sol)
    simpa only [optInitializer, List.append_assoc, List.cons_append] using this

theorem shown_control (hw : White o.indentChar) {k : Key} {c : Control} {e : Option AExpr}
    (he : IfAny (PrintableE o.alwaysParenthesize) e) (hn : c ≠ .return_ → e = none) :
    ∃ t, StmtIs t (.control k none c (e.map plainE)) ∧
      ∀ depth sol, Shown Sep .statement (indent o depth sol ++ code (controlToken c) ++
        optValue o e ++ [';']) [some t] := by
  cases e with
  | none =>
    have key : ∀ t, Derives false .statement [tok (controlToken c), tok .semicolon] [some t] →
        ∀ depth sol, Shown Sep .statement (indent o depth sol ++ code (controlToken c) ++ [] ++ [';'])
          [some t] := by
      intro t ht depth sol
      have : Shown Sep .statement (code (controlToken c) ++ [';']) [some t] := by
        refine ⟨[(controlToken c, code (controlToken c)), (.semicolon, [';'])], ?_, ?_, ?_⟩
        · cases c with
          | return_ =>
            exact (writes_keyword (ty := .keyword_return) rfl ⟨by decide, by decide⟩).append
              writes_semicolon ⟨_, rfl, by decide⟩
          | break_ =>
            exact (writes_keyword (ty := .keyword_break) rfl ⟨by decide, by decide⟩).append
              writes_semicolon ⟨_, rfl, by decide⟩
          | continue_ =>
            exact (writes_keyword (ty := .keyword_continue) rfl ⟨by decide, by decide⟩).append
              writes_semicolon ⟨_, rfl, by decide⟩
        · cases c <;> exact ⟨_, rfl, by decide⟩
        · cases c <;> exact ht
      have := this.gap (indent_white hw depth sol)
      simpa only [List.append_assoc, List.nil_append] using this
    cases c with
    | return_ => exact ⟨_, .return_ .none, key _ .returnVoid⟩
    | break_ => exact ⟨_, .break_, key _ .break_⟩
    | continue_ => exact ⟨_, .continue_, key _ .continue_⟩
  | some e =>
    have hc : c = .return_ := by
      by_contra h
      exact absurd (hn h) (by simp)
    subst hc
    obtain ⟨te, e1, is, e2, e3, e4⟩ := shown_any e he
    refine ⟨_, .return_ (.some e1), fun depth sol => ?_⟩
    have : Shown Sep .statement (code .keyword_return ++ (' ' :: expr o e ++ [';']))
        [some (node .return_statement [some te])] := by
      refine ⟨(.keyword_return, code .keyword_return) :: (is ++ [(.semicolon, [';'])]), ?_,
        ⟨_, rfl, by decide⟩, ?_⟩
      · exact (writes_keyword (ty := .keyword_return) rfl ⟨by decide, by decide⟩).append
          (e2.space.append writes_semicolon ⟨_, rfl, by decide⟩) ⟨_, rfl, by decide⟩
      · simp only [List.map_append, List.map_cons, List.map_nil]
        exact .return_ e4
    have := this.gap (indent_white hw depth sol)
    simpa only [List.append_assoc, List.cons_append, controlToken, optValue] using this

theorem shown_assign (hw : White o.indentChar) {x : List Char} {e : AExpr} (hx : IsName x)
    (he : PrintableE o.alwaysParenthesize e) :
    ∃ te, ExprIs te (plainE e) ∧ ∀ depth sol, Shown Sep .statement
      (indent o depth sol ++ x ++ infixText .assign ++ expr o e ++ [';'])
        [some (node (.assignment x) [none, some te])] := by
  obtain ⟨te, e1, is, e2, e3, e4⟩ := shown_any e he
  refine ⟨te, e1, fun depth sol => ?_⟩
  have : Shown Sep .statement (x ++ (infixText .assign ++ expr o e ++ [';']))
      [some (node (.assignment x) [none, some te])] := by
    refine ⟨(.identifier, x) :: ((.assign, code .assign) :: is ++ [(.semicolon, [';'])]), ?_,
      (heads_word (name_ident hx)).append, ?_⟩
    · exact (writes_name hx).append ((Writes.append (P := Sep)
        (writes_infix (ty := .assign) rfl ⟨_, rfl, by decide⟩ (by decide)) e2 e3).append
          writes_semicolon ⟨_, rfl, by decide⟩) ⟨_, rfl, by decide⟩
    · simp only [List.map_append, List.map_cons, List.map_nil]
      exact .assignment (wa := []) .noAnnotations e4
  have := this.gap (indent_white hw depth sol)
  simpa only [List.append_assoc, List.cons_append] using this

/-- The nonterminal of a statement. -/
def symS : AStmt → Sym
  | .block .. => .block
  | .ifThen .. | .ifElse .. => .if_
  | _ => .statement

theorem above_statement (s : AStmt) : Above (symS s) .statement := by
  intro w ts h
  cases s <;> first
    | exact h
    | exact .stmtBlock h
    | exact .stmtIf h

theorem as_block {b : AStmt} (h : IsBlock b) (r : Outcome Unit (List Char × Bool)) : asBlock b r = r := by
  cases b <;> first
    | rfl
    | exact h.elim

theorem sym_block {b : AStmt} (h : IsBlock b) : symS b = .block := by
  cases b <;> first
    | rfl
    | exact h.elim

theorem is_if {b : AStmt} (h : IsIf b) : isIf b = true ∧ symS b = .if_ := by
  cases b <;> first
    | exact ⟨rfl, rfl⟩
    | exact h.elim

/-- The text of a statement is derived; `if` statements begin with `if`. -/
def ShownS (s : AStmt) (text : List Char) (t : Tree) : Prop :=
  ∃ items, Writes Sep text items ∧ Heads Sep text ∧ Derives false (symS s) (items.map term) [some t] ∧
    (IsIf s → ∃ w, items.map term = tok .keyword_if :: w)

theorem Shown.stmt {s : AStmt} {text : List Char} {t : Tree} (h : Shown Sep .statement text [some t])
    (hs : symS s = .statement) : ShownS s text t := by
  obtain ⟨is, h1, h2, h3⟩ := h
  refine ⟨is, h1, h2, by rw [hs]; exact h3, fun h => ?_⟩
  rw [(is_if h).2] at hs
  cases hs

/-- The condition and the block. -/
theorem conditional {ty : TokenType} (hty : spelling ty = some ty.codeName) (hi : Ident (code ty))
    (hh : Heads Sep (code ty)) {c : AExpr} {tb : Tree} {tc : Tree} {block : List Char}
    (e2 : Shown Stop .expression (expr o c) [some tc]) (hb : Shown Sep .block block [some tb]) :
    ∃ is js, Writes Sep (code ty ++ (' ' :: expr o c ++ (separate o.breakAfterIf ++ block)))
        ((ty, code ty) :: (is ++ js)) ∧
      Derives false .expression (is.map term) [some tc] ∧ Derives false .block (js.map term) [some tb] := by
  obtain ⟨is, e2, e3, e4⟩ := e2
  obtain ⟨js, b1, b2, b3⟩ := hb
  exact ⟨is, js, (writes_keyword hty hi).append (e2.space.append (b1.gap (separate_white _))
    (separate_heads _ _)) ⟨_, rfl, by decide⟩, e4, b3⟩

mutual

theorem shown_stmt (hw : White o.indentChar) : ∀ (s : AStmt), PrintableS o.alwaysParenthesize s →
    ∃ t, StmtIs t (plainS s) ∧ ∀ depth sol, ∃ text, stmt o depth sol s = .ok (text, false) ∧ ShownS s text t
  | .const_ k cv x t e, h => by
    simp only [PrintableS] at h
    obtain ⟨tt, te, t1, e1, h3⟩ := shown_const hw h.1 h.2.1 h.2.2
    rw [plainS]
    exact ⟨_, .const_ t1 e1, fun d b => ⟨_, by rw [stmt], ((h3 d b).up fun _ _ => .stmtConst).stmt rfl⟩⟩
  | .let_ k cv x t e, h => by
    simp only [PrintableS] at h
    obtain ⟨tt, te, t1, e1, h3⟩ := shown_let hw h.1 h.2.1 h.2.2.1 h.2.2.2
    rw [plainS]
    exact ⟨_, .let_ t1 e1, fun d b => ⟨_, rfl, ((h3 d b).up fun _ _ => .stmtLet).stmt rfl⟩⟩
  | .staticAssert k cv e, h => by
    simp only [PrintableS] at h
    obtain ⟨te, e1, h3⟩ := shown_staticAssert hw h
    rw [plainS]
    exact ⟨_, .staticAssert e1, fun d b => ⟨_, by rw [stmt], ((h3 d b).up fun _ _ => .stmtStaticAssert).stmt rfl⟩⟩
  | .ifThen k cv c b, h => by
    simp only [PrintableS] at h
    obtain ⟨h1, h2, h3⟩ := h
    obtain ⟨tc, c1, c2⟩ := shown_any c h1
    obtain ⟨tb, b1, b2⟩ := shown_stmt hw b h3
    rw [plainS]
    refine ⟨_, .ifThen (a := none) c1 b1, fun d sol => ?_⟩
    obtain ⟨text, b3, is, b4, b5, b6, -⟩ := b2 d false
    rw [sym_block h2] at b6
    obtain ⟨js, ks, w1, w2, w3⟩ := conditional (ty := .keyword_if) rfl ⟨by decide, by decide⟩
      ⟨_, rfl, by decide⟩ c2 ⟨is, b4, b5, b6⟩
    refine ⟨indent o d sol ++ (code .keyword_if ++ (' ' :: expr o c ++ (separate o.breakAfterIf ++ text))), ?_,
      _, w1.gap (indent_white hw d sol), Heads.gap ⟨_, rfl, by decide⟩ (indent_white hw d sol), ?_,
      fun _ => ⟨_, rfl⟩⟩
    · rw [stmt]
      simp only [as_block h2, b3, List.append_assoc, List.cons_append]
      rfl
    · have := Derives.if_ (wa := []) .noAnnotations w2 w3 (.noElse)
      simp only [List.map_append, List.map_cons]
      simpa [symS, term_tok (ty := .keyword_if) (by decide)] using this
  | .ifElse k cv c b e, h => by
    simp only [PrintableS] at h
    obtain ⟨h1, h2, h3, h4, h5⟩ := h
    obtain ⟨tc, c1, c2⟩ := shown_any c h1
    obtain ⟨tb, b1, b2⟩ := shown_stmt hw b h3
    obtain ⟨te, e1, e2⟩ := shown_stmt hw e h5
    rw [plainS]
    refine ⟨_, .ifElse (a := none) c1 b1 e1, fun d sol => ?_⟩
    obtain ⟨text, b3, is, b4, b5, b6, -⟩ := b2 d false
    obtain ⟨text', e3, ls, e4, e5, e6, e7⟩ := e2 d false
    obtain ⟨w, e7⟩ := e7 h4
    rw [sym_block h2] at b6
    rw [(is_if h4).2] at e6
    obtain ⟨js, ks, w1, w2, w3⟩ := conditional (ty := .keyword_if) rfl ⟨by decide, by decide⟩
      ⟨_, rfl, by decide⟩ c2 ⟨is, b4, b5, b6⟩
    refine ⟨indent o d sol ++ (code .keyword_if ++ (' ' :: expr o c ++ (separate o.breakAfterIf ++ text)) ++
      (code .keyword_else ++ ' ' :: text')), ?_,
      _, (w1.append ((writes_keyword (ty := .keyword_else) rfl ⟨by decide, by decide⟩).append e4.space
        ⟨_, rfl, by decide⟩) ⟨_, rfl, by decide⟩).gap (indent_white hw d sol),
      Heads.gap ⟨_, rfl, by decide⟩ (indent_white hw d sol), ?_,
      fun _ => ⟨_, rfl⟩⟩
    · rw [stmt]
      simp only [as_block h2, b3, List.append_assoc, List.cons_append]
      show (if isIf e = true then _ else _) = _
      rw [if_pos (is_if h4).1, e3]
      show Outcome.ok _ = _
      simp only [indent, Bool.false_eq_true, if_false, List.nil_append, List.append_assoc, List.cons_append]
    · rw [e7] at e6
      have := Derives.if_ (wa := []) .noAnnotations w2 w3 (.elseIf e6)
      simp only [List.map_append, List.map_cons, e7]
      simpa [symS, term_tok (ty := .keyword_if) (by decide), term_tok (ty := .keyword_else) (by decide)] using this
  | .while_ k cv c b, h => by
    simp only [PrintableS] at h
    obtain ⟨h1, h2, h3⟩ := h
    obtain ⟨tc, c1, c2⟩ := shown_any c h1
    obtain ⟨tb, b1, b2⟩ := shown_stmt hw b h3
    rw [plainS]
    refine ⟨_, .while_ (a := none) c1 b1, fun d sol => ?_⟩
    obtain ⟨text, b3, is, b4, b5, b6, -⟩ := b2 d false
    rw [sym_block h2] at b6
    obtain ⟨js, ks, w1, w2, w3⟩ := conditional (ty := .keyword_while) rfl ⟨by decide, by decide⟩
      ⟨_, rfl, by decide⟩ c2 ⟨is, b4, b5, b6⟩
    refine ⟨indent o d sol ++ (code .keyword_while ++ (' ' :: expr o c ++ (separate o.breakAfterIf ++ text))), ?_,
      _, w1.gap (indent_white hw d sol), Heads.gap ⟨_, rfl, by decide⟩ (indent_white hw d sol), ?_,
      fun h => h.elim⟩
    · rw [stmt]
      simp only [as_block h2, b3, List.append_assoc, List.cons_append]
      rfl
    · have := Derives.while_ (wa := []) .noAnnotations w2 w3
      simp only [List.map_append, List.map_cons]
      simpa [symS, term_tok (ty := .keyword_while) (by decide)] using this
  | .control k cv c e, h => by
    simp only [PrintableS] at h
    obtain ⟨t, e1, h3⟩ := shown_control hw h.1 h.2
    rw [plainS]
    exact ⟨_, e1, fun d b => ⟨_, rfl, (h3 d b).stmt rfl⟩⟩
  | .assign k cv x r e, h => by
    simp only [PrintableS] at h
    obtain ⟨te, e1, h3⟩ := shown_assign hw h.1 h.2
    rw [plainS]
    exact ⟨_, .assign e1, fun d b => ⟨_, by rw [stmt], (h3 d b).stmt rfl⟩⟩
  | .block k cv ss, h => by
    simp only [PrintableS] at h
    obtain ⟨ts, s1, s2⟩ := shown_stmts hw ss h
    rw [plainS]
    refine ⟨_, .block s1, fun d sol => ?_⟩
    obtain ⟨text, s3, is, s4, s5⟩ := s2 (d + 1)
    refine ⟨'{' :: '\n' :: (text ++ (indent o d true ++ ['}'])), ?_,
      (.left_brace, ['{']) :: (is ++ [(.right_brace, ['}'])]), ?_, ⟨_, rfl, by decide⟩, ?_, fun h => h.elim⟩
    · rw [stmt, s3]
      show Outcome.ok _ = _
      simp only [List.append_assoc, List.cons_append]
    · exact writes_left_brace.append ((s4.append_any (writes_right_brace.gap (indent_white hw d true))).line)
        ⟨_, rfl, by decide⟩
    · simp only [List.map_append, List.map_cons, List.map_nil]
      exact .block s5
  | .call e, h => by
    simp only [PrintableS] at h

theorem shown_stmts (hw : White o.indentChar) : ∀ (ss : List AStmt), PrintableSs o.alwaysParenthesize ss →
    ∃ ts, StmtsIs ts (plainSs ss) ∧ ∀ depth, ∃ text, stmts o depth ss = .ok text ∧
      ∃ items, Writes (fun _ => True) text items ∧ Derives false .statements (items.map term) ts
  | [], _ => ⟨[], by rw [plainSs]; exact .nil, fun _ => ⟨[], rfl, [], writes_nil, .noStatements⟩⟩
  | s :: ss, h => by
    simp only [PrintableSs] at h
    obtain ⟨t, t1, t2⟩ := shown_stmt hw s h.1
    obtain ⟨ts, s1, s2⟩ := shown_stmts hw ss h.2
    refine ⟨[some t] ++ ts, by rw [plainSs]; exact .cons t1 s1, fun d => ?_⟩
    obtain ⟨text, t3, is, t4, t5, t6, -⟩ := t2 d true
    obtain ⟨text', s3, js, s4, s5⟩ := s2 d
    refine ⟨text ++ '\n' :: text', ?_, is ++ js, t4.append s4.line ⟨_, rfl, by decide⟩, ?_⟩
    · rw [stmts, t3, s3]
      rfl
    · rw [List.map_append]
      exact .statements (above_statement s _ _ t6) s5

end

/-! ## Declarations -/

theorem parameters_rest {ps : List AParam} (h : ps ≠ []) :
    parameters o false ps = ',' :: ' ' :: parameters o true ps := by
  cases ps with
  | nil => exact absurd rfl h
  | cons e es => rfl

theorem shown_parameters : ∀ (ps : List AParam),
    (∀ p ∈ ps, IsName p.name ∧ PrintableT o.alwaysParenthesize p.type) → ps ≠ [] →
    ∃ ts, ParamsIs ts (ps.map plainP) ∧ Shown Stop .parameters (parameters o true ps) ts
  | [], _, h => absurd rfl h
  | p :: ps, h, _ => by
    obtain ⟨h1, h2⟩ := h p (List.mem_cons_self ..)
    obtain ⟨tt, t1, is, t2, t3, t4⟩ := shown_type p.type h2
    have hp : Writes Stop (p.name ++ (':' :: ' ' :: type o p.type))
        ((.identifier, p.name) :: (.colon, [':']) :: is) :=
      (writes_name h1).append (writes_colon.append t2.space ⟨_, rfl, by decide⟩) ⟨_, rfl, by decide⟩
    have hd : Derives false .parameter (((.identifier, p.name) :: (.colon, [':']) :: is).map term)
        [some (node (.parameter p.name) [some tt])] := .parameter t4
    by_cases hn : ps = []
    · subst hn
      refine ⟨[some (node (.parameter p.name) [some tt])], .cons t1 .nil, _, ?_, ?_, .lastParameter hd⟩
      · simpa [parameters] using hp
      · simpa [parameters] using (heads_word (name_ident h1)).append
    · obtain ⟨ts, a1, js, a2, a3, a4⟩ := shown_parameters ps (fun q hq => h q (List.mem_cons_of_mem _ hq)) hn
      refine ⟨[some (node (.parameter p.name) [some tt])] ++ ts, .cons t1 a1,
        ((.identifier, p.name) :: (.colon, [':']) :: is) ++ (.comma, [',']) :: js, ?_, ?_, ?_⟩
      · have := hp.append (writes_comma.append a2.space ⟨_, rfl, by decide⟩) ⟨_, rfl, by decide⟩
        rw [parameters, parameters_rest hn]
        simpa using this
      · simpa [parameters] using (heads_word (name_ident h1)).append
      · rw [List.map_append, List.map_cons]
        exact .parameters hd a4

theorem shown_paramList (ps : List AParam)
    (h : ∀ p ∈ ps, IsName p.name ∧ PrintableT o.alwaysParenthesize p.type) :
    ∃ t is, ParamListIs t (ps.map plainP) ∧ Writes Sep (parenthesize (parameters o true ps))
        ((.left_parenthesis, ['(']) :: is ++ [(.right_parenthesis, [')'])]) ∧
      Derives false .optParameters (is.map term) [t] := by
  by_cases hn : ps = []
  · subst hn
    exact ⟨none, [], .none, writes_left.append writes_right ⟨_, rfl, by decide⟩, .noParameters⟩
  · obtain ⟨ts, a1, is, a2, a3, a4⟩ := shown_parameters ps h hn
    exact ⟨_, is, .some a1, writes_left.append (a2.append writes_right ⟨_, rfl, by decide⟩) a3.append,
      .someParameters a4⟩

theorem shown_function (hw : White o.indentChar) (f : AFn)
    (h : PrintableD o.alwaysParenthesize (.function f)) :
    ∃ t, FnIs t (plainF f) ∧ ∀ sol, ∃ text, function o sol f = .ok (text, false) ∧
      Shown Sep .function text [some t] := by
  simp only [PrintableD] at h
  obtain ⟨h1, h2, h3, h4, h5⟩ := h
  obtain ⟨tps, is, p1, p2, p3⟩ := shown_paramList f.params h2
  obtain ⟨tr, r1, js, r2, r3, r4⟩ := shown_type f.ret h3
  obtain ⟨ts, s1, s2⟩ := shown_stmts hw f.body h5
  refine ⟨node (.function f.name) [none, tps, some tr, none, some (node .block_statement ts)], ?_, fun sol => ?_⟩
  · have : FnIs _ (⟨0, none, f.name, f.params.map plainP, plainT f.ret, none, 0, plainSs f.body, [], false,
      none, .unanalyzed⟩ : AFn) := .mk (a := none) p1 r1 .none s1
    rw [plainF, h4]
    exact this
  · obtain ⟨text, s3, ks, s4, s5⟩ := s2 1
    have key : Shown Sep .function (code .keyword_function ++ (' ' :: f.name ++
        (parenthesize (parameters o true f.params) ++ (infixText .right_arrow ++ (type o f.ret ++
          (separate o.breakAfterFunction ++ '{' :: '\n' :: (text ++ (indent o 0 true ++ ['}'])))))))) 
        [some (node (.function f.name) [none, tps, some tr, none, some (node .block_statement ts)])] := by
      refine ⟨(.keyword_function, code .keyword_function) :: ((.identifier, f.name) ::
        (((.left_parenthesis, ['(']) :: is ++ [(.right_parenthesis, [')'])]) ++
          ((.right_arrow, code .right_arrow) :: (js ++
            ((.left_brace, ['{']) :: (ks ++ [(.right_brace, ['}'])])))))), ?_, ⟨_, rfl, by decide⟩, ?_⟩
      · have b : Writes Sep ('{' :: '\n' :: (text ++ (indent o 0 true ++ ['}'])))
            ((.left_brace, ['{']) :: (ks ++ [(.right_brace, ['}'])])) :=
          writes_left_brace.append ((s4.append_any (writes_right_brace.gap (indent_white hw 0 true))).line)
            ⟨_, rfl, by decide⟩
        have b2 := r2.append (b.gap (separate_white o.breakAfterFunction)) (separate_heads _ _)
        have b3 := (writes_infix (P := Sep) (ty := .right_arrow) rfl ⟨_, rfl, by decide⟩ (by decide)).append
          b2 r3.append
        have b4 := p2.append b3 ⟨' ', rfl, by decide⟩
        have b5 := (writes_name h1).space.append b4 ⟨'(', rfl, by decide⟩
        exact (writes_keyword (ty := .keyword_function) rfl ⟨by decide, by decide⟩).append b5 ⟨' ', rfl, by decide⟩
      · have := Derives.function (wa := []) (x := f.name) .noAnnotations p3 r4 .noRequires (.block s5)
        have e1 : term (TokenType.identifier, f.name) = ident f.name := rfl
        simpa [e1, term_tok (ty := .keyword_function) (by decide), term_tok (ty := .left_parenthesis) (by decide),
          term_tok (ty := .right_parenthesis) (by decide), term_tok (ty := .right_arrow) (by decide),
          term_tok (ty := .left_brace) (by decide), term_tok (ty := .right_brace) (by decide)] using this
    refine ⟨_, ?_, key.gap (indent_white hw 0 sol)⟩
    rw [function, stmt, s3]
    show Outcome.ok _ = _
    simp only [List.append_assoc, List.cons_append]

theorem shown_decl (hw : White o.indentChar) (d : ADecl) (h : PrintableD o.alwaysParenthesize d) :
    ∃ t, DeclIs t (plainD d) ∧ ∀ sol, ∃ text, decl o sol d = .ok (text, false) ∧
      Shown Sep .declaration text [some t] := by
  cases d with
  | const_ k cv x t e =>
    obtain ⟨tt, te, t1, e1, h3⟩ := shown_const hw h.1 h.2.1 h.2.2
    exact ⟨_, .const_ t1 e1, fun b => ⟨_, rfl, (h3 0 b).up fun _ _ => .declConst⟩⟩
  | staticAssert k cv e =>
    obtain ⟨te, e1, h3⟩ := shown_staticAssert hw h
    exact ⟨_, .staticAssert e1, fun b => ⟨_, rfl, (h3 0 b).up fun _ _ => .declStaticAssert⟩⟩
  | function f =>
    obtain ⟨t, f1, h3⟩ := shown_function hw f h
    refine ⟨_, .function f1, fun b => ?_⟩
    obtain ⟨text, h4, h5⟩ := h3 b
    exact ⟨text, h4, h5.up fun _ _ => .declFunction⟩

theorem shown_decls (hw : White o.indentChar) : ∀ (ds : List ADecl),
    (∀ d ∈ ds, PrintableD o.alwaysParenthesize d) →
    ∃ ts, DeclsIs ts (ds.map plainD) ∧ ∃ text, decls o false ds = .ok text ∧
      ∃ items, Writes Sep text items ∧ (text = [] ∨ Heads Sep text) ∧
        Derives false .declarations (items.map term) ts
  | [], _ => ⟨[], .nil, [], rfl, [], writes_nil, .inl rfl, .noDeclarations⟩
  | d :: ds, h => by
    obtain ⟨t, t1, t2⟩ := shown_decl hw d (h d (List.mem_cons_self ..))
    obtain ⟨text, t3, is, t4, t5, t6⟩ := t2 true
    obtain ⟨ts, s1, text', s2, js, s3, s4, s5⟩ := shown_decls hw ds fun q hq => h q (List.mem_cons_of_mem _ hq)
    refine ⟨[some t] ++ ts, .cons t1 s1, '\n' :: '\n' :: (text ++ text'), ?_, is ++ js, ?_,
      .inr ⟨_, rfl, by decide⟩, ?_⟩
    · rw [decls, t3, s2]
      rfl
    · rcases s4 with rfl | s4
      · intro more rest h1 h2
        have := (t4.line.line) _ _ h1 (s3 more rest h1 h2)
        simpa using this
      · exact (t4.append s3 s4).line.line
    · rw [List.map_append]
      exact .declarations t6 s5

theorem shown_program (hw : White o.indentChar) (ds : List ADecl) (hn : ds ≠ [])
    (h : ∀ d ∈ ds, PrintableD o.alwaysParenthesize d) :
    ∃ t, ProgramIs t (ds.map plainD) ∧ ∃ text, program o ds = .ok text ∧
      ∃ items, Spelled Neat text items ∧ Derives false .program (items.map term) [some t] := by
  cases ds with
  | nil => exact absurd rfl hn
  | cons d ds =>
    obtain ⟨t, t1, t2⟩ := shown_decl hw d (h d (List.mem_cons_self ..))
    obtain ⟨text, t3, is, t4, t5, t6⟩ := t2 true
    obtain ⟨ts, s1, text', s2, js, s3, s4, s5⟩ := shown_decls hw ds fun q hq => h q (List.mem_cons_of_mem _ hq)
    have hs : Spelled Neat (text' ++ ['\n']) (js ++ []) :=
      s3 _ _ (fun c hc => by cases hc; decide) (.nil (by decide))
    rw [List.append_nil] at hs
    refine ⟨_, .mk (.cons t1 s1), text ++ (text' ++ ['\n']), ?_, is ++ js, ?_, ?_⟩
    · rw [program, decls, t3, s2]
      show Outcome.ok _ = _
      simp
    · refine t4 _ _ (fun c hc => ?_) hs
      rcases s4 with rfl | ⟨c', s4, s4'⟩
      · cases hc; decide
      · cases text' with
        | nil => cases s4
        | cons a b => cases s4; cases hc; exact s4'
    · rw [List.map_append]
      exact .program t6 s5

end Bms.GenBms
