import Verif.Lemmas.ParseScan
import Verif.Lemmas.ParseFuel

/-!
# What the grammar derives is accepted by the parser
-/

namespace Bms.Parse

open Spec (Tree Derives Reads ReadsAll Sym tok ident lexeme tokenText textual unobstructed
  comparisonOperators)

variable {α β : Type} {src : List Char} {m : Nat} {rec : (r : Rule) → Prog r.Result}

/-! ## Tokens -/

theorem split_cons {f : Token → Spec.Terminal} {used : List Token} {x : Spec.Terminal}
    {w : List Spec.Terminal} (h : used.map f = x :: w) :
    ∃ t u, used = t :: u ∧ f t = x ∧ u.map f = w := by
  cases used with
  | nil => cases h
  | cons t u => simp at h; exact ⟨t, u, rfl, h.1, h.2⟩

theorem split_append {f : Token → Spec.Terminal} {used : List Token} {w w' : List Spec.Terminal}
    (h : used.map f = w ++ w') :
    ∃ u u', used = u ++ u' ∧ u.map f = w ∧ u'.map f = w' := by
  obtain ⟨u, u', h1, h2, h3⟩ := List.map_eq_append_iff.mp h
  exact ⟨u, u', h1, h2, h3⟩

theorem split_nil {f : Token → Spec.Terminal} {used : List Token} (h : used.map f = []) :
    used = [] := List.map_eq_nil_iff.mp h

theorem type_of_lexeme {t : Token} {ty : TokenType} {x : List Char}
    (h : lexeme src t = (ty, x)) : t.type = ty := congrArg Prod.fst h

theorem text_of_lexeme {t : Token} {ty : TokenType} {x : List Char}
    (h : lexeme src t = (ty, x)) (hx : ty ∈ textual) : tokenText src t = x := by
  have h1 := type_of_lexeme h
  have h2 := congrArg Prod.snd h
  simpa [lexeme, h1, hx] using h2

theorem type_tok {t : Token} {ty : TokenType} (h : lexeme src t = tok ty) : t.type = ty :=
  type_of_lexeme h

theorem type_ident {t : Token} {x : List Char} (h : lexeme src t = ident x) :
    t.type = .identifier := type_of_lexeme h

theorem text_ident {t : Token} {x : List Char} (h : lexeme src t = ident x) :
    tokenText src t = x := text_of_lexeme h (by decide)

/-- What holds for the remaining tokens: there are no comments, they are in the source, there are at
most `m`, and comparisons are unobstructed. -/
structure Ctx (src : List Char) (m : Nat) (ts : List Token) : Prop where
  good : ∀ t ∈ ts, t.type.isComment = false ∧ t.pos.start ≤ src.length
  len : ts.length ≤ m
  plain : ∃ a d, d + ts.length < 2 ^ 64 ∧ unobstructed a d (ts.map (·.type)) = true

theorem unobstructed_tail {a : Nat → Bool} {d : Nat} {t : TokenType} {ts : List TokenType}
    (h : unobstructed a d (t :: ts) = true) :
    ∃ a' d', d' ≤ d + 1 ∧ unobstructed a' d' ts = true := by
  rw [unobstructed] at h
  split at h
  · exact ⟨_, _, by omega, h⟩
  split at h
  · simp only [Bool.and_eq_true] at h; exact ⟨_, _, by omega, h.2⟩
  split at h
  · exact ⟨_, _, by omega, h⟩
  split at h
  · exact ⟨_, _, by omega, h⟩
  split at h
  · exact ⟨_, _, by omega, h⟩
  split at h
  · simp only [Bool.and_eq_true] at h; exact ⟨_, _, by omega, h.2⟩
  · exact ⟨_, _, by omega, h⟩

theorem Ctx.tail {t : Token} {ts : List Token} (h : Ctx src m (t :: ts)) : Ctx src m ts := by
  refine ⟨fun x hx => h.good x (by simp [hx]), ?_, ?_⟩
  · have := h.len; simp at this; omega
  · obtain ⟨a, d, hd, hu⟩ := h.plain
    obtain ⟨a', d', hd', hu'⟩ := unobstructed_tail hu
    simp only [List.length_cons] at hd
    exact ⟨a', d', by omega, hu'⟩

theorem Ctx.right {u ts : List Token} (h : Ctx src m (u ++ ts)) : Ctx src m ts := by
  induction u with
  | nil => exact h
  | cons t u ih => exact ih h.tail

theorem Ctx.skip {ts : List Token} (h : Ctx src m ts) : skipComments ts = ts :=
  NoC.skip fun t ht => (h.good t ht).1

theorem Ctx.noComment {t : Token} {ts : List Token} (h : Ctx src m (t :: ts)) :
    t.type.isComment = false := (h.good t (by simp)).1

theorem Ctx.inRange {t : Token} {ts : List Token} (h : Ctx src m (t :: ts)) :
    t.pos.start ≤ src.length := (h.good t (by simp)).2

/-- The next token is one of `L`. -/
def NextIn (L : List TokenType) (rest : List Token) : Prop :=
  ∃ t r, rest = t :: r ∧ t.type ∈ L

theorem NextIn.not {L : List TokenType} {rest : List Token} (h : NextIn L rest) {x : TokenType}
    (hx : x ∉ L) : NextNot x rest := by
  obtain ⟨t, r, rfl, ht⟩ := h
  intro y hy e
  simp at hy
  subst hy
  exact hx (e ▸ ht)

theorem NextIn.mono {L L' : List TokenType} {rest : List Token} (h : NextIn L rest)
    (hL : ∀ x ∈ L, x ∈ L') : NextIn L' rest := by
  obtain ⟨t, r, rfl, ht⟩ := h
  exact ⟨t, r, rfl, hL _ ht⟩

theorem NextIn.cons {L : List TokenType} {t : Token} {ty : TokenType} (rest : List Token)
    (ht : t.type = ty) (h : ty ∈ L) : NextIn L (t :: rest) := ⟨t, rest, rfl, ht ▸ h⟩

theorem NextNot.cons {x : TokenType} {t : Token} {ty : TokenType} (rest : List Token)
    (ht : t.type = ty) (h : ty ≠ x) : NextNot x (t :: rest) := by
  intro y hy e
  simp at hy
  subst hy
  exact h (ht.symm.trans e)

/-- What may follow an expression. -/
def afterExpression : List TokenType := [.right_parenthesis, .comma, .semicolon, .left_brace]

/-- What may follow a binary expression. -/
def afterBinary : List TokenType :=
  [.right_parenthesis, .comma, .semicolon, .left_brace, .keyword_if, .keyword_else]

/-- What may follow an operand of a comparison. -/
def afterArithmetic : List TokenType :=
  [.right_parenthesis, .comma, .semicolon, .left_brace, .keyword_if, .keyword_else, .equals,
   .not_equals, .less_than, .greater_than, .less_or_equal, .greater_or_equal]

/-- What may follow an operand. -/
def AfterOperand (rest : List Token) : Prop :=
  NextNot .at_sign rest ∧ NextNot .left_parenthesis rest

theorem AfterOperand.cons {t : Token} {ty : TokenType} (rest : List Token)
    (ht : t.type = ty) (h : ty ≠ .at_sign ∧ ty ≠ .left_parenthesis) :
    AfterOperand (t :: rest) := ⟨.cons rest ht h.1, .cons rest ht h.2⟩

theorem AfterOperand.of {L : List TokenType} {rest : List Token} (h : NextIn L rest)
    (h1 : TokenType.at_sign ∉ L ∧ TokenType.left_parenthesis ∉ L) : AfterOperand rest :=
  ⟨h.not h1.1, h.not h1.2⟩

/-- The search for a comparison operator finds nothing behind a binary expression. -/
theorem commit_after {rest : List Token} (hc : Ctx src m rest) (hn : NextIn afterBinary rest) :
    shouldCommit 0 rest = false := by
  obtain ⟨t, r, rfl, ht⟩ := hn
  obtain ⟨a, d, hd, hu⟩ := hc.plain
  rw [shouldCommit_eq, List.map_cons]
  simp only [List.map_cons, List.length_cons] at hu hd
  generalize t.type = ty at ht hu
  have hlen : (r.map (·.type)).length = r.length := by simp
  have e0 : (0 : UInt64) = UInt64.ofNat d - UInt64.ofNat d := by simp
  simp only [afterBinary, List.mem_cons, List.not_mem_nil, or_false] at ht
  rcases ht with rfl | rfl | rfl | rfl | rfl | rfl
  · rw [unobstructed, if_neg (by decide), if_pos rfl] at hu
    simp only [Bool.and_eq_true, decide_eq_true_eq] at hu
    rw [commitT_cons, if_neg (by decide), if_neg (by decide), if_pos rfl, e0,
      level_pred _ _ (by simpa using hu.1)]
    exact commitT_after _ (after := fun x => x = d || a x) (by simp) (by omega)
      (by rw [hlen]; omega) hu.2
  · rw [unobstructed, if_neg (by decide), if_neg (by decide), if_pos (by decide)] at hu
    rw [commitT_skip (by decide) (by decide) (by decide) (by decide) (by decide), e0]
    exact commitT_after _ (after := fun x => x = d || a x) (by simp) (by omega)
      (by rw [hlen]; omega) hu
  · rfl
  · rfl
  · rfl
  · rw [unobstructed, if_neg (by decide), if_neg (by decide), if_pos (by decide)] at hu
    rw [commitT_skip (by decide) (by decide) (by decide) (by decide) (by decide), e0]
    exact commitT_after _ (after := fun x => x = d || a x) (by simp) (by omega)
      (by rw [hlen]; omega) hu

/-! ## Running the operations -/

section Forward
variable {rest : List Token} {nodes : List Node} {tk : Token} {t : TokenType}

theorem fwd_expectIf {p : TokenType → Bool} {f : Option Token → Prog β} (hc : Ctx src m (tk :: rest))
    (h : p tk.type = true) : ((expectIf p).bind f).run src ⟨tk :: rest, nodes⟩ =
      (f (some tk)).run src ⟨rest, nodes⟩ := by
  simp only [expectIf, Prog.bind, Prog.run, hc.skip, h, if_true]

theorem fwd_expectIf_none {p : TokenType → Bool} {f : Option Token → Prog β} (hc : Ctx src m rest)
    (h : ∀ x ∈ rest.head?, p x.type = false) : ((expectIf p).bind f).run src ⟨rest, nodes⟩ =
      (f none).run src ⟨rest, nodes⟩ := by
  simp only [expectIf, Prog.bind, Prog.run, hc.skip]
  cases rest with
  | nil => rfl
  | cons x xs => simp [h x (by simp)]

theorem fwd_expect {f : Option Token → Prog β} (hc : Ctx src m (tk :: rest)) (h : tk.type = t) :
    ((expect t).bind f).run src ⟨tk :: rest, nodes⟩ = (f (some tk)).run src ⟨rest, nodes⟩ :=
  fwd_expectIf (p := (· == t)) hc (by simp [h])

theorem fwd_expect_none {f : Option Token → Prog β} (hc : Ctx src m rest) (h : NextNot t rest) :
    ((expect t).bind f).run src ⟨rest, nodes⟩ = (f none).run src ⟨rest, nodes⟩ :=
  fwd_expectIf_none (p := (· == t)) hc (fun x hx => by simpa using h x hx)

theorem fwd_require {r : GrammarRule} {f : Token → Prog β} (hc : Ctx src m (tk :: rest))
    (h : tk.type = t) :
    ((require r t).bind f).run src ⟨tk :: rest, nodes⟩ = (f tk).run src ⟨rest, nodes⟩ :=
  fwd_expect (f := fun o => Prog.bind (match o with
    | some tok => .ret tok
    | none => .fail ⟨r, [t]⟩) f) hc h

theorem fwd_peek {f : Bool → Prog β} (hc : Ctx src m (tk :: rest)) (h : tk.type = t) :
    ((peek t).bind f).run src ⟨tk :: rest, nodes⟩ = (f true).run src ⟨tk :: rest, nodes⟩ := by
  simp only [peek, Prog.bind, Prog.run, hc.skip, h, beq_self_eq_true, if_true, Bool.false_eq_true,
    if_false, Option.isSome]

theorem fwd_peek_none {f : Bool → Prog β} (hc : Ctx src m rest) (h : NextNot t rest) :
    ((peek t).bind f).run src ⟨rest, nodes⟩ = (f false).run src ⟨rest, nodes⟩ := by
  simp only [peek, Prog.bind, Prog.run, hc.skip]
  cases rest with
  | nil => rfl
  | cons x xs => simp [h x (by simp)]

theorem fwd_peekAny {f : Option TokenType → Prog β} (hc : Ctx src m (tk :: rest))
    (h : tk.type = t) :
    (peekAny.bind f).run src ⟨tk :: rest, nodes⟩ = (f (some t)).run src ⟨tk :: rest, nodes⟩ := by
  simp only [peekAny, Prog.bind, Prog.run, hc.skip, if_true, Bool.false_eq_true, if_false,
    Option.map_some, h]

theorem fwd_push {n : Node} {f : Handle → Prog β} :
    ((push n).bind f).run src ⟨rest, nodes⟩ =
      (f (some nodes.length)).run src ⟨rest, nodes ++ [n]⟩ := rfl

theorem fwd_extract {x : List Char} {f : List Char → Prog β} (hr : tk.pos.start ≤ src.length)
    (h : tokenText src tk = x) :
    ((extract tk).bind f).run src ⟨rest, nodes⟩ = (f x).run src ⟨rest, nodes⟩ := by
  simp only [extract, Prog.bind, Prog.run, hr, if_true]
  rw [← h]; rfl

theorem fwd_assert {c : Bool} {f : Unit → Prog β} (h : c = true) :
    ((assert c).bind f).run src ⟨rest, nodes⟩ = (f ()).run src ⟨rest, nodes⟩ := by
  subst h; rfl

theorem fwd_bind {p : Prog α} {f : α → Prog β} {a : α} {s s' : State}
    (h : p.run src s = .ok a s') : (p.bind f).run src s = (f a).run src s' := by
  rw [run_bind, h]; rfl

theorem fwd_commit {f : Bool → Prog β} {b : Bool} (h : shouldCommit 0 rest = b) :
    ((Prog.commit .ret).bind f).run src ⟨rest, nodes⟩ = (f b).run src ⟨rest, nodes⟩ := by
  subst h; rfl

theorem fwd_peek1 {f : Option Token → Prog β} {o : Option Token} (h : peekToken1 rest = o) :
    ((Prog.peek1 .ret).bind f).run src ⟨rest, nodes⟩ = (f o).run src ⟨rest, nodes⟩ := by
  subst h; rfl

theorem fwd_attempt {p : Prog Bool} {f : Bool → Prog β} {b : Bool} {s s' : State}
    (h : p.run src s = .ok b s') :
    ((Prog.attempt p .ret).bind f).run src s = (f b).run src s := by
  show (Prog.attempt p fun b => f b).run src s = _
  rw [run_attempt, h]

theorem fwd_handle {p : Prog α} {e : RuleError → Prog β} {k : α → Prog β} {a : α} {s s' : State}
    (h : p.run src s = .ok a s') : (Prog.handle p e k).run src s = (k a).run src s' := by
  simp only [Prog.run, h]

theorem fwd_ann {a : Option Node} {A : Option Tree} {ns : List Node} (ha : AnnReads nodes a A)
    (hp : nodes <+: ns) (rest : List Token) : ∃ h ns',
      (∀ {β : Type} {f : Handle → Prog β}, ((pushOrNull a).bind f).run src ⟨rest, ns⟩ =
        (f h).run src ⟨rest, ns'⟩) ∧ ns <+: ns' ∧ Kids ns' [h] [A] := by
  cases a with
  | none =>
    cases A with
    | none => exact ⟨none, ns, rfl, List.prefix_refl _, Kids.null⟩
    | some t => exact ha.elim
  | some n =>
    cases A with
    | none => exact ha.elim
    | some t =>
      exact ⟨some ns.length, ns ++ [n], rfl, List.prefix_append _ _,
        (NodeReads.mono ha hp).pushed (List.prefix_refl _)⟩

end Forward

open Lean in
/-- Run the operations one after the other. -/
macro "steps" "[" ts:term,* "]" : tactic => do
  let ts : Array (TSyntax `tactic) ← ts.getElems.mapM fun t => `(tactic| refine Eq.trans $t ?_)
  `(tactic| ($[$ts:tactic];*; exact rfl))

/-- One list of nodes extends another. -/
macro "ext" : tactic =>
  `(tactic| repeat (first
      | exact List.prefix_refl _
      | exact List.prefix_append _ _
      | assumption
      | refine List.IsPrefix.trans ?_ (List.prefix_append _ _)
      | refine List.IsPrefix.trans ?_ (by assumption)))

/-! ## What is to be shown -/

/-- The function returns the root of `t`. -/
def Ok (src : List Char) (p : Prog Node) (used rest : List Token) (t : Tree) : Prop :=
  ∀ nodes, ∃ n ns, p.run src ⟨used ++ rest, nodes⟩ = .ok n ⟨rest, ns⟩ ∧ nodes <+: ns ∧
    NodeReads ns n t

/-- The function parses the tokens of `w` if `N` holds for what follows. -/
def CNode (src : List Char) (m : Nat) (p : Prog Node) (N : List Token → Prop)
    (w : List Spec.Terminal) (ts : List (Option Tree)) : Prop :=
  ∃ t, ts = [some t] ∧ ∀ used rest, used.map (lexeme src) = w → Ctx src m (used ++ rest) →
    N rest → Ok src p used rest t

/-- The function parses the tokens of `w`, and the end of the first operand is not followed by
`as`. -/
def CExpr (src : List Char) (m : Nat) (rec : (r : Rule) → Prog r.Result) (p : Prog Node)
    (N : List Token → Prop) (w : List Spec.Terminal) (ts : List (Option Tree)) : Prop :=
  CNode src m p N w ts ∧ ∀ used rest, used.map (lexeme src) = w → Ctx src m (used ++ rest) →
    N rest → NextNot .keyword_as rest →
    ∀ nodes, ∃ n rest' ns, (matchPrefix rec).run src ⟨used ++ rest, nodes⟩ = .ok n ⟨rest', ns⟩ ∧
      Ctx src m rest' ∧ NextNot .keyword_as rest'

/-- The same for a function that returns a handle. -/
def CHandle (src : List Char) (m : Nat) (p : Prog Handle) (N : List Token → Prop)
    (w : List Spec.Terminal) (ts : List (Option Tree)) : Prop :=
  ∃ o, ts = [o] ∧ ∀ used rest, used.map (lexeme src) = w → Ctx src m (used ++ rest) → N rest →
    ∀ nodes, ∃ h ns, p.run src ⟨used ++ rest, nodes⟩ = .ok h ⟨rest, ns⟩ ∧ nodes <+: ns ∧
      Kids ns [h] [o] ∧ h.isSome = o.isSome

/-- The same for loops. -/
def CLoop (src : List Char) (m : Nat) (p : List Handle → Prog (List Handle))
    (N : List Token → Prop) (w : List Spec.Terminal) (ts : List (Option Tree)) : Prop :=
  ∀ used rest acc, used.map (lexeme src) = w → Ctx src m (used ++ rest) → N rest →
    ∀ nodes, ∃ hs ns, (p acc).run src ⟨used ++ rest, nodes⟩ = .ok (acc ++ hs) ⟨rest, ns⟩ ∧
      nodes <+: ns ∧ Kids ns hs ts

/-- Optional annotations. -/
def COptAnn (src : List Char) (m : Nat) (rec : (r : Rule) → Prog r.Result)
    (w : List Spec.Terminal) (A : Option Tree) : Prop :=
  (w = [] ∧ A = none) ∨ ∃ t w', A = some t ∧ w = tok .at_sign :: w' ∧
    ∀ used rest, used.map (lexeme src) = w → Ctx src m (used ++ rest) → AfterOperand rest →
      Ok src (matchAnnotationSequence rec) used rest t

/-- A function for something that may start with annotations. -/
def CAnn (src : List Char) (m : Nat) (rec : (r : Rule) → Prog r.Result)
    (p : Option Node → Prog Node) (first : TokenType) (N : List Token → Prop)
    (w : List Spec.Terminal) (ts : List (Option Tree)) : Prop :=
  ∃ wa A x w' t, w = wa ++ x :: w' ∧ ts = [some t] ∧ COptAnn src m rec wa A ∧ x.1 = first ∧
    ∀ used rest, used.map (lexeme src) = x :: w' → Ctx src m (used ++ rest) → N rest →
      ∀ nodes a, AnnReads nodes a A → ∃ n ns, (p a).run src ⟨used ++ rest, nodes⟩ =
        .ok n ⟨rest, ns⟩ ∧ nodes <+: ns ∧ NodeReads ns n t

/-- The tokens that may start a statement. -/
def StartsIn (L : List TokenType) (w : List Spec.Terminal) : Prop := ∃ x w', w = x :: w' ∧ x.1 ∈ L

/-- The types of literals. -/
def literalTypes : List TokenType :=
  [.binary_literal, .octal_literal, .decimal_literal, .hexadecimal_literal, .keyword_true,
   .keyword_false]

/-- The tokens that start an expression. -/
def expressionStarts : List TokenType :=
  [.left_parenthesis, .identifier, .plus, .minus, .logical_not, .bitwise_not, .binary_literal,
   .octal_literal, .decimal_literal, .hexadecimal_literal, .keyword_true, .keyword_false]

/-- Anything may follow. -/
def Any (_ : List Token) : Prop := True

/-- What is to be shown for each nonterminal. -/
def Complete (src : List Char) (m : Nat) (rec : (r : Rule) → Prog r.Result) :
    Sym → List Spec.Terminal → List (Option Tree) → Prop
  | .primary, w, ts => CNode src m (matchPostfix rec) AfterOperand w ts ∧
      StartsIn (expressionStarts.filter (·.isUnaryOperator = false)) w
  | .parenthesized, w, ts => CNode src m (matchParenthesized rec) Any w ts ∧
      StartsIn [.left_parenthesis] w
  | .optArguments, w, ts => CLoop src m (argumentsLoop rec false) Any
      (w ++ [tok .right_parenthesis]) ts
  | .arguments, w, ts => ∀ demand, CLoop src m (argumentsLoop rec demand) Any
      (w ++ [tok .right_parenthesis]) ts
  | .call, w, ts => CNode src m (matchFunctionCall rec) AfterOperand w ts ∧
      ∃ x w', w = ident x :: tok .left_parenthesis :: w'
  | .postfix, w, ts => CNode src m (matchPostfix rec) AfterOperand w ts ∧
      StartsIn (expressionStarts.filter (·.isUnaryOperator = false)) w
  | .prefix, w, ts => CNode src m (matchPrefix rec) AfterOperand w ts ∧
      StartsIn expressionStarts w
  | .arithmetic, w, ts => CExpr src m rec (matchArithmetic rec) (NextIn afterArithmetic) w ts ∧
      StartsIn expressionStarts w
  | .comparison, w, ts => CExpr src m rec (matchComparison rec) (NextIn afterBinary) w ts ∧
      StartsIn expressionStarts w ∧ (w.length < 2 ^ 64 → ∀ r, commitT 0 (types w ++ r) = true)
  | .binary, w, ts => CExpr src m rec (matchBinary rec) (NextIn afterBinary) w ts ∧
      StartsIn expressionStarts w
  | .ifExpression, w, ts => CExpr src m rec (matchIfExpression rec) (NextIn afterExpression) w ts ∧
      StartsIn expressionStarts w
  | .conversion, w, ts => CNode src m (matchExpression rec) Any w ts ∧
      StartsIn expressionStarts w
  | .expression, w, ts => CNode src m (matchExpression rec) (NextIn afterExpression) w ts ∧
      StartsIn expressionStarts w
  | .type, w, ts => CNode src m (matchType rec) Any w ts
  | .optType, w, ts => CHandle src m (matchOptionalType rec) (NextNot .colon) w ts ∧
      (w = [] ∨ ∃ w', w = tok .colon :: w')
  | .optAnnotations, w, ts => ∃ A, ts = [A] ∧ COptAnn src m rec w A
  | .annotations, w, ts => CLoop src m (fun acc => (annotationsLoop rec acc).bind fun r => .ret r.2)
      AfterOperand w ts ∧ (∃ w', w = tok .at_sign :: w') ∧ ts ≠ []
  | .annotation, w, ts => CNode src m (matchAnnotation rec) (NextNot .left_parenthesis) w ts ∧
      ∃ w', w = tok .at_sign :: w'
  | .annotationArguments, w, ts => CLoop src m (annotationArgumentsLoop rec) (NextNot .comma) w ts ∧
      StartsIn (.identifier :: .string_literal :: literalTypes) w ∧ ts ≠ []
  | .annotationArgument, w, ts => CNode src m matchAnnotationArgument Any w ts ∧
      StartsIn (.identifier :: .string_literal :: literalTypes) w
  | .initializer, w, ts => CNode src m (matchInitializer rec) (NextIn afterExpression) w ts ∧
      ∃ w', w = tok .assign :: w'
  | .const_, w, ts => CAnn src m rec (matchConst rec) .keyword_const Any w ts
  | .let_, w, ts => CAnn src m rec (matchLet rec) .keyword_let Any w ts
  | .static_assert, w, ts => CNode src m (matchStaticAssert rec) Any w ts ∧
      StartsIn [.keyword_static_assert] w
  | .parameter, w, ts => CNode src m (matchParameter rec) Any w ts ∧ StartsIn [.identifier] w
  | .parameters, w, ts => CLoop src m (fun acc => (parametersLoop rec acc).bind fun r => .ret r.2)
      (NextNot .comma) w ts ∧ StartsIn [.identifier] w ∧ ts ≠ []
  | .optParameters, w, ts => (w = [] ∧ ts = [none]) ∨
      (CNode src m (matchParameterSequence rec) (NextNot .comma) w ts ∧ StartsIn [.identifier] w)
  | .optRequires, w, ts => (w = [] ∧ ts = [none]) ∨
      (CNode src m (matchRequires rec) (NextIn afterExpression) w ts ∧
        StartsIn [.keyword_requires] w)
  | .function, w, ts => CAnn src m rec (matchFunction rec) .keyword_function Any w ts
  | .declaration, w, ts => CNode src m (matchDeclaration rec) Any w ts ∧ w ≠ []
  | .declarations, w, ts => CLoop src m (declarationsLoop rec) (· = []) w ts
  | .program, w, ts => CNode src m (matchProgram rec) (· = []) w ts
  | .statement, w, ts => CNode src m (matchStatement rec) (NextNot .keyword_else) w ts ∧
      StartsIn statementExpected w
  | .if_, w, ts => CAnn src m rec (matchIf rec) .keyword_if (NextNot .keyword_else) w ts
  | .optElse, w, ts => (w = [] ∧ ts = [none]) ∨
      (CNode src m (matchElse rec) (NextNot .keyword_else) w ts ∧ StartsIn [.keyword_else] w)
  | .block, w, ts => CNode src m (matchBlock rec) Any w ts ∧ StartsIn [.left_brace] w
  | .statements, w, ts => CLoop src m (statementsLoop rec) Any (w ++ [tok .right_brace]) ts ∧
      (w = [] ∨ StartsIn statementExpected w)

/-! ## The cases -/

set_option hygiene false in
/-- Bring the tokens into the form of a list of tokens and parts. -/
macro "norm" : tactic =>
  `(tactic| (
      try simp only [List.cons_append, List.append_assoc, List.nil_append] at hc
      try simp only [List.cons_append, List.append_assoc, List.nil_append] at he
      try simp only [List.cons_append, List.append_assoc, List.nil_append]))

theorem mk_ok {p : Prog Node} {s : State} {rest : List Token} {nodes ns : List Node} {t : Tree}
    {n : Node} (h : p.run src s = .ok n ⟨rest, ns⟩) (hp : nodes <+: ns) (hr : NodeReads ns n t) :
    ∃ n ns, p.run src s = .ok n ⟨rest, ns⟩ ∧ nodes <+: ns ∧ NodeReads ns n t :=
  ⟨n, ns, h, hp, hr⟩

section
variable (hm : m < 2 ^ 64)
  (hfix : ∀ r s, s.rest.length ≤ m → (rec r).run src s = (body rec r).run src s)

theorem c_literal {ty : TokenType} {x : List Char} (ht : ty ∈ literalTypes) :
    Complete src m rec .primary [(ty, x)] [some (.node (.literal x ty) [])] := by
  refine ⟨⟨_, rfl, ?_⟩, _, _, rfl, by show ty ∈ _; revert ht; cases ty <;> decide⟩
  intro used rest he hc hn nodes
  obtain ⟨tk, u, rfl, hl, he⟩ := split_cons he
  obtain rfl := split_nil he
  norm
  have h1 := type_of_lexeme hl
  have h2 := text_of_lexeme hl (by revert ht; cases ty <;> decide)
  exact mk_ok (by
    steps [fwd_peek_none hc (NextNot.cons _ h1 (by revert ht; cases ty <;> decide)),
      fwd_expectIf hc (by rw [h1]; revert ht; cases ty <;> decide), fwd_extract hc.inRange h2])
    (List.prefix_refl _) (by exact ⟨[], by rw [h1], .nil⟩)

theorem c_id {x : List Char} :
    Complete src m rec .primary [ident x] [some (.node (.id_expression x) [])] := by
  refine ⟨⟨_, rfl, ?_⟩, _, _, rfl, by show TokenType.identifier ∈ _; decide⟩
  intro used rest he hc hn nodes
  obtain ⟨tk, u, rfl, hl, he⟩ := split_cons he
  obtain rfl := split_nil he
  norm
  have h1 := type_ident hl
  have h3 : ¬(peekToken1 (tk :: rest)).map (·.type) = some .left_parenthesis := by
    simp only [peekToken1, hc.skip, peekToken, hc.tail.skip]
    intro h
    obtain ⟨y, hy, hy'⟩ := Option.map_eq_some_iff.mp h
    exact hn.2 y hy hy'
  have h4 : (matchPostfix rec).run src ⟨tk :: rest, nodes⟩ =
      (matchPrimary rec).run src ⟨tk :: rest, nodes⟩ := by
    refine Eq.trans (fwd_peek hc h1) ?_
    refine Eq.trans (fwd_peek1 rfl) ?_
    rw [if_neg h3]
  exact mk_ok (by
    steps [h4, fwd_expectIf_none hc (by simp [h1]; decide), fwd_expect hc h1,
      fwd_extract hc.inRange (text_ident hl)]) (List.prefix_refl _) (by exact ⟨[], rfl, .nil⟩)

theorem c_paren {w ts} (ih : Complete src m rec .parenthesized w ts) :
    Complete src m rec .primary w ts := by
  obtain ⟨⟨t, rfl, ih⟩, x, w', rfl, hx⟩ := ih
  refine ⟨⟨t, rfl, ?_⟩, _, _, rfl, by simp at hx; rw [hx]; decide⟩
  intro used rest he hc hn nodes
  obtain ⟨n, ns, hrun, hp, hr⟩ := ih used rest he hc trivial nodes
  obtain ⟨tk, u, rfl, hl, he⟩ := split_cons he
  have h1 : tk.type = .left_parenthesis := by
    have := congrArg Prod.fst hl
    simp at hx
    exact this.trans hx
  norm
  refine ⟨n, ns, ?_, hp, hr⟩
  steps [fwd_peek_none hc (NextNot.cons _ h1 (by decide)),
    fwd_expectIf_none hc (by simp [h1]; decide),
    fwd_expect_none hc (NextNot.cons _ h1 (by decide)), fwd_handle hrun]

include hfix in
theorem c_parenthesized {w ts} (ih : Complete src m rec .expression w ts) :
    Complete src m rec .parenthesized (tok .left_parenthesis :: w ++ [tok .right_parenthesis])
      ts := by
  obtain ⟨⟨t, rfl, ih⟩, _⟩ := ih
  refine ⟨⟨t, rfl, ?_⟩, _, _, rfl, by simp [tok]⟩
  intro used rest he hc _ nodes
  norm
  obtain ⟨lp, u, rfl, hlp, he⟩ := split_cons he
  obtain ⟨u, u', rfl, hu, he⟩ := split_append he
  obtain ⟨rp, u'', rfl, hrp, he⟩ := split_cons he
  obtain rfl := split_nil he
  norm
  obtain ⟨n, ns, hrun, hp, hn⟩ := ih u (rp :: rest) hu hc.tail
    (.cons _ (type_tok hrp) (by decide)) nodes
  refine ⟨n, ns, ?_, hp, hn⟩
  steps [fwd_require hc (type_tok hlp),
    fwd_bind ((hfix .expression _ hc.tail.len).trans hrun),
    fwd_require hc.tail.right (type_tok hrp)]

/-! ### Calls -/

theorem c_noArguments : Complete src m rec .optArguments [] [] := by
  intro used rest acc he hc _ nodes
  obtain ⟨rp, u, rfl, hrp, he⟩ := split_cons he
  obtain rfl := split_nil he
  norm
  refine ⟨[], nodes, ?_, List.prefix_refl _, .nil⟩
  rw [List.append_nil]
  steps [fwd_expect hc (type_tok hrp)]

theorem c_argument_step {used rest : List Token} {demand : Bool} {acc : List Handle}
    {nodes : List Node} {b : List Handle} {s' : State} {w : List Spec.Terminal}
    (hw : StartsIn expressionStarts w) {u : List Token} (he : u.map (lexeme src) = w)
    (hc : Ctx src m (u ++ used ++ rest))
    (h : ((rec .expression).bind fun arg => (push arg).bind fun h => (expect .comma).bind
      fun comma => rec (.arguments comma.isSome (acc ++ [h]))).run src ⟨u ++ used ++ rest, nodes⟩ =
        .ok b s') :
    (argumentsLoop rec demand acc).run src ⟨u ++ used ++ rest, nodes⟩ = .ok b s' := by
  cases demand with
  | true => exact h
  | false =>
    obtain ⟨x, w', rfl, hx⟩ := hw
    obtain ⟨tk, u, rfl, hl, he⟩ := split_cons he
    have h1 : tk.type = x.1 := congrArg Prod.fst hl
    refine Eq.trans (fwd_expect_none (t := .right_parenthesis) hc ?_) h
    exact NextNot.cons _ h1 (fun e => by rw [e] at hx; revert hx; decide)

include hfix in
theorem c_argument {w ts} (ih : Complete src m rec .expression w ts) :
    Complete src m rec .arguments w ts := by
  obtain ⟨⟨t, rfl, ih⟩, hst⟩ := ih
  intro demand used rest acc he hc _ nodes
  obtain ⟨u, u', rfl, hu, he⟩ := split_append he
  obtain ⟨rp, u'', rfl, hrp, he⟩ := split_cons he
  obtain rfl := split_nil he
  have hc' := hc
  norm
  obtain ⟨n, ns, hrun, hp, hn⟩ := ih u (rp :: rest) hu hc
    (.cons _ (type_tok hrp) (by decide)) nodes
  refine ⟨[some ns.length], ns ++ [n], ?_, by ext, hn.pushed (by ext)⟩
  have := c_argument_step (demand := demand) (acc := acc) (nodes := nodes)
    (used := [rp]) (rest := rest) (b := acc ++ [some ns.length])
    (s' := ⟨rest, ns ++ [n]⟩) hst hu (by simpa using hc) (by
      norm
      steps [fwd_bind ((hfix .expression _ hc.len).trans hrun), fwd_push,
        fwd_expect_none hc.right (NextNot.cons _ (type_tok hrp) (by decide)),
        hfix (.arguments false _) _ hc.right.len, fwd_expect hc.right (type_tok hrp)])
  simpa using this

include hfix in
theorem c_argumentsComma {w ts w' ts'} (ih : Complete src m rec .expression w ts)
    (ih' : Complete src m rec .arguments w' ts') :
    Complete src m rec .arguments (w ++ tok .comma :: w') (ts ++ ts') := by
  obtain ⟨⟨t, rfl, ih⟩, hst⟩ := ih
  intro demand used rest acc he hc _ nodes
  norm
  obtain ⟨u, u', rfl, hu, he⟩ := split_append he
  obtain ⟨c, u', rfl, hcm, he⟩ := split_cons he
  norm
  obtain ⟨n, ns, hrun, hp, hn⟩ := ih u (c :: (u' ++ rest)) hu hc
    (.cons _ (type_tok hcm) (by decide)) nodes
  obtain ⟨hs, ns', hrun', hp', hk⟩ := ih' true u' rest (acc ++ [some ns.length]) he
    hc.right.tail trivial (ns ++ [n])
  refine ⟨[some ns.length] ++ hs, ns', ?_, by ext, Kids.append (hn.pushed hp') hk⟩
  have := c_argument_step (demand := demand) (acc := acc) (nodes := nodes)
    (used := c :: u') (rest := rest) (b := acc ++ [some ns.length] ++ hs)
    (s' := ⟨rest, ns'⟩) hst hu (by simpa using hc) (by
      rw [show u ++ (c :: u') ++ rest = u ++ c :: (u' ++ rest) by simp]
      steps [fwd_bind ((hfix .expression _ hc.len).trans hrun), fwd_push,
        fwd_expect hc.right (type_tok hcm),
        (hfix (.arguments true _) _ hc.right.tail.len).trans hrun'])
  simpa using this

theorem c_someArguments {w ts} (ih : Complete src m rec .arguments w ts) :
    Complete src m rec .optArguments w ts := ih false

include hfix in
theorem c_call {x w args wa a} (ih : Complete src m rec .optArguments w args)
    (ih' : Complete src m rec .optAnnotations wa a) :
    Complete src m rec .call (ident x :: tok .left_parenthesis :: w ++ tok .right_parenthesis :: wa)
      [some (.node (.function_call_expression x false) (args ++ a))] := by
  obtain ⟨A, rfl, ih'⟩ := ih'
  refine ⟨⟨_, rfl, ?_⟩, x, _, rfl⟩
  intro used rest he hc hn nodes
  norm
  obtain ⟨id, u, rfl, hid, he⟩ := split_cons he
  obtain ⟨lp, u, rfl, hlp, he⟩ := split_cons he
  rw [show w ++ tok .right_parenthesis :: wa = (w ++ [tok .right_parenthesis]) ++ wa by simp] at he
  obtain ⟨u, u', rfl, hu, he⟩ := split_append he
  norm
  obtain ⟨hs, ns, hrun, hp, hk⟩ := ih u (u' ++ rest) [] hu hc.tail.tail trivial nodes
  have hrun := (hfix (.arguments false []) _ hc.tail.tail.len).trans hrun
  simp only [List.nil_append] at hrun
  have hc2 := hc.tail.tail.right
  rcases ih' with ⟨rfl, rfl⟩ | ⟨t, w', rfl, rfl, ih'⟩
  · obtain rfl := split_nil he
    norm
    exact mk_ok (by
      steps [fwd_require hc (type_ident hid), fwd_require hc.tail (type_tok hlp), fwd_bind hrun,
        fwd_bind (a := none) (s' := ⟨rest, ns⟩) (by steps [fwd_peek_none hc2 hn.1]),
        fwd_extract hc.inRange (text_ident hid)]) hp
      (by exact ⟨args ++ [none], rfl, Kids.append hk Kids.null⟩)
  · obtain ⟨n, ns', hrun', hp', hn'⟩ := ih' u' rest he hc2 hn ns
    obtain ⟨at', u', rfl, hat, he⟩ := split_cons he
    norm
    have hp2 : ns <+: ns' ++ [n] := by ext
    exact mk_ok (ns := ns' ++ [n]) (by
      steps [fwd_require hc (type_ident hid), fwd_require hc.tail (type_tok hlp), fwd_bind hrun,
        fwd_bind (a := some n) (s' := ⟨rest, ns'⟩) (by
          steps [fwd_peek hc2 (type_tok hat), fwd_bind hrun']),
        fwd_extract hc.inRange (text_ident hid), fwd_push]) (hp.trans hp2)
      (by exact ⟨args ++ [some t], rfl, Kids.append (hk.mono hp2) (hn'.pushed (by ext))⟩)

theorem c_callPostfix {w ts} (ih : Complete src m rec .call w ts) :
    Complete src m rec .postfix w ts := by
  obtain ⟨⟨t, rfl, ih⟩, x, w', rfl⟩ := ih
  refine ⟨⟨t, rfl, ?_⟩, _, _, rfl, by show TokenType.identifier ∈ _; decide⟩
  intro used rest he hc hn nodes
  obtain ⟨n, ns, hrun, hp, hr⟩ := ih used rest he hc hn nodes
  obtain ⟨id, u, rfl, hid, he⟩ := split_cons he
  obtain ⟨lp, u, rfl, hlp, he⟩ := split_cons he
  norm
  refine ⟨n, ns, ?_, hp, hr⟩
  have h3 : (peekToken1 (id :: lp :: (u ++ rest))).map (·.type) = some .left_parenthesis := by
    simp only [peekToken1, hc.skip, peekToken, hc.tail.skip, List.head?_cons, Option.map_some,
      type_tok hlp]
  refine Eq.trans (fwd_peek hc (type_ident hid)) ?_
  refine Eq.trans (fwd_peek1 rfl) ?_
  rw [if_pos h3]
  exact hrun

theorem c_unary {op w ts} (hop : op ∈ Spec.unaryOperators) (ih : Complete src m rec .postfix w ts) :
    Complete src m rec .prefix (tok op :: w) [some (.node (.prefix_expression op) ts)] := by
  obtain ⟨⟨t, rfl, ih⟩, _⟩ := ih
  refine ⟨⟨_, rfl, ?_⟩, _, _, rfl, by show op ∈ _; revert hop; cases op <;> decide⟩
  intro used rest he hc hn nodes
  obtain ⟨o, u, rfl, ho, he⟩ := split_cons he
  norm
  obtain ⟨n, ns, hrun, hp, hr⟩ := ih u rest he hc.tail hn nodes
  have h1 := type_tok ho
  exact mk_ok (by
    steps [fwd_expectIf hc (by rw [h1]; revert hop; cases op <;> decide), fwd_bind hrun, fwd_push,
      fwd_assert rfl]) (by ext) (by exact ⟨[some t], by rw [h1], hr.pushed (by ext)⟩)

theorem c_prefixPostfix {w ts} (ih : Complete src m rec .postfix w ts) :
    Complete src m rec .prefix w ts := by
  obtain ⟨⟨t, rfl, ih⟩, x, w', rfl, hx⟩ := ih
  refine ⟨⟨t, rfl, ?_⟩, _, _, rfl, (List.mem_filter.mp hx).1⟩
  intro used rest he hc hn nodes
  obtain ⟨n, ns, hrun, hp, hr⟩ := ih used rest he hc hn nodes
  obtain ⟨tk, u, rfl, hl, he⟩ := split_cons he
  refine ⟨n, ns, ?_, hp, hr⟩
  have h1 : tk.type = x.1 := congrArg Prod.fst hl
  have h2 := (List.mem_filter.mp hx).2
  refine Eq.trans (fwd_expectIf_none hc ?_) hrun
  intro y hy
  simp only [List.cons_append, List.head?_cons, Option.mem_some_iff] at hy
  subst hy
  rw [h1]
  simpa using h2

/-! ### Binary expressions -/

/-- An operand that ends where `as` does not follow. -/
theorem cexpr_of_prefix {w ts} {p : Prog Node} {N : List Token → Prop}
    (ih : Complete src m rec .prefix w ts) (hN : ∀ rest, N rest → AfterOperand rest)
    (hp : ∀ used rest nodes n ns, used.map (lexeme src) = w → Ctx src m (used ++ rest) → N rest →
      (matchPrefix rec).run src ⟨used ++ rest, nodes⟩ = .ok n ⟨rest, ns⟩ →
      p.run src ⟨used ++ rest, nodes⟩ = .ok n ⟨rest, ns⟩) : CExpr src m rec p N w ts := by
  obtain ⟨⟨t, rfl, ih⟩, _⟩ := ih
  refine ⟨⟨t, rfl, ?_⟩, ?_⟩
  · intro used rest he hc hn nodes
    obtain ⟨n, ns, hrun, h1, h2⟩ := ih used rest he hc (hN _ hn) nodes
    exact ⟨n, ns, hp _ _ _ _ _ he hc hn hrun, h1, h2⟩
  · intro used rest he hc hn has nodes
    obtain ⟨n, ns, hrun, h1, h2⟩ := ih used rest he hc (hN _ hn) nodes
    exact ⟨n, rest, ns, hrun, hc.right, has⟩

/-- Two operands. -/
theorem cexpr_of_operands {w l w' r op} {P : Prog Node} {N N1 N2 : List Token → Prop}
    {p : TokenType → Bool} {none' : Node → Prog Node}
    (hl : CExpr src m rec P N1 w l) (hr : CNode src m P N2 w' r) (hop : p op = true)
    (hN1 : ∀ t rest, t.type = op → N1 (t :: rest)) (hN2 : ∀ rest, N rest → N2 rest)
    (has : op ≠ .keyword_as) {q : Prog Node}
    (hq : ∀ used rest nodes n s', used.map (lexeme src) = w ++ tok op :: w' →
      Ctx src m (used ++ rest) → N rest →
      (P.bind fun left => (expectIf p).bind fun o => match o with
        | none => none' left
        | some op => P.bind fun right => (push left).bind fun l => (push right).bind fun r =>
          mkBinary op.span l r op.type).run src ⟨used ++ rest, nodes⟩ = .ok n s' →
      q.run src ⟨used ++ rest, nodes⟩ = .ok n s') :
    CExpr src m rec q N (w ++ tok op :: w') [some (.node (.binary_expression op) (l ++ r))] := by
  obtain ⟨⟨t, rfl, hl⟩, hfirst⟩ := hl
  obtain ⟨t', rfl, hr⟩ := hr
  refine ⟨⟨_, rfl, ?_⟩, ?_⟩
  · intro used rest he hc hn nodes
    have he' := he
    obtain ⟨u, u', rfl, hu, he⟩ := split_append he
    obtain ⟨o, u', rfl, ho, he⟩ := split_cons he
    have hc' := hc
    norm
    have h1 := type_tok ho
    obtain ⟨n, ns, hrun, hp, hn1⟩ := hl u (o :: (u' ++ rest)) hu hc (hN1 _ _ h1) nodes
    obtain ⟨n', ns', hrun', hp', hn2⟩ := hr u' rest he hc.right.tail (hN2 _ hn) ns
    have key := hq (u ++ o :: u') rest nodes ⟨o.span, .binary_expression o.type,
      [some ns'.length, some (ns' ++ [n]).length]⟩ ⟨rest, ns' ++ [n] ++ [n']⟩ he'
      (by simpa using hc) hn (by
        rw [show (u ++ o :: u') ++ rest = u ++ o :: (u' ++ rest) by simp]
        steps [fwd_bind hrun, fwd_expectIf hc.right (by rw [h1]; exact hop), fwd_bind hrun',
          fwd_push, fwd_push, fwd_assert rfl, fwd_assert rfl])
    rw [show (u ++ o :: u') ++ rest = u ++ o :: (u' ++ rest) by simp] at key
    refine ⟨_, _, key, by ext, [some t, some t'], by rw [h1], ?_⟩
    exact Kids.append ((hn1.mono (by ext)).pushed (by ext)) ((hn2.mono (by ext)).pushed (by ext))
  · intro used rest he hc hn has' nodes
    obtain ⟨u, u', rfl, hu, he⟩ := split_append he
    obtain ⟨o, u', rfl, ho, he⟩ := split_cons he
    norm
    exact hfirst u (o :: (u' ++ rest)) hu hc (hN1 _ _ (type_tok ho))
      (NextNot.cons _ (type_tok ho) has) nodes

theorem StartsIn.append {L : List TokenType} {w w' : List Spec.Terminal} (h : StartsIn L w) :
    StartsIn L (w ++ w') := by
  obtain ⟨x, w1, rfl, hx⟩ := h
  exact ⟨x, w1 ++ w', rfl, hx⟩

/-- An operand, followed by an operator. -/
theorem cexpr_operand {w ts} (ih : Complete src m rec .prefix w ts) :
    CExpr src m rec (matchPrefix rec) AfterOperand w ts :=
  cexpr_of_prefix ih (fun _ h => h) (fun _ _ _ _ _ _ _ _ h => h)

theorem c_arithmetic {op w l w' r} (hop : op ∈ Spec.arithmeticOperators)
    (ih : Complete src m rec .prefix w l) (ih' : Complete src m rec .prefix w' r) :
    Complete src m rec .arithmetic (w ++ tok op :: w')
      [some (.node (.binary_expression op) (l ++ r))] := by
  refine ⟨cexpr_of_operands (N2 := AfterOperand) (p := TokenType.isArithmeticOperator)
    (none' := .ret) (cexpr_operand ih) ih'.1 (by revert hop; cases op <;> decide)
    (fun t rest ht => AfterOperand.cons _ ht (by revert hop; cases op <;> decide))
    (fun rest h => AfterOperand.of h (by decide)) (by revert hop; cases op <;> decide)
    (fun _ _ _ _ _ _ _ _ h => h), ih.2.append⟩

theorem c_arithmeticPrefix {w ts} (ih : Complete src m rec .prefix w ts) :
    Complete src m rec .arithmetic w ts := by
  refine ⟨cexpr_of_prefix ih (fun rest h => AfterOperand.of h (by decide)) ?_, ih.2⟩
  intro used rest nodes n ns he hc hn hrun
  steps [fwd_bind hrun, fwd_expectIf_none hc.right (by
    obtain ⟨t, r, rfl, ht⟩ := hn
    simp only [List.head?_cons, Option.mem_some_iff, forall_eq']
    revert ht; cases t.type <;> decide)]

theorem c_comparison {op w l w' r} (hop : op ∈ Spec.comparisonOperators)
    (hd : Derives false .arithmetic w l)
    (ih : Complete src m rec .arithmetic w l) (ih' : Complete src m rec .arithmetic w' r) :
    Complete src m rec .comparison (w ++ tok op :: w')
      [some (.node (.binary_expression op) (l ++ r))] := by
  refine ⟨cexpr_of_operands (N2 := NextIn afterArithmetic) (p := TokenType.isComparisonOperator)
    (none' := fun _ => .fail ⟨.comparison_expression, comparisonExpected⟩) ih.1 ih'.1.1
    (by revert hop; cases op <;> decide)
    (fun t rest ht => NextIn.cons _ ht (by revert hop; cases op <;> decide))
    (fun rest h => h.mono (by decide)) (by revert hop; cases op <;> decide)
    (fun _ _ _ _ _ _ _ _ h => h), ih.2.append, ?_⟩
  intro hlen r
  simp only [List.length_append, List.length_cons] at hlen
  rw [types, List.map_append, List.append_assoc, commitT_operand hd rfl (by omega), List.map_cons,
    List.cons_append, commitT_cons]
  have h1 : isDelim op = false ∧ op ≠ .left_parenthesis ∧ op ≠ .right_parenthesis ∧
      op ≠ .keyword_if ∧ op.isComparisonOperator = true := by revert hop; cases op <;> decide
  simp [h1]

include hm in
theorem c_binaryComparison {w ts} (ih : Complete src m rec .comparison w ts) :
    Complete src m rec .binary w ts := by
  obtain ⟨⟨⟨t, rfl, ih⟩, hfirst⟩, hst, hcm⟩ := ih
  refine ⟨⟨⟨t, rfl, ?_⟩, hfirst⟩, hst⟩
  intro used rest he hc hn nodes
  obtain ⟨n, ns, hrun, hp, hr⟩ := ih used rest he hc hn nodes
  refine ⟨n, ns, ?_, hp, hr⟩
  have : shouldCommit 0 (used ++ rest) = true := by
    rw [shouldCommit_eq, List.map_append, ← types_map src used, he]
    refine hcm ?_ _
    rw [← he, List.length_map]
    have := hc.len
    simp at this
    omega
  exact Eq.trans (fwd_commit this) hrun

include hm in
theorem no_commit {w ts used rest} (hd : Derives false .prefix w ts)
    (he : used.map (lexeme src) = w) (hc : Ctx src m (used ++ rest)) :
    shouldCommit 0 (used ++ rest) = shouldCommit 0 rest := by
  rw [shouldCommit_eq, shouldCommit_eq, List.map_append, ← types_map src used, he]
  refine commitT_operand hd rfl ?_ _
  rw [← he, List.length_map]
  have := hc.len
  simp at this
  omega

include hm in
theorem c_binary {op w l w' r} (hop : op ∈ Spec.binaryOperators)
    (hd : Derives false .prefix w l) (hd' : Derives false .prefix w' r)
    (ih : Complete src m rec .prefix w l) (ih' : Complete src m rec .prefix w' r) :
    Complete src m rec .binary (w ++ tok op :: w')
      [some (.node (.binary_expression op) (l ++ r))] := by
  by_cases hcmp : op ∈ Spec.comparisonOperators
  · exact c_binaryComparison hm (c_comparison hcmp (.arithmeticPrefix hd) (c_arithmeticPrefix ih)
      (c_arithmeticPrefix ih'))
  refine ⟨cexpr_of_operands (N2 := AfterOperand) (p := TokenType.isBinaryOperator)
    (none' := .ret) (cexpr_operand ih) ih'.1 (by revert hop; cases op <;> decide)
    (fun t rest ht => AfterOperand.cons _ ht (by revert hop; cases op <;> decide))
    (fun rest h => AfterOperand.of h (by decide)) (by revert hop; cases op <;> decide) ?_,
    ih.2.append⟩
  intro used rest nodes n s' he hc hn hrun
  have : shouldCommit 0 (used ++ rest) = false := by
    obtain ⟨u, u', rfl, hu, he⟩ := split_append he
    obtain ⟨o, u', rfl, ho, he⟩ := split_cons he
    norm
    have h1 := type_tok ho
    rw [no_commit hm hd hu hc, shouldCommit_eq, List.map_cons, h1, commitT_skip
      (by revert hop; cases op <;> decide) (by revert hop; cases op <;> decide)
      (by revert hop; cases op <;> decide) (by revert hop; cases op <;> decide)
      (by revert hop hcmp; cases op <;> decide), ← shouldCommit_eq, no_commit hm hd' he hc.right.tail]
    exact commit_after hc.right.tail.right hn
  exact Eq.trans (fwd_commit this) hrun

include hm in
theorem c_binaryPrefix {w ts} (hd : Derives false .prefix w ts)
    (ih : Complete src m rec .prefix w ts) : Complete src m rec .binary w ts := by
  refine ⟨cexpr_of_prefix ih (fun rest h => AfterOperand.of h (by decide)) ?_, ih.2⟩
  intro used rest nodes n ns he hc hn hrun
  have : shouldCommit 0 (used ++ rest) = false := by
    rw [no_commit hm hd he hc]
    exact commit_after hc.right hn
  steps [fwd_commit this, fwd_bind hrun, fwd_expectIf_none hc.right (by
    obtain ⟨t, r, rfl, ht⟩ := hn
    simp only [List.head?_cons, Option.mem_some_iff, forall_eq']
    revert ht; cases t.type <;> decide)]

include hfix in
theorem c_ifExpression {w l w' c w'' r} (ih : Complete src m rec .binary w l)
    (ih' : Complete src m rec .binary w' c) (ih'' : Complete src m rec .ifExpression w'' r) :
    Complete src m rec .ifExpression (w ++ tok .keyword_if :: w' ++ tok .keyword_else :: w'')
      [some (.node .if_expression (l ++ c ++ r))] := by
  obtain ⟨⟨⟨t, rfl, ih⟩, hfirst⟩, hst⟩ := ih
  obtain ⟨⟨⟨t', rfl, ih'⟩, _⟩, _⟩ := ih'
  obtain ⟨⟨⟨t'', rfl, ih''⟩, _⟩, _⟩ := ih''
  refine ⟨⟨⟨_, rfl, ?_⟩, ?_⟩, hst.append.append⟩
  · intro used rest he hc hn nodes
    norm
    obtain ⟨u, u', rfl, hu, he⟩ := split_append he
    obtain ⟨i, u', rfl, hi, he⟩ := split_cons he
    obtain ⟨u', u'', rfl, hu', he⟩ := split_append he
    obtain ⟨e, u'', rfl, hel, he⟩ := split_cons he
    norm
    obtain ⟨n, ns, hrun, hp, hr⟩ := ih u _ hu hc (.cons _ (type_tok hi) (by decide)) nodes
    obtain ⟨n', ns', hrun', hp', hr'⟩ := ih' u' _ hu' hc.right.tail
      (.cons _ (type_tok hel) (by decide)) ns
    obtain ⟨n'', ns'', hrun'', hp'', hr''⟩ := ih'' u'' rest he hc.right.tail.right.tail hn ns'
    exact mk_ok (ns := ns'' ++ [n] ++ [n'] ++ [n'']) (by
      steps [fwd_bind hrun, fwd_expect hc.right (type_tok hi), fwd_bind hrun',
        fwd_require hc.right.tail.right (type_tok hel),
        fwd_bind ((hfix .ifExpression _ hc.right.tail.right.tail.len).trans hrun''),
        fwd_push, fwd_push, fwd_push, fwd_assert rfl, fwd_assert rfl, fwd_assert rfl]) (by ext) (by
      exact ⟨[some t, some t', some t''], rfl,
        Kids.append (Kids.append ((hr.mono (by ext)).pushed (by ext))
          ((hr'.mono (by ext)).pushed (by ext))) ((hr''.mono (by ext)).pushed (by ext))⟩)
  · intro used rest he hc hn has nodes
    norm
    obtain ⟨u, u', rfl, hu, he⟩ := split_append he
    obtain ⟨i, u', rfl, hi, he⟩ := split_cons he
    norm
    exact hfirst u _ hu hc (.cons _ (type_tok hi) (by decide))
      (NextNot.cons _ (type_tok hi) (by decide)) nodes

theorem c_ifBinary {w ts} (ih : Complete src m rec .binary w ts) :
    Complete src m rec .ifExpression w ts := by
  obtain ⟨⟨⟨t, rfl, ih⟩, hfirst⟩, hst⟩ := ih
  refine ⟨⟨⟨t, rfl, ?_⟩, fun used rest he hc hn => hfirst used rest he hc (hn.mono (by decide))⟩,
    hst⟩
  intro used rest he hc hn nodes
  obtain ⟨n, ns, hrun, hp, hr⟩ := ih used rest he hc (hn.mono (by decide)) nodes
  refine ⟨n, ns, ?_, hp, hr⟩
  steps [fwd_bind hrun, fwd_expect_none hc.right (hn.not (by decide))]

/-! ### Types and conversions -/

theorem c_typeSimple {k : TokenType} {ty : TypeType}
    (h : (k, ty) ∈ [(TokenType.keyword_void, TypeType.Void), (.keyword_bool, .Bool),
      (.keyword_int, .Int)]) :
    Complete src m rec .type [tok k] [some (.node (.type ty) [none])] := by
  refine ⟨_, rfl, ?_⟩
  intro used rest he hc _ nodes
  obtain ⟨t, u, rfl, ht, he⟩ := split_cons he
  obtain rfl := split_nil he
  norm
  have h1 := type_tok ht
  simp only [List.mem_cons, Prod.mk.injEq, List.not_mem_nil, or_false] at h
  rcases h with ⟨rfl, rfl⟩ | ⟨rfl, rfl⟩ | ⟨rfl, rfl⟩
  · exact mk_ok (by
      steps [fwd_expect hc h1, fwd_assert rfl])
      (List.prefix_refl _) (by exact ⟨[none], rfl, Kids.null⟩)
  · exact mk_ok (by
      steps [fwd_expect_none hc (NextNot.cons _ h1 (by decide)), fwd_expect hc h1, fwd_assert rfl])
      (List.prefix_refl _) (by exact ⟨[none], rfl, Kids.null⟩)
  · exact mk_ok (by
      steps [fwd_expect_none hc (NextNot.cons _ h1 (by decide)),
      fwd_expect_none hc (NextNot.cons _ h1 (by decide)), fwd_expect hc h1, fwd_assert rfl])
      (List.prefix_refl _) (by exact ⟨[none], rfl, Kids.null⟩)

theorem c_typeUint {w e} (ih : Complete src m rec .parenthesized w e) :
    Complete src m rec .type (tok .keyword_uint :: w) [some (.node (.type .Uint) e)] := by
  obtain ⟨⟨t, rfl, ih⟩, _⟩ := ih
  refine ⟨_, rfl, ?_⟩
  intro used rest he hc _ nodes
  obtain ⟨k, u, rfl, hk, he⟩ := split_cons he
  norm
  have h1 := type_tok hk
  obtain ⟨n, ns, hrun, hp, hr⟩ := ih u rest he hc.tail trivial nodes
  exact mk_ok (ns := ns ++ [n]) (by
    steps [fwd_expect_none hc (NextNot.cons _ h1 (by decide)),
      fwd_expect_none hc (NextNot.cons _ h1 (by decide)),
      fwd_expect_none hc (NextNot.cons _ h1 (by decide)), fwd_expect hc h1, fwd_bind hrun, fwd_push,
      fwd_assert rfl]) (by ext) (by exact ⟨[some t], rfl, hr.pushed (by ext)⟩)

theorem c_conversion {w e w' t} (ih : Complete src m rec .prefix w e)
    (ih' : Complete src m rec .type w' t) :
    Complete src m rec .conversion (w ++ tok .keyword_as :: w')
      [some (.node .conversion_expression (e ++ t))] := by
  obtain ⟨⟨t, rfl, ih⟩, hst⟩ := ih
  obtain ⟨t', rfl, ih'⟩ := ih'
  refine ⟨⟨_, rfl, ?_⟩, hst.append⟩
  intro used rest he hc _ nodes
  obtain ⟨u, u', rfl, hu, he⟩ := split_append he
  obtain ⟨k, u', rfl, hk, he⟩ := split_cons he
  norm
  have h1 := type_tok hk
  obtain ⟨n, ns, hrun, hp, hr⟩ := ih u _ hu hc (AfterOperand.cons _ h1 (by decide)) nodes
  obtain ⟨n', ns', hrun', hp', hr'⟩ := ih' u' rest he hc.right.tail trivial ns
  exact mk_ok (ns := ns' ++ [n] ++ [n']) (by
    steps [fwd_attempt (b := true) (s' := ⟨k :: (u' ++ rest), ns⟩) (by
      steps [fwd_bind hrun, fwd_peek hc.right h1]), fwd_bind hrun, fwd_require hc.right h1,
      fwd_bind hrun', fwd_push, fwd_push, fwd_assert rfl, fwd_assert rfl]) (by ext) (by
    exact ⟨[some t, some t'], rfl, Kids.append ((hr.mono (by ext)).pushed (by ext))
      ((hr'.mono (by ext)).pushed (by ext))⟩)

theorem c_expressionConversion {w ts} (ih : Complete src m rec .conversion w ts) :
    Complete src m rec .expression w ts := by
  obtain ⟨⟨t, rfl, ih⟩, hst⟩ := ih
  exact ⟨⟨t, rfl, fun used rest he hc _ => ih used rest he hc trivial⟩, hst⟩

include hfix in
theorem c_expressionIf {w ts} (ih : Complete src m rec .ifExpression w ts) :
    Complete src m rec .expression w ts := by
  obtain ⟨⟨⟨t, rfl, ih⟩, hfirst⟩, hst⟩ := ih
  refine ⟨⟨t, rfl, ?_⟩, hst⟩
  intro used rest he hc hn nodes
  obtain ⟨n, ns, hrun, hp, hr⟩ := ih used rest he hc hn nodes
  obtain ⟨n', rest', ns', hrun', hc', has⟩ := hfirst used rest he hc hn (hn.not (by decide)) nodes
  refine ⟨n, ns, ?_, hp, hr⟩
  steps [fwd_attempt (b := false) (s' := ⟨rest', ns'⟩) (by
    steps [fwd_bind hrun', fwd_peek_none hc' has]), (hfix .ifExpression _ hc.len).trans hrun]

theorem c_noType : Complete src m rec .optType [] [none] := by
  refine ⟨⟨none, rfl, ?_⟩, .inl rfl⟩
  intro used rest he hc hn nodes
  obtain rfl := split_nil he
  norm
  refine ⟨none, nodes, ?_, List.prefix_refl _, Kids.null, rfl⟩
  steps [fwd_expect_none hc hn]

theorem c_someType {w t} (ih : Complete src m rec .type w t) :
    Complete src m rec .optType (tok .colon :: w) t := by
  obtain ⟨t, rfl, ih⟩ := ih
  refine ⟨⟨some t, rfl, ?_⟩, .inr ⟨_, rfl⟩⟩
  intro used rest he hc _ nodes
  obtain ⟨k, u, rfl, hk, he⟩ := split_cons he
  norm
  obtain ⟨n, ns, hrun, hp, hr⟩ := ih u rest he hc.tail trivial nodes
  refine ⟨some ns.length, ns ++ [n], ?_, by ext, hr.pushed (by ext), rfl⟩
  steps [fwd_expect hc (type_tok hk), fwd_bind hrun]

end

end Bms.Parse
