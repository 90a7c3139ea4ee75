import Verif.Props.Parse
import Verif.Props.Tokens

/-!
# Properties C42, C43 and C51: examples, and programs for which they do not hold
-/

namespace Bms

open Spec Parse

/-- The tokens of a source text. -/
def tokensOf (src : List Char) : List Token :=
  match tokenize src with
  | some (ts, .ok ()) => ts
  | _ => []

/-- The result of parsing a source text. -/
def parseText (src : List Char) : ParseResult := parse src (tokensOf src)

/-- **C51 for texts.** A text that is tokenized to a program of the grammar without obstructed
comparisons is accepted, and the nodes form its tree. -/
theorem C51_text_partial {src : List Char} {ts : List Token} {t : Tree}
    (h : tokenize src = some (ts, .ok ())) (hd : Derives false .program (lexemes src ts) [some t])
    (hu : Unobstructed ts) (hl : ts.length < 2 ^ 64) :
    ∃ nodes root, parse src ts = .ok nodes root ∧ Reads nodes root t := by
  refine C51_complete_partial hd (fun k hk => ?_) hu hl
  have := (C19_tokens_ordered h).1 k hk
  omega

/-! ## What the grammar does not derive -/

/-- Operands count positively, what has to separate them negatively. -/
def weight : TokenType → Int
  | .identifier | .binary_literal | .octal_literal | .decimal_literal | .hexadecimal_literal
  | .string_literal | .keyword_true | .keyword_false => 1
  | .comma | .left_parenthesis | .assign | .at_sign | .semicolon | .keyword_if | .keyword_else
  | .keyword_while | .keyword_return | .keyword_requires | .keyword_function | .equals | .not_equals
  | .plus | .minus | .multiplication | .division | .remainder | .less_than | .greater_than
  | .less_or_equal | .greater_or_equal | .shift_left | .shift_right | .bitwise_and | .bitwise_or
  | .bitwise_xor | .logical_and | .logical_or | .keyword_as => -1
  | _ => 0

/-- The weight of a sentence. -/
def weights (w : List Terminal) : Int := (w.map fun x => weight x.1).sum

/-- The weight of a sentence is at most this. -/
def maxWeight : Sym → Int
  | .optAnnotations | .annotations | .annotation | .type | .optType | .initializer | .optRequires
  | .program | .declarations | .declaration | .const_ | .let_ | .function | .static_assert
  | .statements | .statement | .if_ | .optElse | .block | .parenthesized => 0
  | _ => 1

@[simp] theorem weights_nil : weights [] = 0 := rfl
@[simp] theorem weights_cons (x : Terminal) (w : List Terminal) :
    weights (x :: w) = weight x.1 + weights w := by simp [weights]
@[simp] theorem weights_append (w w' : List Terminal) :
    weights (w ++ w') = weights w + weights w' := by simp [weights]

theorem weight_integer {t : TokenType} (h : t ∈ integerLiterals) : weight t = 1 := by
  revert h; cases t <;> decide
theorem weight_boolean {t : TokenType} (h : t ∈ booleanLiterals) : weight t = 1 := by
  revert h; cases t <;> decide
theorem weight_unary {t : TokenType} (h : t ∈ unaryOperators) : weight t ≤ 0 := by
  revert h; cases t <;> decide
theorem weight_binary {t : TokenType} (h : t ∈ binaryOperators) : weight t = -1 := by
  revert h; cases t <;> decide

/-- A sentence of the grammar has no more operands than its separators allow. -/
theorem weights_le {sym : Sym} {w : List Terminal} {ts : List (Option Tree)}
    (h : Derives false sym w ts) : weights w ≤ maxWeight sym := by
  induction h
  case integer h => simp [weight_integer h, maxWeight]
  case boolean h => simp [weight_boolean h, maxWeight]
  case argumentValue h =>
    rcases List.mem_append.mp h with h | h
    · simp [weight_integer h, maxWeight]
    · simp [weight_boolean h, maxWeight]
  case keyValue h =>
    rcases List.mem_append.mp h with h | h
    · have := weight_integer h
      simp [maxWeight, weight] at *
      omega
    · have := weight_boolean h
      simp [maxWeight, weight] at *
      omega
  case unary h _ ih =>
    have := weight_unary h
    simp [maxWeight] at *
    omega
  case arithmetic h _ _ _ _ =>
    have := weight_binary (List.mem_append_left _ (List.mem_append_left _ (List.mem_append_left _ h)))
    simp [maxWeight] at *
    omega
  case comparison h _ _ _ _ =>
    have := weight_binary (List.mem_append_left _ (List.mem_append_left _ (List.mem_append_right _ h)))
    simp [maxWeight] at *
    omega
  case binary h _ _ _ _ =>
    have := weight_binary h
    simp [maxWeight] at *
    omega
  all_goals simp [maxWeight, weight] at *
  all_goals omega

/-- A token of this type is in the sentence. -/
def has (t : TokenType) (w : List Terminal) : Prop := ∃ x ∈ w, x.1 = t

instance (t : TokenType) (w : List Terminal) : Decidable (has t w) := by unfold has; infer_instance

theorem has_nil (t : TokenType) : ¬ has t [] := by simp [has]
theorem has_cons (t : TokenType) (x : Terminal) (w : List Terminal) :
    has t (x :: w) ↔ x.1 = t ∨ has t w := by simp [has]
theorem has_append (t : TokenType) (w w' : List Terminal) :
    has t (w ++ w') ↔ has t w ∨ has t w' := by simp [has, or_and_right, exists_or]

/-- String literals are for annotations only. -/
theorem string_at {sym : Sym} {w : List Terminal} {ts : List (Option Tree)}
    (h : Derives false sym w ts) (hs : sym ≠ .annotationArgument) (hs' : sym ≠ .annotationArguments) :
    has .string_literal w → has .at_sign w := by
  induction h
  case integer h =>
    have := weight_integer h; have : .string_literal ∉ integerLiterals := by decide
    grind [has_cons, has_nil]
  case boolean h =>
    have : .string_literal ∉ booleanLiterals := by decide
    grind [has_cons, has_nil]
  case unary h _ ih =>
    have : .string_literal ∉ unaryOperators := by decide
    grind [has_cons, has_append]
  case arithmetic h _ _ _ _ =>
    have : .string_literal ∉ arithmeticOperators := by decide
    grind [has_cons, has_append]
  case comparison h _ _ _ _ =>
    have : .string_literal ∉ comparisonOperators := by decide
    grind [has_cons, has_append]
  case binary h _ _ _ _ =>
    have : .string_literal ∉ binaryOperators := by decide
    grind [has_cons, has_append]
  case function ih1 ih2 ih3 ih4 ih5 =>
    have ih1 := ih1 (by decide) (by decide)
    have ih2 := ih2 (by decide) (by decide)
    have ih3 := ih3 (by decide) (by decide)
    have ih4 := ih4 (by decide) (by decide)
    have ih5 := ih5 (by decide) (by decide)
    simp only [has_append, has_cons, List.cons_append] at *
    clear hs hs'
    grind
  all_goals grind [has_cons, has_append, has_nil]

/-! ## C42: accepted although not in the grammar -/

/-- Nodes are built from the text. -/
def Accepts (src : List Char) : Prop := ∃ nodes root, parseText src = .ok nodes root

/-- The text is a program of the grammar. -/
def InGrammar (src : List Char) : Prop :=
  ∃ ts t, tokenize src = some (ts, .ok ()) ∧ Derives false .program (lexemes src ts) [some t]

/-- Whether nodes are built. -/
def Parse.ParseResult.isOk : ParseResult → Bool
  | .ok _ _ => true
  | _ => false

theorem accepts_of {src : List Char} (h : (parseText src).isOk = true) : Accepts src := by
  unfold Accepts
  revert h
  cases parseText src <;> simp [ParseResult.isOk]

/-- **C42 does not hold**: the arguments of a call need no commas. `f(a b)` is accepted. -/
theorem C42_violated_comma :
    Accepts "const x = f(a b);".toList ∧ ¬ InGrammar "const x = f(a b);".toList := by
  refine ⟨accepts_of (by decide +kernel), ?_⟩
  rintro ⟨ts, t, h1, h2⟩
  have h := weights_le h2
  have h3 : tokensOf "const x = f(a b);".toList = ts := by rw [tokensOf, h1]
  rw [← h3] at h
  revert h
  decide +kernel

/-- **C42 does not hold**: a string is accepted as an expression, although only arguments of
annotations may be strings. -/
theorem C42_violated_string :
    Accepts "const x = \"a\";".toList ∧ ¬ InGrammar "const x = \"a\";".toList := by
  refine ⟨accepts_of (by decide +kernel), ?_⟩
  rintro ⟨ts, t, h1, h2⟩
  have h := string_at h2 (by decide) (by decide)
  have h3 : tokensOf "const x = \"a\";".toList = ts := by rw [tokensOf, h1]
  rw [← h3] at h
  revert h
  decide +kernel

/-- **C42 does not hold**: `a - b - c` is rejected because operators cannot be chained, but
`f(a - b - c)` is accepted as a call with the two arguments `a - b` and `-c`. -/
theorem C42_violated_chain :
    ¬ Accepts "const x = a - b - c;".toList ∧
    (match parseText "const x = f(a - b - c);".toList with
      | .ok nodes _ => nodes.map fun n => (n.kind, n.children)
      | _ => []) =
      [(.id_expression ['a'], []), (.id_expression ['b'], []),
       (.binary_expression .minus, [some 0, some 1]), (.id_expression ['c'], []),
       (.prefix_expression .minus, [some 3]),
       (.function_call_expression ['f'] false, [some 2, some 4, none]),
       (.const ['x'], [none, none, some 5]), (.program, [some 6])] := by
  refine ⟨?_, by decide +kernel⟩
  rintro ⟨nodes, root, h⟩
  have : (parseText "const x = a - b - c;".toList).isOk = true := by rw [h]; rfl
  revert this
  decide +kernel

/-! ## C51: in the grammar, but not accepted -/

/-- An expression in a constant declaration. -/
theorem derives_const {x : List Char} {w : List Terminal} {e : Option Tree}
    (h : Derives false .expression w [e]) :
    Derives false .program (tok .keyword_const :: ident x :: tok .assign :: w ++ [tok .semicolon])
      [some (.node .program [some (.node (.const x) [none, none, e])])] := by
  have := Derives.program (.declConst (.const (x := x) .noAnnotations .noType (.initializer h)))
    .noDeclarations
  simpa using this

/-- An identifier as an operand. -/
theorem derives_id (x : List Char) :
    Derives false .prefix [ident x] [some (.node (.id_expression x) [])] :=
  .prefixPostfix (.primary .id)

/-- A comparison of two identifiers. -/
theorem derives_equals (x y : List Char) :
    Derives false .binary [ident x, tok .equals, ident y]
      [some (.node (.binary_expression .equals) [some (.node (.id_expression x) []),
        some (.node (.id_expression y) [])])] :=
  .binaryComparison (.comparison (w := [ident x]) (by decide) (.arithmeticPrefix (derives_id x))
    (.arithmeticPrefix (derives_id y)))

theorem derives_of_eq {w w' : List Terminal} {ts : List (Option Tree)}
    (h : Derives false .program w ts) (e : w' = w) : Derives false .program w' ts := e ▸ h

theorem inGrammar_of {src : List Char} {w : List Terminal} {t : Tree}
    (hd : Derives false .program w [some t])
    (h1 : tokenize src = some (tokensOf src, .ok ())) (h2 : lexemes src (tokensOf src) = w) :
    InGrammar src :=
  ⟨tokensOf src, t, h1, h2 ▸ hd⟩

theorem not_accepts_of {src : List Char} (h : (parseText src).isOk = false) : ¬ Accepts src := by
  rintro ⟨nodes, root, h'⟩
  rw [h'] at h
  cases h

/-- **C51 does not hold**: a comparison in the second argument of a call is taken for one in the
first. `f(a, b == c)` is rejected. -/
theorem C51_violated_argument :
    InGrammar "const x = f(a, b == c);".toList ∧ ¬ Accepts "const x = f(a, b == c);".toList := by
  refine ⟨inGrammar_of (derives_const (x := ['x']) (w := ident ['f'] :: tok .left_parenthesis ::
    ([ident ['a']] ++ tok .comma :: [ident ['b'], tok .equals, ident ['c']]) ++
      tok .right_parenthesis :: []) (.expressionIf (.ifBinary (.binaryPrefix (.prefixPostfix
        (.callPostfix (.call (.someArguments (.argumentsComma (.expressionIf (.ifBinary
          (.binaryPrefix (derives_id _)))) (.argument (.expressionIf (.ifBinary
            (derives_equals _ _)))))) .noAnnotations))))))) ?_ ?_,
    not_accepts_of ?_⟩ <;> decide +kernel

/-- **C51 does not hold**: `(a) && (b == c)` is rejected. -/
theorem C51_violated_parentheses :
    InGrammar "const x = (a) && (b == c);".toList ∧
      ¬ Accepts "const x = (a) && (b == c);".toList := by
  refine ⟨inGrammar_of (derives_const (x := ['x']) (w := (tok .left_parenthesis :: [ident ['a']] ++
      [tok .right_parenthesis]) ++ tok .logical_and :: (tok .left_parenthesis ::
      [ident ['b'], tok .equals, ident ['c']] ++ [tok .right_parenthesis]))
    (.expressionIf (.ifBinary (.binary (by decide)
      (.prefixPostfix (.primary (.paren (.parenthesized (.expressionIf (.ifBinary (.binaryPrefix
        (derives_id _))))))))
      (.prefixPostfix (.primary (.paren (.parenthesized (.expressionIf (.ifBinary
        (derives_equals _ _))))))))))) ?_ ?_, not_accepts_of ?_⟩ <;> decide +kernel

/-- **C51 does not hold**: `a if b else c == d` is rejected. -/
theorem C51_violated_else :
    InGrammar "const x = a if b else c == d;".toList ∧
      ¬ Accepts "const x = a if b else c == d;".toList := by
  refine ⟨inGrammar_of (derives_const (x := ['x']) (w := [ident ['a']] ++ tok .keyword_if ::
      [ident ['b']] ++ tok .keyword_else :: [ident ['c'], tok .equals, ident ['d']])
    (.expressionIf (.ifExpression (.binaryPrefix (derives_id _)) (.binaryPrefix (derives_id _))
      (.ifBinary (derives_equals _ _))))) ?_ ?_, not_accepts_of ?_⟩ <;> decide +kernel

/-- **C51 does not hold**: a comparison is even taken for one in a preceding type.
`const x: Uint(8) = f(b == c);` is rejected. -/
theorem C51_violated_type :
    InGrammar "const x: Uint(8) = f(b == c);".toList ∧
      ¬ Accepts "const x: Uint(8) = f(b == c);".toList := by
  have h := Derives.program (lenient := false) (.declConst (.const (x := ['x']) .noAnnotations
    (.someType (.typeUint (.parenthesized (.expressionIf (.ifBinary (.binaryPrefix (.prefixPostfix
      (.primary (.integer (t := .decimal_literal) (x := ['8']) (by decide))))))))))
    (.initializer
    (.expressionIf (.ifBinary (.binaryPrefix (.prefixPostfix (.callPostfix (.call (x := ['f'])
      (.someArguments (.argument (.expressionIf (.ifBinary (derives_equals ['b'] ['c'])))))
      .noAnnotations))))))))) .noDeclarations
  refine ⟨inGrammar_of h ?_ ?_, not_accepts_of ?_⟩ <;> decide +kernel

/-! ## Cases in which the theorems apply -/

/-- A program with annotations, a comparison behind a call with several arguments, and comments. -/
def sample : List Char :=
  "/* c */ const w = 8; @a function f(x: Uint(w), y: Bool) -> Int { // c
     if y == true { return g(x, 1) + 2; } else { return -1; } }".toList

/-- The sample is tokenized and accepted (for `C42_sound_partial`). -/
example : tokenize sample = some (tokensOf sample, .ok ()) ∧ Accepts sample :=
  ⟨by decide +kernel, accepts_of (by decide +kernel)⟩

/-- Comments of the sample matter to the tokens, but not to the result (for `C43_comments`). -/
example : withoutComments (tokensOf sample) ≠ tokensOf sample ∧
    parse sample (withoutComments (tokensOf sample)) = parseText sample :=
  ⟨by decide +kernel, C43_comments _ (by simp [withoutComments])⟩

/-- `const x = f(a == b, c);` meets the conditions of `C51_complete_partial`. -/
example : ∃ t, Derives false .program (lexemes "const x = f(a == b, c);".toList
      (tokensOf "const x = f(a == b, c);".toList)) [some t] ∧
    (∀ k ∈ tokensOf "const x = f(a == b, c);".toList,
      k.pos.start ≤ "const x = f(a == b, c);".toList.length) ∧
    Unobstructed (tokensOf "const x = f(a == b, c);".toList) ∧
    (tokensOf "const x = f(a == b, c);".toList).length < 2 ^ 64 := by
  have h := derives_const (x := ['x']) (.expressionIf (.ifBinary (.binaryPrefix (.prefixPostfix
    (.callPostfix (.call (x := ['f']) (.someArguments (.argumentsComma (.expressionIf (.ifBinary
      (derives_equals ['a'] ['b']))) (.argument (.expressionIf (.ifBinary (.binaryPrefix
        (derives_id ['c']))))))) .noAnnotations))))))
  exact ⟨_, derives_of_eq h (by decide +kernel), by decide +kernel,
    by unfold Unobstructed; decide +kernel, by decide +kernel⟩

end Bms
