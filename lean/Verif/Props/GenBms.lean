import Verif.Lemmas.GenBms
import Verif.Lemmas.BuildUnique
import Verif.Props.TokensComplete
import Verif.Props.ParseCases
import Verif.Props.Build

/-!
# Property C65: what the generator writes is the program
-/

namespace Bms

open Spec Parse
open GenBms (program Options)

theorem GenBms.Neat.spelled {src : List Char} {items : List (TokenType × List Char)}
    (h : Spelled Neat src items) : Spelled Roomy src items ∧
      (items.filter fun i => i.1 ≠ .line_comment && i.1 ≠ .block_comment) = items := by
  induction h with
  | nil h => exact ⟨.nil h, rfl⟩
  | cons h1 h2 h3 h4 h5 h6 _ ih =>
    refine ⟨.cons h1 h2 h3 h4 h5 h6.1 ih.1, ?_⟩
    rw [List.filter_cons, if_pos, ih.2]
    simp [h6.2.1, h6.2.2]

/-- **C65, partial.** The generator of BMS code writes a text that is tokenized, that the grammar derives,
and whose syntax tree stands for the program. What is missing: `Printable` programs have no `else` with
a block, no call statements, no `requires` clauses, no `!`, and no conversion of an expression with two
operands unless all subexpressions are parenthesized (see the violations below). -/
theorem C65_written_partial {o : Options} {ds : List ADecl} (hw : White o.indentChar) (hn : ds ≠ [])
    (h : ∀ d ∈ ds, PrintableD o.alwaysParenthesize d) :
    ∃ text ts t, program o ds = .ok text ∧ tokenize text = some (ts, .ok ()) ∧
      Derives false .program (lexemes text ts) [some t] ∧ ProgramIs t (ds.map plainD) := by
  obtain ⟨t, h1, text, h2, items, h3, h4⟩ := GenBms.shown_program hw ds hn h
  obtain ⟨h5, h6⟩ := GenBms.Neat.spelled h3
  obtain ⟨ts, h7, h8⟩ := C64_lexemes_partial h5
  rw [h6] at h8
  refine ⟨text, ts, t, h2, h7, ?_, h1⟩
  rw [h8]
  exact h4

/-- **C65, partial: round trip.** If moreover comparisons are not obstructed (a condition of
`C51_text_partial`) and `>=` is not used (see `C60_violation`), then the text is parsed, and the tree that
is made from it is that of the program again, apart from the addresses of nodes and results of analysis. -/
theorem C65_again_partial {o : Options} {ds : List ADecl} {text : List Char} {ts : List Token}
    (hw : White o.indentChar) (hn : ds ≠ []) (h : ∀ d ∈ ds, PrintableD o.alwaysParenthesize d)
    (hx : program o ds = .ok text) (ht : tokenize text = some (ts, .ok ())) (hu : Unobstructed ts)
    (hl : ts.length < 2 ^ 64) (hg : ∀ t ∈ ts, t.type ≠ .greater_or_equal) :
    ∃ nodes root ds', parse text ts = .ok nodes root ∧ Build.program nodes root = .ok ds' ∧
      ds'.map plainD = ds.map plainD := by
  obtain ⟨text', ts', t, h1, h2, h3, h4⟩ := C65_written_partial hw hn h
  rw [hx] at h1
  cases h1
  rw [ht] at h2
  cases h2
  obtain ⟨nodes, root, h5, h6⟩ := C51_text_partial ht h3 hu hl
  obtain ⟨t', ds', -, h7, h8, h9, -⟩ := C60_tree_partial h5 hg
  cases reads_unique h7 h6
  refine ⟨nodes, root, ds', h5, h8, ?_⟩
  have := GenBms.plain_program h9 h4
  rw [this, List.map_map]
  refine List.map_congr_left fun d _ => ?_
  exact GenBms.plain_plain d

/-- **C65, partial: different programs have different texts.** -/
theorem C65_injective_partial {o o' : Options} {ds ds' : List ADecl} {text : List Char}
    (hw : White o.indentChar) (hn : ds ≠ []) (h : ∀ d ∈ ds, PrintableD o.alwaysParenthesize d)
    (hw' : White o'.indentChar) (hn' : ds' ≠ []) (h' : ∀ d ∈ ds', PrintableD o'.alwaysParenthesize d)
    (hu : ∀ ts, tokenize text = some (ts, .ok ()) → Unobstructed ts ∧ ts.length < 2 ^ 64)
    (hx : program o ds = .ok text) (hx' : program o' ds' = .ok text) :
    ds.map plainD = ds'.map plainD := by
  obtain ⟨text1, ts, t, h1, h2, h3, h4⟩ := C65_written_partial hw hn h
  obtain ⟨text2, ts', t', h1', h2', h3', h4'⟩ := C65_written_partial hw' hn' h'
  rw [hx] at h1
  cases h1
  rw [hx'] at h1'
  cases h1'
  rw [h2] at h2'
  cases h2'
  obtain ⟨hu1, hl⟩ := hu ts h2
  obtain ⟨nodes, root, h5, h6⟩ := C51_text_partial h2 h3 hu1 hl
  obtain ⟨nodes', root', h5', h6'⟩ := C51_text_partial h2 h3' hu1 hl
  rw [h5] at h5'
  cases h5'
  cases reads_unique h6 h6'
  have := GenBms.plain_program h4 h4'
  simpa only [List.map_map, Function.comp_def, GenBms.plain_plain] using this

/-! ## Violations -/

/-- **C65 is violated by every function with a `requires` clause**: it is written like the function
without the clause. -/
theorem C65_requires_violation (o : Options) (sol : Bool) (f : AFn) (q : Option AExpr) :
    GenBms.function o sol { f with requires_ := q } = GenBms.function o sol f := rfl

namespace Written

/-- The text that is written for the program in a text. -/
def rewritten (o : Options) (src : List Char) : Option (List Char) :=
  match parseText src with
  | .ok nodes root =>
    match Build.program nodes root with
    | .ok ds =>
      match program o ds with
      | .ok text => some text
      | _ => none
    | _ => none
  | _ => none

/-- Whether a text is accepted by the parser. -/
def parses (src : Option (List Char)) : Bool :=
  match src with
  | some s => (parseText s).isOk
  | none => false

end Written

open Written

/-- **C65 is violated by `else` with a block**: `else` is left out, and the text is another program, in which
both blocks are executed. -/
theorem C65_else_violation :
    rewritten {} "function f()->Int{if true{}else{}}".toList =
      some "function f() -> Int {\n    if true {\n    }{\n    }\n}\n".toList ∧
    rewritten {} "function f() -> Int {\n    if true {\n    }{\n    }\n}\n".toList =
      some "function f() -> Int {\n    if true {\n    }\n{\n    }\n}\n".toList := by
  decide +kernel

/-- **C65 is violated by call statements**: `;` is left out, and the text is rejected. -/
theorem C65_call_violation :
    rewritten {} "function f() -> Void { f(); }".toList = some "function f() -> Void {\n    f()\n}\n".toList ∧
    parses (rewritten {} "function f() -> Void { f(); }".toList) = false := by
  decide +kernel

/-- **C65 is violated by `!`**: the operand is written behind it without the two spaces that the tokenizer
skips, and so the text is rejected or has another meaning. -/
theorem C65_not_violation :
    rewritten {} "const x = !  true;".toList = some "const x = !true;\n".toList ∧
    parses (rewritten {} "const x = !  true;".toList) = true ∧
    rewritten {} "const x = !true;".toList = some "const x = !ue;\n".toList ∧
    parses (rewritten {} "const x = !  0;".toList) = false := by
  decide +kernel

/-- **C65 is violated by conversions of operations**: the parentheses are left out. -/
theorem C65_conversion_violation :
    rewritten {} "const x = (1 + 2) as Int;".toList = some "const x = 1 + 2 as Int;\n".toList ∧
    parses (rewritten {} "const x = (1 + 2) as Int;".toList) = false ∧
    rewritten { alwaysParenthesize := true } "const x = (1 + 2) as Int;".toList =
      some "const x = ((1) + (2)) as Int;\n".toList := by
  decide +kernel

/-! ## Cases -/

namespace Written

def fixpoint : List Char :=
  "function f(x: Uint(8), y: Int) -> Int {\n    let z = (x + 1) * -y;\n    while z != 0 {\n        break;\n    }\n    return f(z, 1 if y == z else 2);\n}\n".toList

end Written

/-- A program that is written as it was read. -/
theorem C65_sample_text : rewritten {} Written.fixpoint = some Written.fixpoint := by
  decide +kernel

theorem isName_of {s : List Char} (h1 : Ident s) (h2 : keywordByName s = none) : IsName s := by
  refine .identifier h1 fun ty sp h e => ?_
  rcases keyword_lexeme (.fixed h) (e ▸ h1) with h3 | ⟨-, h3⟩
  · rw [e, h2] at h3; cases h3
  · subst h3; cases h

namespace Written

/-- `function f(x: Int) -> Int { while x != 0 { if x == 1 { } else if true { x = -(x + 1); } } return x; }` -/
def sample : List ADecl :=
  [.function ⟨1, none, ['f'], [⟨2, ['x'], .base 3 none .int⟩], .base 4 none .int, none, 5,
    [.while_ 6 none (.binary 7 none .not_equals (.id 8 none ['x'] none false) (.literal 9 none (some (.integer ['0']))))
      (.block 10 none [.ifElse 11 none
        (.binary 12 none .equals (.id 13 none ['x'] none false) (.literal 14 none (some (.integer ['1']))))
        (.block 15 none [])
        (.ifThen 16 none (.literal 17 none (some .true_))
          (.block 18 none [.assign 19 none ['x'] none (.prefix 20 none .unary_minus
            (.binary 21 none .binary_plus (.id 22 none ['x'] none false)
              (.literal 23 none (some (.integer ['1'])))))]))]),
      .control 24 none .return_ (some (.id 25 none ['x'] none false))],
    [], false, none, .unanalyzed⟩]

/-- The text of a program. -/
def textOf (o : Options) (ds : List ADecl) : Option (List Char) :=
  match program o ds with
  | .ok text => some text
  | _ => none

end Written

namespace Written

def sampleText : List Char :=
  "function f(x: Int) -> Int {\n    while x != 0 {\n        if x == 1 {\n        }else if true {\n            x = -(x + 1);\n        }\n    }\n    return x;\n}\n".toList

end Written

/-- The hypotheses of `C65_written_partial` and `C65_again_partial` are met by a program. -/
theorem C65_sample : Written.sample ≠ [] ∧ (∀ d ∈ Written.sample, PrintableD false d) ∧
    textOf {} Written.sample = some Written.sampleText ∧ (tokensOf Written.sampleText).length = 40 ∧
    Unobstructed (tokensOf Written.sampleText) ∧
    ∀ t ∈ tokensOf Written.sampleText, t.type ≠ .greater_or_equal := by
  have hf : IsName ['f'] := isName_of ⟨by decide, by decide⟩ (by decide)
  have hx : IsName ['x'] := isName_of ⟨by decide, by decide⟩ (by decide)
  have h0 : Literal .decimal ['0'] 0 := .zero
  have h1 : Literal .decimal ['1'] 1 := .decimal (by decide) ⟨[1], by decide, by decide, by decide⟩
  refine ⟨by simp [Written.sample], ?_, by decide +kernel, by decide +kernel, ?_, by decide +kernel⟩
  · intro d hd
    simp only [Written.sample, List.mem_cons, List.not_mem_nil, or_false] at hd
    subst hd
    simp [PrintableD, PrintableSs, PrintableS, PrintableE, PrintableT, IfAny, IsBlock, IsIf, IsBinary, IsUnary,
      hf, hx]
    exact ⟨⟨_, _, h0⟩, _, _, h1⟩
  · unfold Unobstructed
    decide +kernel

end Bms
