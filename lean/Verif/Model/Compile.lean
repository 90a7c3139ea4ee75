import Verif.Model.Build
import Verif.Model.Parse
import Verif.Model.Tokenize
import Verif.Model.Analyze

/-!
# Model: from a text to the result of its analysis
-/

namespace Bms

open Parse

/-- The result of a compilation. -/
inductive CompileResult where
  /-- Tokens are wrong. -/
  | tokens
  /-- The text is no program. -/
  | syntax_
  /-- The program has been analyzed, with this result. -/
  | analyzed (ds : List ADecl) (r : ARes Unit)
  /-- An exception leaves the compiler. -/
  | throws
  /-- Not possible: parsing does not end, or nodes do not have the shape that the parser gives them. -/
  | impossible

/-- Tokenization, parsing, construction of the tree and analysis, as in src/cli/compile.cpp:15-80 and
src/bms/analyze.cpp:1116-1127. Annotations, which analysis only checks, are left out; `n` limits how
deep analysis goes. -/
def compile (n : Nat) (src : List Char) : CompileResult :=
  match tokenize src with
  | some (ts, .ok ()) =>
    match parse src ts with
    | .ok nodes root =>
      match Build.program nodes root with
      | .ok ds => .analyzed ds (Ana.program n ds (nodes.length + 1))
      | .throws => .throws
      | _ => .impossible
    | .err _ => .syntax_
    | .throws => .throws
    | .diverge => .impossible
  | _ => .tokens

end Bms
