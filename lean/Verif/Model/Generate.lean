import Verif.Model.GenBms
import Verif.Model.GenC
import Verif.Model.Compile

/-!
# Code generation for a program that was analyzed

Transcribes src/bmd/codegen/codegen.cpp: the choice of the generator. The generators of C, C++ and BMS are
those of Model/GenC and Model/GenBms.
-/

namespace Bms

/-- A declaration of the analyzed program as generators see it: analysis replaces functions and writes values
of declarations in place (`const_value()`), which the model keeps in its state. Initializers of global
constants and the conditions of global assertions are left as they were before; generators read only names,
literals and operators in them, if anything. -/
def Ana.result (s : ASt) : ADecl → ADecl
  | .const_ k _ x t e => .const_ k ((s.decl k).bind Decl.cv) x t e
  | .staticAssert k cv e => .staticAssert k cv e
  | .function f => .function ((s.fns f.k).getD f)

namespace Gen

/-- `Code_Language`, src/bmd/codegen/code_language.hpp:10-27. -/
inductive Lang where
  | bms | c | cpp | rust | java | kotlin | javascript | typescript
deriving DecidableEq, Repr

/-- The table of `code_language_by_name`, src/cli/glue.cpp:77-101. -/
def languages : List (List Char × Lang) :=
  [("bms".toList, .bms), ("BMS".toList, .bms), ("c".toList, .c), ("C".toList, .c), ("c++".toList, .cpp),
   ("C++".toList, .cpp), ("cpp".toList, .cpp), ("cxx".toList, .cpp), ("rs".toList, .rust),
   ("rust".toList, .rust), ("Rust".toList, .rust), ("java".toList, .java), ("Java".toList, .java),
   ("kotlin".toList, .kotlin), ("Kotlin".toList, .kotlin), ("kt".toList, .kotlin),
   ("js".toList, .javascript), ("JS".toList, .javascript), ("javascript".toList, .javascript),
   ("JavaScript".toList, .javascript), ("ts".toList, .typescript), ("TS".toList, .typescript),
   ("TypeScript".toList, .typescript)]

/-- `code_language_by_name`, src/cli/glue.cpp:70-109. -/
def languageByName (name : List Char) : Option Lang := (languages.find? fun l => l.1 = name).map Prod.snd

/-- The outcome of the generator of BMS code, which gives no errors. -/
def noError : Outcome Unit (List Char) → Outcome GenC.GenError (List Char)
  | .ok s => .ok s
  | .err _ => .err .error
  | .throws => .throws
  | .ub => .ub

/-- `generate_code`, src/bmd/codegen/codegen.cpp:36-52; the others are not implemented and fail an
assertion, l.6-34. -/
def generate (o : GenC.Options) (l : Lang) (ds : List ADecl) : Outcome GenC.GenError (List Char) :=
  match l with
  | .bms => noError (GenBms.program o.toOptions ds)
  | .c => GenC.program .c o ds
  | .cpp => GenC.program .cpp o ds
  | .rust | .java | .kotlin | .javascript | .typescript => .throws

end Gen

end Bms
