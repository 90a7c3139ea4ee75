import Verif.Model.Vm
import Verif.Model.GenBms
import Verif.Model.ToString

/-!
# Text of instructions

Transcribes src/bms/vm/instructions.cpp: `operator<<` for types, values and instructions, and `dump_program`.

Simplifications:
* How an address (`const void*`) is written by the standard library is not specified; it is given by a function.
* Only the name in `Debug_Info` (src/bms/debug_info.hpp:38-60) is needed; it is given beside the instruction.
-/

namespace Bms.DumpCode

/-- `std::left << std::setw(name_column_width) << s`, src/bms/vm/instructions.cpp:36. -/
def column (s : String) : List Char := s.toList ++ List.replicate (16 - s.toList.length) ' '

/-- `operator<<` for `Concrete_Type`, src/bms/vm/instructions.cpp:12-21. -/
def type : CType → List Char
  | .void => "Void".toList
  | .bool => "Bool".toList
  | .int => "Int".toList
  | .uint w => "Uint".toList ++ '(' :: stdToString w ++ [')']

/-- `operator<<` for `Concrete_Value`, src/bms/vm/instructions.cpp:23-32. -/
def value (v : CVal) : List Char :=
  match v.type with
  | .void => "Void".toList
  | .bool => if v.int ≠ 0 then "true".toList else "false".toList
  | .int => toStringInt v.int
  | .uint _ => toStringUint (toU128 v.int)

/-- `(i.offset >= 0 ? "+" : "") << i.offset`, src/bms/vm/instructions.cpp:69-70 and 77. -/
def offset (x : Int) : List Char := if x ≥ 0 then '+' :: stdToString x.natAbs else '-' :: stdToString x.natAbs

/-- The name of a variable, src/bms/vm/instructions.cpp:41-43 and 50-52. -/
def note (name : List Char) : List Char := if name = [] then [] else "    ; ".toList ++ name

/-- `operator<<` for `Instruction`, src/bms/vm/instructions.cpp:38-126. `builtin_function_name` is `assert` for all,
src/bms/evaluation/builtin_function.hpp:16-19. -/
def instr (addr : Key → List Char) (name : List Char) : Instr → List Char
  | .load k => column "load " ++ addr k ++ note name
  | .store k => column "store " ++ addr k ++ note name
  | .push v => column "push " ++ value v
  | .pop => column "pop"
  | .jump x => column "jump " ++ offset x
  | .jumpIf x b => column "if " ++ (if b then "true".toList else "false".toList) ++ " jump ".toList ++ offset x
  | .break_ => "break".toList
  | .continue_ => "continue".toList
  | .ret => "return".toList
  | .convert t => column "convert to " ++ type t
  | .unary op => "unary ".toList ++ GenBms.code op.token
  | .binary op => "binary ".toList ++ GenBms.code op.token
  | .call a => column "call " ++ stdToString a
  | .builtin _ => column "call builtin " ++ "assert".toList

/-- `dump_program`, src/bms/vm/instructions.cpp:128-133: instructions with the names of their variables. -/
def program (addr : Key → List Char) : List (Instr × List Char) → List Char
  | [] => []
  | i :: is => instr addr i.2 i.1 ++ '\n' :: program addr is

end Bms.DumpCode
