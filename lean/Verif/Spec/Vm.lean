import Verif.Model.Vm
import Verif.Props.MapStack
import Verif.Spec.Values

/-!
# Specification: the effect of each instruction

The effects documented in src/bms/vm/instructions.hpp, on a configuration made of a stack of
variable maps, an operand stack and a program counter. Independent of the transcription of the
virtual machine; operators are the evaluation functions that C01 to C13 are about.
-/

namespace Bms.Spec

/-- What a program can observe and change. -/
structure Config where
  vars : Frames
  stack : List CVal
  pc : Nat

/-- `Does size i c c'`: in a program of `size` instructions, instruction `i` takes `c` to `c'`. -/
inductive Does (size : Nat) : Instr → Config → Config → Prop
  | load {k v f s} {pc : Nat} : f.top k = some v →
      Does size (.load k) ⟨f, s, pc⟩ ⟨f, v :: s, pc + 1⟩
  | store {k v f s} {pc : Nat} :
      Does size (.store k) ⟨f, v :: s, pc⟩ ⟨⟨f.top.set k v, f.rest⟩, s, pc + 1⟩
  | push {v f s} {pc : Nat} : Does size (.push v) ⟨f, s, pc⟩ ⟨f, v :: s, pc + 1⟩
  | pop {v f s} {pc : Nat} : Does size .pop ⟨f, v :: s, pc⟩ ⟨f, s, pc + 1⟩
  | jump {o f s} {pc t : Nat} : (t : Int) = pc + o + 1 → t < size →
      Does size (.jump o) ⟨f, s, pc⟩ ⟨f, s, t⟩
  | taken {o b x f s} {pc t : Nat} : x = CVal.ofBool b → (t : Int) = pc + o + 1 → t < size →
      Does size (.jumpIf o b) ⟨f, x :: s, pc⟩ ⟨f, s, t⟩
  | notTaken {o b x f s} {pc : Nat} : x = CVal.ofBool (!b) → (pc : Int) + o + 1 < size →
      Does size (.jumpIf o b) ⟨f, x :: s, pc⟩ ⟨f, s, pc + 1⟩
  | ret {f g rest s pc} {a : Nat} :
      Does size .ret ⟨⟨f, (CVal.ofInt a, g) :: rest⟩, s, pc⟩ ⟨⟨g, rest⟩, s, a⟩
  | convert {t x v f s} {pc : Nat} : evalConversion x t = .ok v →
      Does size (.convert t) ⟨f, x :: s, pc⟩ ⟨f, v :: s, pc + 1⟩
  | unary {op x v f s} {pc : Nat} : evalUnary op x = .ok v →
      Does size (.unary op) ⟨f, x :: s, pc⟩ ⟨f, v :: s, pc + 1⟩
  | binary {op x y v f s} {pc : Nat} : evalBinary x op y = .ok v →
      Does size (.binary op) ⟨f, y :: x :: s, pc⟩ ⟨f, v :: s, pc + 1⟩
  | call {a f s} {pc : Nat} : a ≤ size →
      Does size (.call a) ⟨f, s, pc⟩
        ⟨⟨Frame.empty, (CVal.ofInt (pc + 1), f.top) :: f.rest⟩, s, a⟩
  | assert {x f s} {pc : Nat} : x = CVal.tt →
      Does size (.builtin .assert) ⟨f, x :: s, pc⟩ ⟨f, CVal.void :: s, pc + 1⟩

/-- `Fails size i c e`: in configuration `c`, instruction `i` cannot be executed, for the reason
`e`. -/
inductive Fails (size : Nat) : Instr → Config → ExecErr → Prop
  | uninitialized {k f s} {pc : Nat} : f.top k = none →
      Fails size (.load k) ⟨f, s, pc⟩ .load_uninitialized
  | storeEmpty {k f} {pc : Nat} : Fails size (.store k) ⟨f, [], pc⟩ .pop
  | popEmpty {f} {pc : Nat} : Fails size .pop ⟨f, [], pc⟩ .pop
  | jumpIfEmpty {o b f} {pc : Nat} : Fails size (.jumpIf o b) ⟨f, [], pc⟩ .pop
  | convertEmpty {t f} {pc : Nat} : Fails size (.convert t) ⟨f, [], pc⟩ .pop
  | unaryEmpty {op f} {pc : Nat} : Fails size (.unary op) ⟨f, [], pc⟩ .pop
  | binaryEmpty {op f s} {pc : Nat} : s.length < 2 → Fails size (.binary op) ⟨f, s, pc⟩ .pop
  | builtinEmpty {f g} {pc : Nat} : Fails size (.builtin g) ⟨f, [], pc⟩ .pop
  | jump {o f s} {pc : Nat} : (size : Int) ≤ pc + o + 1 → Fails size (.jump o) ⟨f, s, pc⟩ .jump_out_of_program
  | notBool {o b x f s} {pc : Nat} : x.type ≠ .bool →
      Fails size (.jumpIf o b) ⟨f, x :: s, pc⟩ .jump_if_not_bool
  | jumpIf {o b x f s} {pc : Nat} : x.type = .bool → (size : Int) ≤ pc + o + 1 →
      Fails size (.jumpIf o b) ⟨f, x :: s, pc⟩ .jump_out_of_program
  | ret {f s} {pc : Nat} : Fails size .ret ⟨⟨f, []⟩, s, pc⟩ .pop_call
  | convert {t x e f s} {pc : Nat} : evalConversion x t = .err e →
      Fails size (.convert t) ⟨f, x :: s, pc⟩ (.evaluation e)
  | unary {op x e f s} {pc : Nat} : evalUnary op x = .err e →
      Fails size (.unary op) ⟨f, x :: s, pc⟩ (.evaluation e)
  | binary {op x y e f s} {pc : Nat} : evalBinary x op y = .err e →
      Fails size (.binary op) ⟨f, y :: x :: s, pc⟩ (.evaluation e)
  | call {a f s} {pc : Nat} : size < a → Fails size (.call a) ⟨f, s, pc⟩ .call_out_of_program
  | assertFalse {x f s} {pc : Nat} : x = CVal.ff →
      Fails size (.builtin .assert) ⟨f, x :: s, pc⟩ (.evaluation .assertion_fail)
  | assertType {x f s} {pc : Nat} : x.type ≠ .bool →
      Fails size (.builtin .assert) ⟨f, x :: s, pc⟩ (.evaluation .type_error)
  | breaks {f s} {pc : Nat} : Fails size .break_ ⟨f, s, pc⟩ .symbolic_jump
  | continues {f s} {pc : Nat} : Fails size .continue_ ⟨f, s, pc⟩ .symbolic_jump

/-- `Escapes i c`: instruction `i` jumps to before the first instruction. -/
inductive Escapes : Instr → Config → Prop
  | jump {o f s} {pc : Nat} : (pc : Int) + o + 1 < 0 → Escapes (.jump o) ⟨f, s, pc⟩
  | jumpIf {o b x f s} {pc : Nat} : x = CVal.ofBool b → (pc : Int) + o + 1 < 0 →
      Escapes (.jumpIf o b) ⟨f, x :: s, pc⟩

/-- The operation of an instruction, on the values on the stack, has outcome `o`. -/
inductive Evaluates : Instr → Config → Outcome EvalErr CVal → Prop
  | convert {t x f s} {pc : Nat} : Evaluates (.convert t) ⟨f, x :: s, pc⟩ (evalConversion x t)
  | unary {op x f s} {pc : Nat} : Evaluates (.unary op) ⟨f, x :: s, pc⟩ (evalUnary op x)
  | binary {op x y f s} {pc : Nat} : Evaluates (.binary op) ⟨f, y :: x :: s, pc⟩ (evalBinary x op y)

/-- An instruction that can be part of a program: variables are not null, values and types are
well-formed, and offsets are numbers of 63 bits (so that adding the counter does not overflow). -/
def InstrOk : Instr → Prop
  | .load k | .store k => k ≠ sentinelKey
  | .push v => WF v
  | .convert t => t.WF
  | .jump o | .jumpIf o _ => -2 ^ 62 ≤ o
  | _ => True

end Bms.Spec
