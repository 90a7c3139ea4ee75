import Verif.Model.Values

/-!
# Linear_Map_Stack

Transcribes src/bms/vm/linear_map_stack.hpp. The vector `m_data` is a list whose head is
`m_data.back()`. Keys are addresses, modelled by natural numbers with `nullptr` = 0. An `Entry*` into
the vector is modelled by the index of the entry in the list.
-/

namespace Bms

/-- `Linear_Map_Stack::Key`, src/bms/vm/linear_map_stack.hpp:28. -/
abbrev Key := Nat

/-- `sentinel_key`, src/bms/vm/linear_map_stack.hpp:29. -/
def sentinelKey : Key := 0

/-- `Linear_Map_Stack::Entry`, src/bms/vm/linear_map_stack.hpp:30-33. -/
structure Entry where
  key : Key
  value : CVal
deriving DecidableEq, Repr

namespace MapStack

/-- The loop of `find`, src/bms/vm/linear_map_stack.hpp:52-56. -/
def findLoop (key : Key) : List Entry → Option Nat
  | [] => none
  | e :: es =>
    if e.key = sentinelKey then none
    else if key = e.key then some 0
    else (findLoop key es).map (· + 1)

/-- `find`, src/bms/vm/linear_map_stack.hpp:49-58: index of the entry, or `none` for `nullptr`. -/
def find {ε : Type} (data : List Entry) (key : Key) : Outcome ε (Option Nat) :=
  if key = sentinelKey then .throws else .ok (findLoop key data)

/-- `existing->value = value` for the entry at an index, src/bms/vm/linear_map_stack.hpp:71. -/
def setValue (data : List Entry) (i : Nat) (value : CVal) : List Entry :=
  match data, i with
  | [], _ => []
  | e :: es, 0 => ⟨e.key, value⟩ :: es
  | e :: es, i + 1 => e :: setValue es i value

/-- `emplace`, src/bms/vm/linear_map_stack.hpp:60-66: the new data and whether the entry was
inserted. -/
def emplace {ε : Type} (data : List Entry) (key : Key) (value : CVal) :
    Outcome ε (List Entry × Bool) := do
  match ← find data key with
  | some _ => .ok (data, false)
  | none => .ok (⟨key, value⟩ :: data, true)

/-- `assign`, src/bms/vm/linear_map_stack.hpp:68-75. -/
def assign {ε : Type} (data : List Entry) (key : Key) (value : CVal) : Outcome ε (List Entry) := do
  match ← find data key with
  | some i => .ok (setValue data i value)
  | none => .ok (⟨key, value⟩ :: data)

/-- `push_frame`, src/bms/vm/linear_map_stack.hpp:77-80. -/
def pushFrame (data : List Entry) (value : CVal) : List Entry := ⟨sentinelKey, value⟩ :: data

/-- `pop_frame`, src/bms/vm/linear_map_stack.hpp:82-92: the value of the topmost sentinel and the
remaining data; without a sentinel, `none` and the data is not changed. -/
def popFrame : List Entry → Option (CVal × List Entry)
  | [] => none
  | e :: es => if e.key = sentinelKey then some (e.value, es) else popFrame es

/-- `clear`, src/bms/vm/linear_map_stack.hpp:44-47. -/
def clear (_ : List Entry) : List Entry := []

/-- Value of the entry found for a key (`find(key)->value`). -/
def lookup {ε : Type} (data : List Entry) (key : Key) : Outcome ε (Option CVal) :=
  (find data key).map fun i => i.bind fun i => data[i]?.map (·.value)

end MapStack

end Bms
