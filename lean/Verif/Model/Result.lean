import Verif.Model.Variant

/-!
# Result

Transcribes src/common/result.hpp without `transform`, which is compiled only if a macro is defined that no file
defines.

Simplifications: as in Model/Variant.lean. The members of the union are numbered, 0 for `m_value` and 1 for `m_error`;
it is undefined behaviour to access or destroy the member that is not active.
-/

namespace Bms.Sum

variable {α : Type}

/-- `Result`, result.hpp:14-21 and 316-322. -/
structure Res (α : Type) where
  hasValue : Bool
  active : Option (Obj α)

/-- Access to a member of the union. -/
def Res.as (r : Res α) (t : Nat) : Outcome Empty α :=
  match r.active with
  | some o => if o.type = t then .ok o.value else .ub
  | none => .ub

/-- `std::construct_at(std::addressof(m_value), …)`. -/
def constructR (m : Mem (Res α)) (i t : Nat) (x : α) : Outcome Empty (Mem (Res α)) := do
  let r ← m.get i
  return (m.set i (some { r with active := some ⟨t, x⟩ })).make t

/-- `std::destroy_at(std::addressof(m_value))`. -/
def destroyR (m : Mem (Res α)) (i t : Nat) : Outcome Empty (Mem (Res α)) := do
  let r ← m.get i
  let _ ← r.as t
  return (m.set i (some { r with active := none })).lose t

/-- `m_value = …`. -/
def assignR (m : Mem (Res α)) (i t : Nat) (x : α) : Outcome Empty (Mem (Res α)) := do
  let r ← m.get i
  let _ ← r.as t
  return m.set i (some { r with active := some ⟨t, x⟩ })

/-- `m_has_value = …`. -/
def setHas (m : Mem (Res α)) (i : Nat) (b : Bool) : Outcome Empty (Mem (Res α)) := do
  let r ← m.get i
  return m.set i (some { r with hasValue := b })

/-- The constructors from a value and from an error, result.hpp:24-84 and 330-344. -/
def resValue (m : Mem (Res α)) (i t : Nat) (x : α) : Outcome Empty (Mem (Res α)) :=
  .ok ((m.set i (some ⟨t == 0, some ⟨t, x⟩⟩)).make t)

/-- The copy constructor, result.hpp:86-97. -/
def resCopy (a : Alts α) (m : Mem (Res α)) (i j : Nat) (raise : Bool) : Outcome Empty (Mem (Res α) × Bool) := do
  let other ← m.get j
  let t := if other.hasValue then 0 else 1
  let m' := m.set i (some ⟨other.hasValue, none⟩)
  let x ← other.as t
  if raise && !a.nothrowCopy t then return (m'.set i none, true)
  else do
    let m'' ← constructR m' i t x
    return (m'', false)

/-- The move constructor, result.hpp:99-110. -/
def resMove (a : Alts α) (m : Mem (Res α)) (i j : Nat) : Outcome Empty (Mem (Res α)) := do
  let other ← m.get j
  let t := if other.hasValue then 0 else 1
  let m' := m.set i (some ⟨other.hasValue, none⟩)
  let x ← other.as t
  let m'' ← constructR m' i t x
  assignR m'' j t (a.moved x)

/-- Copy assignment, result.hpp:112-135. -/
def resAssignCopy (m : Mem (Res α)) (i j : Nat) : Outcome Empty (Mem (Res α)) := do
  let this ← m.get i
  let other ← m.get j
  if i = j then return m
  else if this.hasValue && other.hasValue then do
    let x ← other.as 0
    assignR m i 0 x
  else if !this.hasValue && !other.hasValue then do
    let x ← other.as 1
    assignR m i 1 x
  else if this.hasValue && !other.hasValue then do
    let m1 ← destroyR m i 0
    let x ← other.as 1
    let m2 ← constructR m1 i 1 x
    setHas m2 i false
  else do
    let m1 ← destroyR m i 1
    let x ← other.as 0
    let m2 ← constructR m1 i 0 x
    setHas m2 i true

/-- Move assignment, result.hpp:137-156, up to the end of its body. -/
def resAssignMoveBody (a : Alts α) (m : Mem (Res α)) (i j : Nat) : Outcome Empty (Mem (Res α)) := do
  let this ← m.get i
  let other ← m.get j
  if this.hasValue && other.hasValue then do
    let x ← other.as 0
    if i = j then assignR m i 0 (a.selfMoved x)
    else do
      let m' ← assignR m i 0 x
      assignR m' j 0 (a.movedAssign x)
  else if !this.hasValue && !other.hasValue then do
    let x ← other.as 1
    if i = j then assignR m i 1 (a.selfMoved x)
    else do
      let m' ← assignR m i 1 x
      assignR m' j 1 (a.movedAssign x)
  else if this.hasValue && !other.hasValue then do
    let m1 ← destroyR m i 0
    let x ← other.as 1
    let m2 ← constructR m1 i 1 x
    let m3 ← assignR m2 j 1 (a.moved x)
    setHas m3 i false
  else do
    let m1 ← destroyR m i 1
    let x ← other.as 0
    let m2 ← constructR m1 i 0 x
    let m3 ← assignR m2 j 0 (a.moved x)
    setHas m3 i true

/-- Move assignment, result.hpp:137-156. The function returns a reference, but has no `return` statement; it is
undefined behaviour to reach its end. -/
def resAssignMove (a : Alts α) (m : Mem (Res α)) (i j : Nat) : Outcome Empty (Mem (Res α)) := do
  let _ ← resAssignMoveBody a m i j
  .ub

/-- The destructor, result.hpp:158-167. -/
def resDestruct (m : Mem (Res α)) (i : Nat) : Outcome Empty (Mem (Res α)) := do
  let this ← m.get i
  let m' ← destroyR m i (if this.hasValue then 0 else 1)
  return m'.set i none

/-- An operation on objects of `Result<T, Error>`. There is no default constructor; types other than the two cannot
be given. -/
def runRes (a : Alts α) (m : Mem (Res α)) : Op α → Outcome Empty (Mem (Res α) × Bool)
  | .default _ _ => .throws
  | .value i t x => if t ≤ 1 then calm (resValue m i t x) else .throws
  | .copy i j raise => resCopy a m i j raise
  | .move i j => calm (resMove a m i j)
  | .assignCopy i j _ => calm (resAssignCopy m i j)
  | .assignMove i j => calm (resAssignMove a m i j)
  | .destroy i => calm (resDestruct m i)

/-- `value` and `operator*`, result.hpp:191-237. -/
def resGet (r : Res α) : Outcome Empty α := if r.hasValue then r.as 0 else .throws

/-- `error`, result.hpp:239-261 and 439-461. -/
def resError (r : Res α) : Outcome Empty α := if r.hasValue then .throws else r.as 1

/-! ## `Result<void, Error>` -/

/-- The default constructor, result.hpp:325-328. -/
def voidDefault (m : Mem (Res α)) (i : Nat) : Outcome Empty (Mem (Res α)) := .ok (m.set i (some ⟨true, none⟩))

/-- The copy constructor, result.hpp:346-354. -/
def voidCopy (a : Alts α) (m : Mem (Res α)) (i j : Nat) (raise : Bool) : Outcome Empty (Mem (Res α) × Bool) := do
  let other ← m.get j
  let m' := m.set i (some ⟨other.hasValue, none⟩)
  if other.hasValue then return (m', false)
  else do
    let x ← other.as 1
    if raise && !a.nothrowCopy 1 then return (m'.set i none, true)
    else do
      let m'' ← constructR m' i 1 x
      return (m'', false)

/-- The move constructor, result.hpp:356-364. -/
def voidMove (a : Alts α) (m : Mem (Res α)) (i j : Nat) : Outcome Empty (Mem (Res α)) := do
  let other ← m.get j
  let m' := m.set i (some ⟨other.hasValue, none⟩)
  if other.hasValue then return m'
  else do
    let x ← other.as 1
    let m'' ← constructR m' i 1 x
    assignR m'' j 1 (a.moved x)

/-- Both assignments, result.hpp:366-410: the assignment by a move copies the error as well. -/
def voidAssign (m : Mem (Res α)) (i j : Nat) : Outcome Empty (Mem (Res α)) := do
  let this ← m.get i
  let other ← m.get j
  if i = j then return m
  else if this.hasValue && other.hasValue then return m
  else if !this.hasValue && !other.hasValue then do
    let x ← other.as 1
    assignR m i 1 x
  else if this.hasValue && !other.hasValue then do
    let x ← other.as 1
    let m2 ← constructR m i 1 x
    setHas m2 i false
  else do
    let m1 ← destroyR m i 1
    setHas m1 i true

/-- The destructor, result.hpp:412-417. -/
def voidDestruct (m : Mem (Res α)) (i : Nat) : Outcome Empty (Mem (Res α)) := do
  let this ← m.get i
  if this.hasValue then return m.set i none
  else do
    let m' ← destroyR m i 1
    return m'.set i none

/-- An operation on objects of `Result<void, Error>`. The only type that can be given is that of errors. -/
def runVoid (a : Alts α) (m : Mem (Res α)) : Op α → Outcome Empty (Mem (Res α) × Bool)
  | .default i _ => calm (voidDefault m i)
  | .value i t x => if t = 1 then calm (resValue m i t x) else .throws
  | .copy i j raise => voidCopy a m i j raise
  | .move i j => calm (voidMove a m i j)
  | .assignCopy i j _ => calm (voidAssign m i j)
  | .assignMove i j => calm (voidAssign m i j)
  | .destroy i => calm (voidDestruct m i)

/-- `value` and `operator*`, result.hpp:429-437. -/
def voidGet (r : Res α) : Outcome Empty Unit := if r.hasValue then .ok () else .throws

end Bms.Sum
