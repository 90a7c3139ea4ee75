/-!
# Outcomes of C++ functions

The C++ code reports ordinary failures through `Result<T, Error>`
(src/common/result.hpp:14-22), failed `BIT_MANIPULATION_ASSERT`s by throwing
`Assertion_Error` (src/common/assert.hpp:20-31), and has undefined behaviour on some
inputs.  The model keeps these three apart.
-/

namespace Bms

/-- What a call of a modelled C++ function can do.
* `ok a`: it returns the value `a`;
* `err e`: it returns a `Result` that holds the error `e`;
* `throws`: it throws (failed assertion, `ASSERT_UNREACHABLE`, or a standard library
  exception such as `std::out_of_range`);
* `ub`: its behaviour is undefined. -/
inductive Outcome (ε : Type) (α : Type) where
  | ok (a : α)
  | err (e : ε)
  | throws
  | ub
deriving DecidableEq, Repr

namespace Outcome

variable {ε α β : Type}

/-- Sequencing: `if (!r) return r.error();` followed by the rest; exceptions and
undefined behaviour propagate. -/
def bind (x : Outcome ε α) (f : α → Outcome ε β) : Outcome ε β :=
  match x with
  | ok a => f a
  | err e => err e
  | throws => throws
  | ub => ub

instance : Monad (Outcome ε) where
  pure := ok
  bind := bind

/-- Change the reported error (e.g. an `Analysis_Error_Code` reported to the caller as
`Evaluation_Error_Code::type_error`). -/
def mapErr {ε' : Type} (g : ε → ε') : Outcome ε α → Outcome ε' α
  | ok a => ok a
  | err e => err (g e)
  | throws => throws
  | ub => ub

/-- Change the returned value. -/
def map (g : α → β) : Outcome ε α → Outcome ε β
  | ok a => ok (g a)
  | err e => err e
  | throws => throws
  | ub => ub

@[simp] theorem ok_bind (a : α) (f : α → Outcome ε β) : (ok a >>= f) = f a := rfl
@[simp] theorem err_bind (e : ε) (f : α → Outcome ε β) : (err e >>= f) = err e := rfl
@[simp] theorem throws_bind (f : α → Outcome ε β) : ((throws : Outcome ε α) >>= f) = throws := rfl
@[simp] theorem ub_bind (f : α → Outcome ε β) : ((ub : Outcome ε α) >>= f) = ub := rfl
@[simp] theorem pure_eq (a : α) : (pure a : Outcome ε α) = ok a := rfl

theorem bind_eq_ok {x : Outcome ε α} {f : α → Outcome ε β} {b : β} :
    (x >>= f) = ok b ↔ ∃ a, x = ok a ∧ f a = ok b := by
  cases x <;> simp

@[simp] theorem map_ok (g : α → β) (a : α) : (ok a : Outcome ε α).map g = ok (g a) := rfl
@[simp] theorem map_err (g : α → β) (e : ε) : (err e : Outcome ε α).map g = err e := rfl
@[simp] theorem map_throws (g : α → β) : (throws : Outcome ε α).map g = throws := rfl
@[simp] theorem map_ub (g : α → β) : (ub : Outcome ε α).map g = ub := rfl

@[simp] theorem mapErr_ok {ε' : Type} (g : ε → ε') (a : α) :
    (ok a : Outcome ε α).mapErr g = ok a := rfl
@[simp] theorem mapErr_err {ε' : Type} (g : ε → ε') (e : ε) :
    (err e : Outcome ε α).mapErr g = err (g e) := rfl
@[simp] theorem mapErr_throws {ε' : Type} (g : ε → ε') :
    (throws : Outcome ε α).mapErr g = throws := rfl
@[simp] theorem mapErr_ub {ε' : Type} (g : ε → ε') :
    (ub : Outcome ε α).mapErr g = ub := rfl

/-- The call completed without an exception and without undefined behaviour. -/
def IsClean : Outcome ε α → Prop
  | ok _ => True
  | err _ => True
  | throws => False
  | ub => False

/-- Assertion: `BIT_MANIPULATION_ASSERT(b)` (src/common/assert.hpp:20-31). -/
def assert (b : Bool) : Outcome ε Unit := if b then ok () else throws

@[simp] theorem assert_true : (assert true : Outcome ε Unit) = ok () := rfl
@[simp] theorem assert_false : (assert false : Outcome ε Unit) = throws := rfl

end Outcome

end Bms
