import Verif.Lemmas.Layout
import Verif.Model.Compile

/-!
# The tree does not depend on the places of nodes
-/

namespace Bms.Build

open Parse (Kind Node Handle TypeType SameNode)

/-- The same nodes but for their places. -/
def SameNodes (ns ns' : List Node) : Prop :=
  ∀ h : Nat, (ns[h]? = none ∧ ns'[h]? = none) ∨
    ∃ p p' k cs, ns[h]? = some ⟨p, k, cs⟩ ∧ ns'[h]? = some ⟨p', k, cs⟩

theorem sameNodes_of {ns ns' : List Node} (h : List.Forall₂ SameNode ns ns') : SameNodes ns ns' := by
  induction h with
  | nil => exact fun h => .inl ⟨by simp, by simp⟩
  | @cons a b l l' hn _ ih =>
    intro i
    cases i with
    | zero =>
      obtain ⟨p, k, cs⟩ := a
      obtain ⟨p', k', cs'⟩ := b
      obtain ⟨h1, h2⟩ := hn
      simp only at h1 h2
      subst h1 h2
      exact .inr ⟨p, p', k, cs, by simp, by simp⟩
    | succ i => simpa using ih i

/-- Distinguish cases of the handles of the children until the patterns decide. -/
macro "places" : tactic => `(tactic|
  repeat' (first
    | rfl
    | (rename List Handle => cs; rcases cs with _ | ⟨_ | _, cs⟩)))

variable {ns ns' : List Node} (h : SameNodes ns ns')
include h

theorem typeWith_same (f : Nat → Outcome Unit AExpr) : typeWith ns f = typeWith ns' f := by
  funext i
  unfold typeWith
  rcases h i with ⟨h1, h2⟩ | ⟨p, p', k, cs, h1, h2⟩ <;> rw [h1, h2]
  clear h1 h2
  cases k <;> try rfl
  rename_i t
  cases t <;> places

theorem expr_same (n : Nat) : expr ns n = expr ns' n := by
  induction n with
  | zero => rfl
  | succ n ih =>
    funext i
    unfold expr
    rw [ih, typeWith_same h]
    rcases h i with ⟨h1, h2⟩ | ⟨p, p', k, cs, h1, h2⟩ <;> rw [h1, h2]
    clear h1 h2; cases k <;> places

theorem exprAt_same : exprAt ns = exprAt ns' := by
  funext i; unfold exprAt; rw [expr_same h]

theorem typeAt_same : typeAt ns = typeAt ns' := by
  funext i; unfold typeAt; rw [exprAt_same h, typeWith_same h]

theorem stmt_same (n : Nat) : stmt ns n = stmt ns' n := by
  induction n with
  | zero => rfl
  | succ n ih =>
    funext i
    unfold stmt
    rw [ih, typeAt_same h, exprAt_same h]
    rcases h i with ⟨h1, h2⟩ | ⟨p, p', k, cs, h1, h2⟩ <;> rw [h1, h2]
    clear h1 h2; cases k <;> places

theorem param_same : param ns = param ns' := by
  funext i
  unfold param
  rw [typeAt_same h]
  rcases h i with ⟨h1, h2⟩ | ⟨p, p', k, cs, h1, h2⟩ <;> rw [h1, h2]
  clear h1 h2; cases k <;> places

theorem params_same : params ns = params ns' := by
  funext i
  cases i with
  | none => rfl
  | some i =>
    unfold params
    simp only
    rw [param_same h]
    rcases h i with ⟨h1, h2⟩ | ⟨p, p', k, cs, h1, h2⟩ <;> rw [h1, h2]
    clear h1 h2; cases k <;> places

theorem function_same : function ns = function ns' := by
  funext i
  unfold function
  rw [typeAt_same h, exprAt_same h, params_same h]
  simp only [stmt_same h]
  rcases h i with ⟨h1, h2⟩ | ⟨p, p', k, cs, h1, h2⟩ <;> rw [h1, h2]
  clear h1 h2
  cases k <;> places
  all_goals
    rename_i body
    dsimp only
    rcases h body with ⟨h1, h2⟩ | ⟨p, p', k, cs, h1, h2⟩ <;> rw [h1, h2]
    cases k <;> rfl

theorem decl_same : decl ns = decl ns' := by
  funext i
  unfold decl
  rw [function_same h, typeAt_same h, exprAt_same h]
  rcases h i with ⟨h1, h2⟩ | ⟨p, p', k, cs, h1, h2⟩ <;> rw [h1, h2]
  clear h1 h2; cases k <;> places

theorem program_same : program ns = program ns' := by
  funext i
  unfold program
  rw [decl_same h]
  rcases h i with ⟨h1, h2⟩ | ⟨p, p', k, cs, h1, h2⟩ <;> rw [h1, h2]
  clear h1 h2; cases k <;> places

end Bms.Build
