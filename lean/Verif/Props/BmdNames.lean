import Verif.Lemmas.BmdNames
import Verif.Props.Bmd

/-!
# C61, C62: where directives may be written
-/

namespace Bms

open Bmd

/-- **C61: nesting.** In every document that the parser returns, every directive has the type that
belongs to its name, is where directives with this name may be, and has the kind of block that belongs to
it; text is only in parts of paragraphs, and paragraphs are only in the document and in notes. -/
theorem C61_nesting {source : List Char} {n : Nat} {root : Option Node} {s : St}
    (h : Bmd.parse n source = .ok root s) : NestedBlock .paragraphs root := by
  have hs := document_sane (C61_sound h).1
  match root with
  | none => exact trivial
  | some (.text ..) => simp [SaneRoot] at hs
  | some (.directive ..) => simp [SaneRoot] at hs
  | some (.list p len cs) => exact ⟨by decide, tops_nested cs hs⟩

/-- **C61: names.** A name is the name of the directive type with this written name, and of no other. -/
theorem C61_names (name : List Char) (type : DirType) :
    directiveTypeById name = .found type ↔ name = (writtenName type).toList := by
  constructor
  · intro h
    unfold directiveTypeById at h
    split at h
    · cases h
    · rename_i e he
      split at h
      · cases h
      · rename_i hn
        cases h
        have hm : ∀ l, lowerBound name l = some e → e ∈ l := by
          intro l
          induction l with
          | nil => intro h; cases h
          | cons x xs ih =>
            intro h
            unfold lowerBound at h
            split at h
            · exact List.mem_cons_of_mem _ (ih h)
            · cases h; exact List.mem_cons_self ..
        have h' : ∀ e ∈ directiveTable, e.1 = writtenName e.2 := by decide
        rw [← h' e (hm _ he)]
        exact (Decidable.not_not.mp hn).symm
  · rintro rfl
    cases type <;> decide

/-- **C62: what may be in a block.** In a block that is parsed, the parser lets a directive through if and
only if directives with this name may be there. -/
theorem C62_allowed (outer inner : DirType) (h : insideOf (writtenName outer) ≠ .unparsed) :
    contentAllows (contentTypeOf outer) (environmentOf inner) = true ↔
      writtenName inner ∈ namesWithin (writtenName outer) := by
  revert h
  cases outer <;> cases inner <;> decide

end Bms
