import Verif.Lemmas.DocHtmlSane
import Verif.Spec.BmdNames

/-!
# Parser of documents: where directives are
-/

namespace Bms.Bmd

open Spec

theorem sane_name {type : DirType} {name : List Char} {args : List (List Char × Value)}
    (h : SaneHead type name args) : name = (writtenName type).toList := by
  have h' : ∀ e ∈ directiveTable, e.1 = writtenName e.2 := by decide
  have := h' _ h.1
  simp only at this
  rw [← this, String.toList_ofList]

/-- The kind of block, from the content type. -/
def insideContent : ContentType → Inside
  | .nothing => .nothing
  | .text_span => .plain
  | .span => .inline
  | .block => .paragraphs
  | .meta_ => .properties
  | .list => .items
  | .raw => .unparsed

theorem insideContent_of (type : DirType) : insideContent (contentTypeOf type) = insideOf (writtenName type) := by
  cases type <;> decide

theorem name_inside (type : DirType) :
    (environmentOf type = .paragraph → writtenName type ∈ namesInside .inline) ∧
    (environmentOf type = .content → writtenName type ∈ namesInside .paragraphs) ∧
    (environmentOf type = .list → writtenName type ∈ namesInside .items) ∧
    (environmentOf type = .meta_ → writtenName type ∈ namesInside .properties) := by
  cases type <;> decide

mutual

theorem top_nested (n : Node) (h : SaneTop n) : Nested .paragraphs n := by
  cases n with
  | text p len s => simp [SaneTop] at h
  | list p len cs => exact ⟨rfl, h.1, nodes_nested .span (.inl rfl) cs h.2⟩
  | directive p len type name args block =>
    refine ⟨sane_name h.2.1, (name_inside type).2.1 h.1, ?_⟩
    rw [← insideContent_of]
    exact block_nested _ block h.2.2

theorem tops_nested (ns : List Node) (h : SaneTops ns) : NestedIn .paragraphs ns := by
  cases ns with
  | nil => exact trivial
  | cons n ns => exact ⟨top_nested n h.1, tops_nested ns h.2⟩

theorem node_nested (ctx : ContentType) (hc : ctx = .span ∨ ctx = .list ∨ ctx = .meta_) (n : Node)
    (h : SaneNode ctx n) : Nested (insideContent ctx) n := by
  cases n with
  | text p len s =>
    simp only [SaneNode] at h
    subst h; rfl
  | list p len cs => simp [SaneNode] at h
  | directive p len type name args block =>
    refine ⟨sane_name h.2.1, ?_, ?_⟩
    · have h1 := h.1
      have := name_inside type
      rcases hc with rfl | rfl | rfl
      · exact this.1 (by simpa using h1)
      · exact this.2.2.1 (by simpa using h1)
      · exact this.2.2.2 (by simpa using h1)
    · rw [← insideContent_of]
      exact block_nested _ block h.2.2

theorem nodes_nested (ctx : ContentType) (hc : ctx = .span ∨ ctx = .list ∨ ctx = .meta_) (ns : List Node)
    (h : SaneNodes ctx ns) : NestedIn (insideContent ctx) ns := by
  cases ns with
  | nil => exact trivial
  | cons n ns => exact ⟨node_nested ctx hc n h.1, nodes_nested ctx hc ns h.2⟩

theorem block_nested (ctx : ContentType) (b : Option Node) (h : SaneBlock ctx b) :
    NestedBlock (insideContent ctx) b := by
  match b with
  | none => exact trivial
  | some (.text ..) =>
    rcases h with rfl | rfl
    · exact .inr rfl
    · exact .inl rfl
  | some (.directive ..) => simp [SaneBlock, SaneInner] at h
  | some (.list p len cs) =>
    rcases h with ⟨hc, h⟩ | ⟨rfl, h⟩
    · have hc' : ctx = .span ∨ ctx = .list ∨ ctx = .meta_ := hc
      refine ⟨?_, nodes_nested ctx hc' cs h⟩
      rcases hc with rfl | rfl | rfl <;> decide
    · exact ⟨by decide, tops_nested cs h⟩

end

end Bms.Bmd
