import Verif.Lemmas.DocHtmlDepth
import Verif.Lemmas.DocHtmlTidy

/-!
# Conversion of documents: directives that are not supported
-/

namespace Bms.Bmd

open Spec

theorem directive_supported {start : Bool} {p : Position} {type : DirType} {args : List (List Char × Value)}
    {block : Option Node} {inner : List Fault} (h : directiveFaults start p type args block inner = []) :
    Supported type block ∧ (isPassthrough type = true → inner = []) := by
  cases type <;> simp [directiveFaults] at h <;> simp [Supported, isPassthrough]
  case code => exact h.2
  case instruction => exact h.2.1
  case ordered_list => exact h.2
  case unordered_list => exact h.2
  all_goals exact h

/-- In text there are no directives, and in meta blocks none that are not supported. -/
theorem rest_supported {type : DirType} {block : Option Node} (hp : isPassthrough type = false)
    (hs : SaneBlock (contentTypeOf type) block) (hu : Supported type block) :
    EverywhereBlock (fun t _ b => Supported t b) block := by
  have meta_ : ∀ cs, SaneNodes .meta_ cs → EverywhereIn (fun t _ b => Supported t b) cs := by
    intro cs
    induction cs with
    | nil => intro _; exact trivial
    | cons n cs ih =>
      rintro ⟨h1, h2⟩
      refine ⟨?_, ih h2⟩
      cases n with
      | list p len cs => simp [SaneNode] at h1
      | text p len s => simp [SaneNode] at h1
      | directive p len ty name args bl =>
        obtain ⟨e1, -, e3⟩ := h1
        have ht : ty = .title ∨ ty = .bms_function ∨ ty = .c_equivalent := by
          cases ty <;> simp [environmentOf] at e1 <;> simp
        have hc : contentTypeOf ty = .text_span := by rcases ht with rfl | rfl | rfl <;> rfl
        rw [hc] at e3
        refine ⟨by rcases ht with rfl | rfl | rfl <;> simp [Supported], ?_⟩
        match bl with
        | none => exact trivial
        | some (.text ..) => exact trivial
        | some (.list ..) => simp [SaneBlock, SaneInner] at e3
        | some (.directive ..) => simp [SaneBlock, SaneInner] at e3
  match block with
  | none => exact trivial
  | some (.text ..) => exact trivial
  | some (.directive ..) => simp [SaneBlock, SaneInner] at hs
  | some (.list p len cs) =>
    cases type <;> simp [isPassthrough] at hp <;> simp [SaneBlock, SaneInner, contentTypeOf] at hs <;>
      simp [Supported] at hu
    exact meta_ cs hs

mutual

theorem children_supported {ctx : ContentType} (ns : List Node) (hs : SaneNodes ctx ns)
    (h : childFaults ns = []) : EverywhereIn (fun t _ b => Supported t b) ns := by
  cases ns with
  | nil => exact trivial
  | cons n ns =>
    unfold childFaults at h
    simp only [List.append_eq_nil_iff] at h
    refine ⟨?_, children_supported ns hs.2 h.2⟩
    have hn := hs.1
    cases n with
    | list p len cs => simp [SaneNode] at hn
    | text p len s => exact trivial
    | directive p len type name args block =>
      obtain ⟨h1, h2⟩ := directive_supported h.1.1
      refine ⟨h1, ?_⟩
      cases hp : isPassthrough type with
      | true =>
        refine block_supported block hn.2.2 (h2 hp) ?_
        cases type <;> simp [isPassthrough] at hp <;> simp [contentTypeOf]
      | false => exact rest_supported hp hn.2.2 h1

theorem block_supported {ctx : ContentType} (block : Option Node) (hs : SaneBlock ctx block)
    (h : blockFaults block = []) (hc : ctx ≠ .block) :
    EverywhereBlock (fun t _ b => Supported t b) block := by
  match block with
  | none => exact trivial
  | some (.text ..) => exact trivial
  | some (.directive ..) => simp [SaneBlock, SaneInner] at hs
  | some (.list p len cs) =>
    rcases hs with ⟨-, hs⟩ | ⟨hs, -⟩
    · exact children_supported cs hs h
    · exact absurd hs hc

end

theorem root_supported {root : Option Node} (hs : SaneRoot root) (h : rootFaults root = []) :
    EverywhereBlock (fun t _ b => Supported t b) root := by
  match root with
  | none => exact trivial
  | some (.text ..) => exact trivial
  | some (.directive ..) => simp [SaneRoot] at hs
  | some (.list p len cs) =>
    change EverywhereIn _ cs
    change contentFaults true cs = [] at h
    change SaneTops cs at hs
    generalize true = start at h
    induction cs generalizing start with
    | nil => exact trivial
    | cons n cs ih =>
      unfold contentFaults at h
      simp only [List.append_eq_nil_iff] at h
      refine ⟨?_, ih hs.2 _ h.2⟩
      have hn := hs.1
      cases n with
      | text p len s => exact trivial
      | list p len cs => exact children_supported cs hn.2 h.1
      | directive p len type name args block =>
        obtain ⟨h1, h2⟩ := directive_supported h.1
        refine ⟨h1, ?_⟩
        cases hp : isPassthrough type with
        | true =>
          refine block_supported block hn.2.2 (h2 hp) ?_
          cases type <;> simp [isPassthrough] at hp <;> simp [contentTypeOf]
        | false => exact rest_supported hp hn.2.2 h1

mutual

theorem Everywhere.imp {P Q : DirType → List (List Char × Value) → Option Node → Prop}
    (h : ∀ t a b, P t a b → Q t a b) (n : Node) (hn : Everywhere P n) : Everywhere Q n := by
  cases n with
  | list p len cs => exact EverywhereIn.imp h cs hn
  | text p len s => exact trivial
  | directive p len type name args block => exact ⟨h _ _ _ hn.1, EverywhereBlock.imp h block hn.2⟩

theorem EverywhereIn.imp {P Q : DirType → List (List Char × Value) → Option Node → Prop}
    (h : ∀ t a b, P t a b → Q t a b) (ns : List Node) (hn : EverywhereIn P ns) : EverywhereIn Q ns := by
  cases ns with
  | nil => exact trivial
  | cons n ns => exact ⟨Everywhere.imp h n hn.1, EverywhereIn.imp h ns hn.2⟩

theorem EverywhereBlock.imp {P Q : DirType → List (List Char × Value) → Option Node → Prop}
    (h : ∀ t a b, P t a b → Q t a b) (b : Option Node) (hn : EverywhereBlock P b) :
    EverywhereBlock Q b := by
  match b with
  | none => exact trivial
  | some n => exact Everywhere.imp h n hn

end

mutual

theorem Everywhere.and {P Q : DirType → List (List Char × Value) → Option Node → Prop} (n : Node)
    (hp : Everywhere P n) (hq : Everywhere Q n) : Everywhere (fun t a b => P t a b ∧ Q t a b) n := by
  cases n with
  | list p len cs => exact EverywhereIn.and cs hp hq
  | text p len s => exact trivial
  | directive p len type name args block => exact ⟨⟨hp.1, hq.1⟩, EverywhereBlock.and block hp.2 hq.2⟩

theorem EverywhereIn.and {P Q : DirType → List (List Char × Value) → Option Node → Prop} (ns : List Node)
    (hp : EverywhereIn P ns) (hq : EverywhereIn Q ns) : EverywhereIn (fun t a b => P t a b ∧ Q t a b) ns := by
  cases ns with
  | nil => exact trivial
  | cons n ns => exact ⟨Everywhere.and n hp.1 hq.1, EverywhereIn.and ns hp.2 hq.2⟩

theorem EverywhereBlock.and {P Q : DirType → List (List Char × Value) → Option Node → Prop} (b : Option Node)
    (hp : EverywhereBlock P b) (hq : EverywhereBlock Q b) :
    EverywhereBlock (fun t a b => P t a b ∧ Q t a b) b := by
  match b with
  | none => exact trivial
  | some n => exact Everywhere.and n hp hq

end

end Bms.Bmd
