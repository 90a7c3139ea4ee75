import Verif.Spec.DocDump
import Verif.Lemmas.DocSpans
import Verif.Lemmas.DocHtmlGoes
import Verif.Props.Bmd
import Verif.Props.Dump

/-!
# C61: nodes of documents lie in each other; C79: what is shown of documents
-/

namespace Bms

open Spec Diag Output

/-- **C61: spans.** Every node of a parsed document, and every value of an argument, is in the text of the
node that it belongs to, and the document is in the source. -/
theorem C61_spans {source : List Char} {n : Nat} {root : Option Bmd.Node} {s : Bmd.St}
    (h : Bmd.parse n source = .ok root s) : Bmd.CoversBlock 0 source.length root :=
  Bmd.document_covers (C61_sound h).1

namespace Bmd

theorem cutOff_cut (m : Nat) (colors : Bool) (text : List Char) :
    CutOff m text (seen (Dump.printCutOff m colors 0 text)) := (C79_cut m colors text).2

theorem extract_ok {source : List Char} {p : Position} {len : Nat} (h1 : p.start < source.length)
    (h2 : p.start + len ≤ source.length) :
    Dump.extractSpan source p len = .ok (textBetween source p.start (p.start + len)) := by
  unfold Dump.extractSpan textBetween
  rw [if_pos ⟨h1, h2⟩, Nat.add_sub_cancel_left]

theorem arguments_shown {source indent : List Char} {args : List (List Char × Value)}
    (h : ∀ a ∈ args, ValueIn 0 source.length a.2) :
    ∃ out, Dump.printArguments source indent args = .ok out ∧
      seen out = args.flatMap (argumentLine source indent) := by
  induction args with
  | nil => exact ⟨[], rfl, rfl⟩
  | cons a args ih =>
    obtain ⟨key, v⟩ := a
    obtain ⟨rest, h1, h2⟩ := ih fun a ha => h a (List.mem_cons_of_mem _ ha)
    have hv := h (key, v) (List.mem_cons_self ..)
    have hx : Dump.extractSpan source (Dump.valueSpan v).1 (Dump.valueSpan v).2 =
        .ok (textBetween source v.start v.stop) := by
      obtain ⟨-, ha, hb⟩ := hv
      cases v <;> exact extract_ok (Nat.lt_of_lt_of_le ha hb) hb
    refine ⟨_, by unfold Dump.printArguments; rw [hx, h1]; rfl, ?_⟩
    rw [seen_append, h2, List.flatMap_cons]
    congr 1
    simp [seen, lit, argumentLine, ansiHBlue, ansiReset]

theorem line_shown {source indent : List Char} {name : Out} {shownName : List Char} {p : Position} {len m : Nat}
    {colors : Bool} (hn : seen name = shownName) (h1 : p.start < source.length)
    (h2 : p.start + len ≤ source.length) :
    ∃ out shown, Dump.printLine source indent name p len m colors = .ok out ∧
      CutOff m (textBetween source p.start (p.start + len)) shown ∧
      seen out = indent ++ shownName ++ '(' :: shown ++ ")\n".toList := by
  refine ⟨_, _, by unfold Dump.printLine; rw [extract_ok h1 h2]; rfl, cutOff_cut m colors _, ?_⟩
  rw [← hn]
  simp [seen, seen_append, lit, ansiHBlack, ansiReset]

theorem docLines_append {source : List Char} {width m : Nat} {a b : List DocItem} {s t : List Char}
    (h1 : DocLines source width m a s) (h2 : DocLines source width m b t) :
    DocLines source width m (a ++ b) (s ++ t) := by
  induction h1 with
  | nil => exact h2
  | cons h _ ih => rw [List.append_assoc, List.cons_append]; exact .cons h ih

mutual

theorem node_shown {order} (hw : Walk order) {source : List Char} {width m : Nat} {colors : Bool} {lo hi : Nat}
    (hhi : hi ≤ source.length) (level : Nat) : (n : Node) → Covers lo hi n →
    ∃ out, Dump.printDocNode order source width m colors level n = .ok out ∧
      DocLines source width m (docItems level n) (seen out)
  | .list p len children, h => by
    unfold Covers at h
    obtain ⟨o1, shown, h1, h2, h3⟩ := line_shown (source := source)
      (indent := List.replicate (width * level) ' ') (name := [ansiHMagenta, lit "List"]) (p := p) (len := len) (m := m)
      (colors := colors) rfl (by omega) (by omega)
    obtain ⟨o2, h4, h5⟩ := nodes_shown hw (source := source) (width := width) (m := m) (colors := colors)
      (by omega) (level + 1) children h.2.2.2
    refine ⟨o1 ++ o2, by unfold Dump.printDocNode; rw [h1, h4]; rfl, ?_⟩
    rw [seen_append, h3]
    unfold docItems
    refine .cons ?_ h5
    have := DocLine.node (source := source) (width := width) (max := m) (level := level)
      (n := .list p len children) (shown := shown) (args := []) h2 (List.Perm.refl _)
    rw [List.flatMap_nil, List.append_nil] at this
    exact this
  | .directive p len type name args block, h => by
    unfold Covers at h
    obtain ⟨o1, shown, h1, h2, h3⟩ := line_shown (source := source)
      (indent := List.replicate (width * level) ' ') (name := [ansiHGreen, lit "\\", .text name])
      (shownName := '\\' :: name) (p := p) (len := len) (m := m)
      (colors := colors) (by simp [seen, lit, ansiHGreen]) (by omega) (by omega)
    have hp := hw args
    obtain ⟨o3, h6, h7⟩ := arguments_shown (source := source) (indent := List.replicate (width * level) ' ')
      (args := order args) fun a ha => valueIn_mono (h.2.2.2.1 a (hp.mem_iff.1 ha)) (Nat.zero_le _) (by omega)
    obtain ⟨o2, h4, h5⟩ := block_shown hw (source := source) (width := width) (m := m) (colors := colors)
      (by omega) (level + 1) block h.2.2.2.2
    refine ⟨o1 ++ o3 ++ o2, by unfold Dump.printDocNode; rw [h1, h4, h6]; rfl, ?_⟩
    rw [seen_append, seen_append, h3, h7]
    unfold docItems
    refine .cons ?_ h5
    exact DocLine.node (source := source) (width := width) (max := m) (level := level)
      (n := .directive p len type name args block) (shown := shown) (args := order args) h2 hp
  | .text p len chars, h => by
    unfold Covers at h
    obtain ⟨o1, shown, h1, h2, h3⟩ := line_shown (source := source)
      (indent := List.replicate (width * level) ' ') (name := [ansiHMagenta, lit "Text"]) (p := p) (len := len) (m := m)
      (colors := colors) rfl (by omega) (by omega)
    refine ⟨o1, by unfold Dump.printDocNode; exact h1, ?_⟩
    unfold docItems
    have := DocLine.node (source := source) (width := width) (max := m) (level := level)
      (n := .text p len chars) (shown := shown) (args := []) h2 (List.Perm.refl _)
    rw [List.flatMap_nil, List.append_nil] at this
    have := DocLines.cons this .nil
    rw [List.append_nil] at this
    rw [h3]
    exact this

theorem nodes_shown {order} (hw : Walk order) {source : List Char} {width m : Nat} {colors : Bool} {lo hi : Nat}
    (hhi : hi ≤ source.length) (level : Nat) : (ns : List Node) → CoversAll lo hi ns →
    ∃ out, Dump.printDocNodes order source width m colors level ns = .ok out ∧
      DocLines source width m (docItemsAll level ns) (seen out)
  | [], _ => ⟨[], by unfold Dump.printDocNodes; rfl, .nil⟩
  | n :: ns, h => by
    obtain ⟨o1, h1, h2⟩ := node_shown hw (width := width) (m := m) (colors := colors) hhi level n h.1
    obtain ⟨o2, h3, h4⟩ := nodes_shown hw (width := width) (m := m) (colors := colors) hhi level ns h.2
    refine ⟨o1 ++ o2, by unfold Dump.printDocNodes; rw [h1, h3]; rfl, ?_⟩
    rw [seen_append]
    exact docLines_append h2 h4

theorem block_shown {order} (hw : Walk order) {source : List Char} {width m : Nat} {colors : Bool} {lo hi : Nat}
    (hhi : hi ≤ source.length) (level : Nat) : (b : Option Node) → CoversBlock lo hi b →
    ∃ out, Dump.printDocBlock order source width m colors level b = .ok out ∧
      DocLines source width m (docItemsBlock level b) (seen out)
  | none, _ => by
    refine ⟨_, rfl, ?_⟩
    have := DocLines.cons (DocLine.null (source := source) (width := width) (max := m) (level := level)) .nil
    simpa [seen, lit, docItemsBlock] using this
  | some n, h => by
    obtain ⟨o, h1, h2⟩ := node_shown hw (width := width) (m := m) (colors := colors) hhi level n h
    exact ⟨o, by unfold Dump.printDocBlock; exact h1, h2⟩

end

end Bmd

/-- **C79: documents.** Every parsed document is shown, in whichever order arguments are walked through: all
nodes, outer ones first and in the order of the text, each in a line with its name and the text that it covers,
with its arguments, and with `null` where there is no block. -/
theorem C79_document {order : List (List Char × Bmd.Value) → List (List Char × Bmd.Value)} (hw : Bmd.Walk order)
    {source : List Char} {n : Nat} {root : Option Bmd.Node} {s : Bmd.St} (h : Bmd.parse n source = .ok root s)
    (width m : Nat) (colors : Bool) :
    ∃ out, Dump.printDocument order source root width m colors = .ok out ∧
      Bmd.DocLines source width m (Bmd.docItemsBlock 0 root) (seen out) :=
  Bmd.block_shown hw (Nat.le_refl _) 0 root (C61_spans h)

/-- A document with arguments, an empty block, and a directive without a block. -/
theorem C79_document_arguments_sample : (shownForDocument "\\note[a=x, b=0x1]{ } \\c".toList).map String.ofList =
    some ("List(\\note[a=x, b=0x1]{ } \\c)\n  \\note(\\note[a=x, b=0x1]{ })\n  a: x\n  b: 0x1\n    List()\n" ++
      "  List(\\note[a=x, b=0x1]{ } \\c)\n    \\c(\\c)\n      null\n") := by
  decide +kernel

end Bms
