import Verif.Spec.Build
import Verif.Spec.Grammar
import Verif.Spec.Generate

/-!
# Bodies of programs that are made from texts are blocks
-/

namespace Bms

open Spec Parse

namespace Gen

/-- Symbols that stand for one tree or for none. -/
def single : Sym → Bool
  | .optArguments | .arguments | .annotations | .annotation | .annotationArguments | .annotationArgument
  | .parameters | .parameter | .statements | .declarations => false
  | _ => true

theorem single_length {lenient : Bool} {sym : Sym} {w : List Terminal} {ts : List (Option Tree)}
    (h : Derives lenient sym w ts) : single sym = true → ts.length = 1 := by
  induction h <;> simp_all [single]

/-- What the body of a node may be. -/
def BodyIs : Kind → List (Option Tree) → Prop
  | .if_statement, cs => ∃ a c b e, cs = [a, c, some (.node .block_statement b), e] ∧
      (e = none ∨ (∃ x, e = some (.node .if_statement x)) ∨ ∃ x, e = some (.node .block_statement x))
  | .while_statement, cs => ∃ a c b, cs = [a, c, some (.node .block_statement b)]
  | _, _ => True

mutual

/-- The bodies of all nodes are blocks. -/
def TreeBlocks : Tree → Prop
  | .node k cs => BodyIs k cs ∧ TreeBlocksAll cs

def TreeBlocksAll : List (Option Tree) → Prop
  | [] => True
  | none :: ts => TreeBlocksAll ts
  | some t :: ts => TreeBlocks t ∧ TreeBlocksAll ts

end

theorem treeBlocksAll_append : ∀ {l r : List (Option Tree)},
    TreeBlocksAll (l ++ r) ↔ TreeBlocksAll l ∧ TreeBlocksAll r
  | [], _ => by simp [TreeBlocksAll]
  | none :: l, r => by simp [TreeBlocksAll, treeBlocksAll_append (l := l)]
  | some t :: l, r => by simp [TreeBlocksAll, treeBlocksAll_append (l := l), and_assoc]

theorem treeBlocksAll_mem : ∀ {l : List (Option Tree)} {t : Tree}, TreeBlocksAll l → some t ∈ l → TreeBlocks t
  | [], _, _, h => by cases h
  | none :: l, t, hl, h => treeBlocksAll_mem (l := l) hl (by simpa using h)
  | some u :: l, t, hl, h => by
    rcases List.mem_cons.1 h with h | h
    · cases h; exact hl.1
    · exact treeBlocksAll_mem hl.2 h

/-- What is made of the symbols for bodies. -/
def BodyMade : Sym → List (Option Tree) → Prop
  | .block, ts => ∃ b, ts = [some (.node .block_statement b)]
  | .if_, ts => ∃ cs, ts = [some (.node .if_statement cs)]
  | .optElse, ts => ∃ e, ts = [e] ∧
      (e = none ∨ (∃ x, e = some (.node .if_statement x)) ∨ ∃ x, e = some (.node .block_statement x))
  | _, _ => True

theorem blocks_made {lenient : Bool} {sym : Sym} {w : List Terminal} {ts : List (Option Tree)}
    (h : Derives lenient sym w ts) : TreeBlocksAll ts ∧ BodyMade sym ts := by
  induction h with
  | if_ ha hc _ _ iha ihc ihb ihe =>
    obtain ⟨a, rfl⟩ := List.length_eq_one_iff.1 (single_length ha rfl)
    obtain ⟨c, rfl⟩ := List.length_eq_one_iff.1 (single_length hc rfl)
    obtain ⟨hb, b, rfl⟩ := ihb
    obtain ⟨he, e, rfl, h⟩ := ihe
    refine ⟨⟨⟨⟨a, c, b, e, rfl, h⟩, ?_⟩, trivial⟩, _, rfl⟩
    simp only [treeBlocksAll_append]
    exact ⟨⟨⟨iha.1, ihc.1⟩, hb⟩, he⟩
  | while_ ha hc _ iha ihc ihb =>
    obtain ⟨a, rfl⟩ := List.length_eq_one_iff.1 (single_length ha rfl)
    obtain ⟨c, rfl⟩ := List.length_eq_one_iff.1 (single_length hc rfl)
    obtain ⟨hb, b, rfl⟩ := ihb
    refine ⟨⟨⟨⟨a, c, b, rfl⟩, ?_⟩, trivial⟩, trivial⟩
    simp only [treeBlocksAll_append]
    exact ⟨⟨iha.1, ihc.1⟩, hb⟩
  | elseIf _ ih =>
    obtain ⟨h1, x, rfl⟩ := ih
    exact ⟨h1, _, rfl, .inr (.inl ⟨x, rfl⟩)⟩
  | elseBlock _ ih =>
    obtain ⟨h1, x, rfl⟩ := ih
    exact ⟨h1, _, rfl, .inr (.inr ⟨x, rfl⟩)⟩
  | noElse => exact ⟨trivial, none, rfl, .inl rfl⟩
  | block _ ih => exact ⟨⟨⟨trivial, ih.1⟩, trivial⟩, _, rfl⟩
  | _ => simp_all [TreeBlocksAll, TreeBlocks, BodyIs, BodyMade, treeBlocksAll_append]

theorem isBlock_of {t : List (Option Tree)} {s : AStmt} (h : StmtIs (.node .block_statement t) s) : IsBlock s := by
  cases h with
  | block _ => trivial

theorem isIf_of {t : List (Option Tree)} {s : AStmt} (h : StmtIs (.node .if_statement t) s) : IsIf s := by
  cases h <;> trivial

mutual

theorem blocksS_of : {t : Tree} → {s : AStmt} → StmtIs t s → TreeBlocks t → BlocksS s
  | _, _, .const_ _ _, _ | _, _, .let_ _ _, _ | _, _, .staticAssert _, _ | _, _, .break_, _
  | _, _, .continue_, _ | _, _, .return_ _, _ | _, _, .assign _, _ | _, _, .call _, _ => by simp [BlocksS]
  | _, _, .ifThen _ h, hb => by
    simp only [TreeBlocks, BodyIs] at hb
    obtain ⟨⟨a, c, b, e, h1, -⟩, hb⟩ := hb
    have h2 := blocksS_of h
    simp only [List.cons.injEq, Option.some.injEq] at h1
    obtain ⟨-, -, rfl, -⟩ := h1
    refine ⟨isBlock_of h, h2 ?_⟩
    exact treeBlocksAll_mem hb (by simp)
  | _, _, .ifElse _ h h', hb => by
    simp only [TreeBlocks, BodyIs] at hb
    obtain ⟨⟨a, c, b, e, h1, he⟩, hb⟩ := hb
    have h2 := blocksS_of h
    have h2' := blocksS_of h'
    simp only [List.cons.injEq, Option.some.injEq] at h1
    obtain ⟨-, -, rfl, rfl, -⟩ := h1
    refine ⟨isBlock_of h, h2 ?_, ?_, h2' ?_⟩
    · exact treeBlocksAll_mem hb (by simp)
    · rcases he with he | ⟨x, he⟩ | ⟨x, he⟩
      · cases he
      · cases he; exact .inl (isIf_of h')
      · cases he; exact .inr (isBlock_of h')
    · exact treeBlocksAll_mem hb (by simp)
  | _, _, .while_ _ h, hb => by
    simp only [TreeBlocks, BodyIs] at hb
    obtain ⟨⟨a, c, b, h1⟩, hb⟩ := hb
    have h2 := blocksS_of h
    simp only [List.cons.injEq, Option.some.injEq] at h1
    obtain ⟨-, -, rfl, -⟩ := h1
    refine ⟨isBlock_of h, h2 ?_⟩
    exact treeBlocksAll_mem hb (by simp)
  | _, _, .block h, hb => blocksSs_of h hb.2

theorem blocksSs_of : {t : List (Option Tree)} → {s : List AStmt} → StmtsIs t s → TreeBlocksAll t → BlocksSs s
  | _, _, .nil, _ => trivial
  | _, _, .cons h h', hb => ⟨blocksS_of h hb.1, blocksSs_of h' hb.2⟩

end

theorem blocksDs_of : {t : List (Option Tree)} → {ds : List ADecl} → DeclsIs t ds → TreeBlocksAll t →
    ∀ d ∈ ds, BlocksD d
  | _, _, .nil, _ => by simp
  | _, _, .cons h h', hb => by
    have h2 := blocksDs_of h' hb.2
    intro d hd
    rcases List.mem_cons.1 hd with rfl | hd
    · cases h with
      | const_ _ _ => trivial
      | staticAssert _ => trivial
      | function hf =>
        cases hf with
        | mk h1 h2 h3 h4 =>
          have := hb.1.2
          refine blocksSs_of h4 ?_
          exact (treeBlocksAll_mem this (t := .node .block_statement _) (by simp)).2
    · exact h2 d hd

/-- The bodies of a program that is made from a text are blocks. -/
theorem blocks_of_text {w : List Terminal} {t : Tree} {ds : List ADecl} (h : Derives true .program w [some t])
    (hp : ProgramIs t ds) : ∀ d ∈ ds, BlocksD d := by
  have := (blocks_made h).1.1
  cases hp with
  | mk hd => exact blocksDs_of hd this.2

end Gen

end Bms
