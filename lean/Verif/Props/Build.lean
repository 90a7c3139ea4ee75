import Verif.Lemmas.BuildThrows
import Verif.Model.Compile
import Verif.Props.ParseNodes
import Verif.Props.AnalysisCases

/-!
# Property C60: the tree that analysis works on is the program that was written
-/

namespace Bms

open Spec Parse

/-! ## What the tree stands for has not been analyzed -/

mutual

theorem Spec.ExprIs.raw {t : Tree} {e : AExpr} (h : ExprIs t e) : RawE e := by
  cases h with
  | literal _ => simp [RawE]
  | id => simp [RawE]
  | conversion h1 h2 => exact ⟨rfl, h1.raw, h2.raw⟩
  | ite h1 h2 h3 => exact ⟨rfl, h1.raw, h2.raw, h3.raw⟩
  | binary _ h1 h2 => exact ⟨rfl, h1.raw, h2.raw⟩
  | pre _ h1 => exact ⟨rfl, h1.raw⟩
  | call h1 => exact ⟨rfl, rfl, h1.raw⟩

theorem Spec.TypeIs.raw {t : Tree} {ty : AType} (h : TypeIs t ty) : RawT ty := by
  cases h with
  | void => simp [RawT]
  | bool => simp [RawT]
  | int => simp [RawT]
  | uint h1 => exact ⟨rfl, rfl, h1.raw⟩

theorem Spec.ExprsIs.raw {ts : List (Option Tree)} {es : List AExpr} (h : ExprsIs ts es) : RawEs es := by
  cases h with
  | nil => simp [RawEs]
  | cons h1 h2 => exact ⟨h1.raw, h2.raw⟩

end

theorem Spec.OptIs.all {α : Type} {S : Tree → α → Prop} {R : α → Prop} {o : Option Tree} {x : Option α}
    (h : OptIs S o x) (hi : ∀ t y, S t y → R y) : ∀ y ∈ x, R y := by
  cases h with
  | none => rintro y ⟨⟩
  | some h => rintro y ⟨⟩; exact hi _ _ h

mutual

theorem Spec.StmtIs.raw {t : Tree} {s : AStmt} (h : StmtIs t s) : RawS s := by
  cases h with
  | const_ h1 h2 => exact ⟨rfl, h1.all fun _ _ => Spec.TypeIs.raw, h2.raw⟩
  | let_ h1 h2 => exact ⟨rfl, h1.all fun _ _ => Spec.TypeIs.raw, h2.all fun _ _ => Spec.ExprIs.raw⟩
  | staticAssert h1 => exact ⟨rfl, h1.raw⟩
  | ifThen h1 h2 => exact ⟨rfl, h1.raw, h2.raw⟩
  | ifElse h1 h2 h3 => exact ⟨rfl, h1.raw, h2.raw, h3.raw⟩
  | while_ h1 h2 => exact ⟨rfl, h1.raw, h2.raw⟩
  | break_ => simp [RawS]
  | continue_ => simp [RawS]
  | return_ h1 => exact ⟨rfl, fun h => absurd rfl h, h1.all fun _ _ => Spec.ExprIs.raw⟩
  | assign h1 => exact ⟨rfl, h1.raw⟩
  | block h1 => exact ⟨rfl, h1.raw⟩
  | call h1 => exact ⟨rfl, rfl, h1.raw⟩

theorem Spec.StmtsIs.raw {ts : List (Option Tree)} {ss : List AStmt} (h : StmtsIs ts ss) : RawSs ss := by
  cases h with
  | nil => simp [RawSs]
  | cons h1 h2 => exact ⟨h1.raw, h2.raw⟩

end

theorem Spec.ParamsIs.raw {ts : List (Option Tree)} {ps : List AParam} (h : ParamsIs ts ps) :
    ∀ p ∈ ps, RawT p.type := by
  induction h with
  | nil => simp
  | cons h1 _ ih =>
    intro p hp
    rcases List.mem_cons.mp hp with rfl | hp
    · exact h1.raw
    · exact ih p hp

/-- There are no calls in the types of parameters and results. -/
def Spec.PlainSignatures (ds : List ADecl) : Prop :=
  ∀ f, .function f ∈ ds → (∀ p ∈ f.params, CallFreeT p.type) ∧ CallFreeT f.ret

theorem Spec.DeclIs.raw {t : Tree} {d : ADecl} (h : DeclIs t d)
    (hp : ∀ f, d = .function f → (∀ p ∈ f.params, CallFreeT p.type) ∧ CallFreeT f.ret) : RawD d := by
  cases h with
  | const_ h1 h2 => exact ⟨rfl, h1.all fun _ _ => Spec.TypeIs.raw, h2.raw⟩
  | staticAssert h1 => exact ⟨rfl, h1.raw⟩
  | function h =>
    obtain ⟨c1, c2⟩ := hp _ rfl
    cases h with
    | mk h1 h2 h3 h4 =>
      refine ⟨fun p hpm => ⟨?_, c1 p hpm⟩, ⟨h2.raw, c2⟩, h3.all fun _ _ => Spec.ExprIs.raw, h4.raw, rfl, rfl, rfl⟩
      cases h1 with
      | none => simp at hpm
      | some h1 => exact h1.raw p hpm

theorem Spec.DeclsIs.mem {ts : List (Option Tree)} {ds : List ADecl} (h : DeclsIs ts ds) :
    ∀ d ∈ ds, ∃ t, DeclIs t d := by
  induction h with
  | nil => simp
  | cons h1 _ ih =>
    intro d hd
    rcases List.mem_cons.mp hd with rfl | hd
    · exact ⟨_, h1⟩
    · exact ih d hd

/-! ## C60 -/

/-- The nodes of a parsed program are tidy. -/
theorem parse_tidy {src : List Char} {ts : List Token} {nodes : List Node} {root : Nat}
    (h : parse src ts = .ok nodes root) : Build.Tidy nodes := by
  obtain ⟨-, h1, h2⟩ := C52_tree h
  refine ⟨h2, fun i => ?_⟩
  by_cases hi : i < nodes.length
  · rw [h1 i hi]
    split <;> omega
  · have : some i ∉ nodes.flatMap (·.children) := by
      intro hm
      obtain ⟨n, hn, hc⟩ := List.mem_flatMap.mp hm
      obtain ⟨j, hj⟩ := List.mem_iff_getElem?.mp hn
      have := h2 j n hj i hc
      have := (List.getElem?_eq_some_iff.mp hj).1
      omega
    rw [List.count_eq_zero.mpr this]
    omega

/-- **C60** (partial: for programs without the operator `>=`, see `C60_violation`). The tree that is made
from a parsed program stands for a syntax tree that the grammar gives to the text: nothing is left out,
added or put in a different order. All of its nodes are different, and none has been analyzed; so
analysis starts from a `RawProgram`, if no function is called in a parameter type or result type. -/
theorem C60_tree_partial {src : List Char} {ts : List Token} {nodes : List Node} {root : Nat}
    (h : parse src ts = .ok nodes root) (hg : ∀ t ∈ ts, t.type ≠ .greater_or_equal) :
    ∃ t ds, Derives true .program (lexemes src ts) [some t] ∧ Reads nodes root t ∧
      Build.program nodes root = .ok ds ∧ ProgramIs t ds ∧ (ds.flatMap nodeKeys).Nodup ∧
      (PlainSignatures ds → RawProgram ds (nodes.length + 1)) := by
  obtain ⟨t, h1, h2, -⟩ := C42_sound_partial h
  have hm := Build.made h1 fun x hx => by
    simp only [lexemes, List.mem_map, List.mem_filter] at hx
    obtain ⟨k, ⟨hk, -⟩, rfl⟩ := hx
    exact hg k hk
  obtain ⟨t', e, cs, rfl, hd⟩ := hm
  cases e
  obtain ⟨ds, h3, h4, h5⟩ := Build.program_ok hd h2
  have hT := parse_tidy h
  have hk := h5 hT
  refine ⟨_, ds, h1, h2, h3, h4, hk.1, fun hp => ⟨fun d hd => ?_, hk.1, fun x hx => ?_⟩⟩
  · cases h4 with
    | mk h4 =>
      obtain ⟨t, ht⟩ := h4.mem d hd
      exact ht.raw fun f e => hp f (e ▸ hd)
  · obtain ⟨c, hc, i, hi, rfl⟩ := hk.2 x hx
    have e1 : c = root := by simpa using hc
    subst e1
    have h6 := hi.le hT
    have h7 := (C52_tree h).1
    refine ⟨?_, ?_⟩
    · show i + 1 < nodes.length + 1
      omega
    · show i + 1 ≠ 0
      omega

/-- **C60 is violated by every program with the operator `>=`**: such a program is parsed, but making the
tree throws. Making the tree throws in no other case, and it never fails in another way. -/
theorem C60_violation {src : List Char} {ts : List Token} {nodes : List Node} {root : Nat}
    (h : parse src ts = .ok nodes root) :
    (Build.program nodes root = .throws ↔ ∃ t ∈ ts, t.type = .greater_or_equal) ∧
    (Build.program nodes root = .throws ∨ ∃ ds, Build.program nodes root = .ok ds) := by
  by_cases hg : ∃ t ∈ ts, t.type = .greater_or_equal
  · obtain ⟨t, h1, h2, -⟩ := C42_sound_partial h
    have hm := Build.thrown h1 (by
      obtain ⟨k, hk, e⟩ := hg
      refine ⟨lexeme src k, List.mem_map_of_mem (List.mem_filter.mpr ⟨hk, ?_⟩), e⟩
      simp [e])
    obtain ⟨t', e, cs, rfl, hd⟩ := hm
    cases e
    have h3 := Build.program_throws hd h2
    exact ⟨⟨fun _ => hg, fun _ => h3⟩, .inl h3⟩
  · obtain ⟨t, ds, -, -, h3, -⟩ := C60_tree_partial h fun t ht e => hg ⟨t, ht, e⟩
    refine ⟨⟨fun h => ?_, fun h => absurd h hg⟩, .inr ⟨ds, h3⟩⟩
    rw [h3] at h
    cases h

/-! ## From the text to the result of analysis -/

/-- **C60 for texts** (partial: without `>=` and `@`). A text is rejected, or the declarations that are
analyzed stand for a syntax tree of the text, and analysis starts from a `RawProgram` if the signatures
have no calls. -/
theorem C60_text_partial (n : Nat) (src : List Char)
    (hg : ∀ ts, tokenize src = some (ts, .ok ()) → ∀ t ∈ ts, t.type ≠ .greater_or_equal ∧ t.type ≠ .at_sign) :
    compile n src = .tokens ∨ compile n src = .syntax_ ∨
      ∃ ts t ds next, tokenize src = some (ts, .ok ()) ∧
        Derives true .program (lexemes src ts) [some t] ∧ ProgramIs t ds ∧
        (PlainSignatures ds → RawProgram ds next) ∧
        compile n src = .analyzed ds (Ana.program n ds next) := by
  cases hk : tokenize src with
  | none => left; simp [compile, hk]
  | some p =>
    obtain ⟨ts, r⟩ := p
    cases r with
    | ok u =>
      right
      have hg := hg ts hk
      rcases C53_text_partial hk (fun t ht => (hg t ht).2) with ⟨nodes, root, hp⟩ | ⟨e, hp⟩
      · obtain ⟨t, ds, h1, -, h3, h4, -, h6⟩ := C60_tree_partial hp fun t ht => (hg t ht).1
        exact .inr ⟨ts, t, ds, _, rfl, h1, h4, h6, by simp [compile, hk, hp, h3]⟩
      · left
        simp [compile, hk, hp]
    | err e => left; simp [compile, hk]
    | throws => left; simp [compile, hk]
    | ub => left; simp [compile, hk]

/-- **C60 for texts that reach analysis**, whatever they contain: the declarations that are analyzed stand
for a syntax tree of the text, `>=` is not used, and analysis starts from a `RawProgram` if the signatures
have no calls. -/
theorem C60_analyzed {n : Nat} {src : List Char} {ds : List ADecl} {r : ARes Unit}
    (hx : compile n src = .analyzed ds r) :
    ∃ ts t next, tokenize src = some (ts, .ok ()) ∧ (∀ k ∈ ts, k.type ≠ .greater_or_equal) ∧
      Derives true .program (lexemes src ts) [some t] ∧ ProgramIs t ds ∧
      (PlainSignatures ds → RawProgram ds next) ∧ r = Ana.program n ds next := by
  cases hk : tokenize src with
  | none => simp [compile, hk] at hx
  | some p =>
    obtain ⟨ts, r'⟩ := p
    cases r' with
    | ok u =>
      cases hp : parse src ts with
      | ok nodes root =>
        have hv := C60_violation hp
        have hg : ∀ k ∈ ts, k.type ≠ .greater_or_equal := by
          intro k hm e
          have := hv.1.2 ⟨k, hm, e⟩
          simp [compile, hk, hp, this] at hx
        obtain ⟨t, ds', h1, -, h3, h4, -, h6⟩ := C60_tree_partial hp hg
        simp only [compile, hk, hp, h3, CompileResult.analyzed.injEq] at hx
        obtain ⟨rfl, rfl⟩ := hx
        exact ⟨ts, t, _, rfl, hg, h1, h4, h6, rfl⟩
      | err e => simp [compile, hk, hp] at hx
      | throws => simp [compile, hk, hp] at hx
      | diverge => simp [compile, hk, hp] at hx
    | err e => simp [compile, hk] at hx
    | throws => simp [compile, hk] at hx
    | ub => simp [compile, hk] at hx

/-- **C54 for texts** (partial in the ways of `C54_well_typed_partial`): functions of a text that is accepted are well-typed. -/
theorem C54_text_partial {n : Nat} {src : List Char} {ds : List ADecl} {s : ASt}
    (hx : compile n src = .analyzed ds (.ok () s)) (hp : PlainSignatures ds) (hs : NoSelfReference ds) :
    (∃ ts t, tokenize src = some (ts, .ok ()) ∧ Derives true .program (lexemes src ts) [some t] ∧ ProgramIs t ds) ∧
    ∃ ds', Names.program ds = .ok ds' ∧
      ∀ f, .function f ∈ ds' → f.generic = false → ∃ f', s.fns f.k = some f' ∧ SameF (Redirect s) f f' ∧
        TypedSs (ctxOf .shallow s) (typeOf f'.ret) false (eraseStmts f'.body) := by
  obtain ⟨ts, t, next, h1, -, h2, h3, h4, h6⟩ := C60_analyzed hx
  · refine ⟨⟨ts, t, h1, h2, h3⟩, ?_⟩
    obtain ⟨-, ds', hn, hf⟩ := C54_well_typed_partial (h4 hp) hs h6.symm
    refine ⟨ds', hn, fun f hfm hgen => ?_⟩
    obtain ⟨f', a1, a2, -, -, -, a3⟩ := hf f hfm hgen
    exact ⟨f', a1, a2, a3⟩

/-! ## Texts -/

namespace Texts

def sample : List Char :=
  "const c = f(3); // comment\nfunction f(x: Int) -> Int { let y: Int = 0; let i = x; while (i != 0) { y = y + 4; i = i - 1; } return y; }".toList

/-- What remains of a compilation for comparison. -/
inductive Outline where
  | tokens
  | syntax_
  | analyzed (v : Programs.Verdict) (d : Option Decl)
  | throws
  | impossible
deriving DecidableEq

/-- The verdict, and what is known about the node. -/
def outline (k : Key) : CompileResult → Outline
  | .tokens => .tokens
  | .syntax_ => .syntax_
  | .analyzed _ r => .analyzed (Programs.verdict r) (Programs.valueOf k r)
  | .throws => .throws
  | .impossible => .impossible

end Texts

open Texts (outline)

/-- A text with a constant that is computed by a loop. -/
theorem C60_sample : outline 3 (compile 100 Texts.sample) =
    .analyzed .accepted (some ⟨.const_, some (Value.known (CVal.ofInt 12))⟩) := by
  decide +kernel

/-- A text with an annotation that reaches analysis, as in `C60_analyzed`. -/
theorem C60_annotation_sample :
    (match outline 0 (compile 100 "@immutable(\"f\") function f(x: Int) -> Int { return x; }".toList) with
    | .analyzed v _ => some v
    | _ => none) = some .accepted := by
  decide +kernel

/-- A program with `>=` that is parsed, but not analyzed. A case is missing in src/bms/ast.cpp:17-40. -/
theorem C60_violation_sample : (parseText "const x = 1 >= 2;".toList).isOk = true ∧
    outline 0 (compile 100 "const x = 1 >= 2;".toList) = .throws := by
  decide +kernel

/-- The other comparisons. -/
theorem C60_comparisons :
    outline 4 (compile 100 "const x = 1 <= 2;".toList) =
      .analyzed .accepted (some ⟨.const_, some (Value.known CVal.tt)⟩) := by
  decide +kernel

end Bms
