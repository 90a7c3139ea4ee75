import Verif.Lemmas.AnnotationsTree
import Verif.Props.Tokens
import Verif.Props.ParseNodes

/-!
# Properties C36 and C63: annotations
-/

namespace Bms

open Spec Annot

/-! ## C36: arguments of an annotation -/

/-- **C36, what is accepted** (partial: not for `@inline`, see `C36_inline_violation`). An annotation is
accepted if and only if it has a known name, may be written at this place, and its arguments go to
different parameters, named ones to the parameter of that name and others to the first parameter that is
not covered yet, all with values that the parameter allows, and no required parameter is left out. The
values that are stored are those of the arguments, in the order of the arguments. -/
theorem C36_accepts_partial {c : Construct} {name : List Char} {args : List Argument}
    (hn : ¬ Inline name) (ha : ∀ a ∈ args, Argument.Parsed a) (r : Annotation) :
    resolveOne c name args = .ok r ↔ AnnotationFits c name args r := by
  refine ⟨fun h => ?_, resolveOne_complete hn ha⟩
  rcases resolveOne_cases (c := c) hn ha with ⟨a, e, h'⟩ | ⟨e, h', -⟩
  · rw [e] at h; cases h; exact h'
  · rw [h'] at h; cases h

/-- **C36, what is rejected** (partial in the same way). Otherwise, an error is reported for the
annotation or for the first argument that is wrong, with the code that tells what is wrong with it;
there is no exception and no undefined behavior. -/
theorem C36_rejects_partial {c : Construct} {name : List Char} {args : List Argument}
    (hn : ¬ Inline name) (ha : ∀ a ∈ args, Argument.Parsed a)
    (h : ∀ r, ¬ AnnotationFits c name args r) :
    ∃ e, resolveOne c name args = .err (some e) ∧ AnnotationError c name args e := by
  rcases resolveOne_cases (c := c) hn ha with ⟨a, -, h'⟩ | h'
  · exact absurd h' (h a)
  · exact h'

/-- **C36, uniqueness.** There is only one way for the arguments to go to parameters, if parameters have
different names, as those of all annotations do. -/
theorem C36_assignment_unique {ps : List AnnotationParameter} {args : List Argument} {f g : List Nat}
    (hn : (ps.map fun q => q.name.toList).Nodup) (h : Assigns ps args f) (h' : Assigns ps args g) :
    f = g := by
  have key : ∀ n, n ≤ args.length → f.take n = g.take n := by
    intro n
    induction n with
    | zero => intro _; rfl
    | succ n ih =>
      intro hl
      have e := ih (by omega)
      have lf := h.length
      have lg := h'.length
      have hf : f = f.take n ++ f[n] :: f.drop (n + 1) := by simp
      have hg : g = g.take n ++ g[n] :: g.drop (n + 1) := by simp
      have ha : args = args.take n ++ args[n] :: args.drop (n + 1) := by simp
      rw [ha, hf] at h
      rw [ha, hg] at h'
      obtain ⟨q, s1⟩ := Assigns.step h (by simp; omega)
      obtain ⟨q', s2⟩ := Assigns.step h' (by simp; omega)
      rw [← e] at s2
      have := Step.unique hn s1 s2
      rw [List.take_succ_eq_append_getElem (by omega), List.take_succ_eq_append_getElem (by omega), e, this]
  have := key args.length (Nat.le_refl _)
  rwa [List.take_of_length_le (by have := h.length; omega),
    List.take_of_length_le (by have := h'.length; omega)] at this

theorem C36_names_differ (t : AnnotationType) :
    ((annotationParameters t).map fun q => q.name.toList).Nodup := names_differ t

/-- **C36 does not hold** for `@inline`: it is rejected everywhere as unknown, although it may be written
in front of variables and after calls; it is only recognized under the name `inline_`. -/
theorem C36_inline_violation :
    (∀ c args, resolveOne c "inline".toList args =
      .err (some ⟨.annotation_unknown, .annotation, "inline".toList⟩)) ∧
    AnnotationFits .function_call_expression "inline".toList [] ⟨.inline_, []⟩ ∧
    resolveOne .function_call_expression "inline_".toList [] = .ok ⟨.inline_, []⟩ := by
  refine ⟨fun c args => ?_, ⟨rfl, by decide, [], Assigns.nil, Allowed.nil, ?_⟩, by decide⟩
  · have : typeByName "inline".toList = none := by decide
    simp only [resolveOne, this]
  · intro p q h
    simp [annotationParameters] at h

/-- **C36 does not hold** for what is stored: the values are in the order of the arguments, and the
parameters that they went to are forgotten. So two annotations in which parameters have different values
cannot be told apart after analysis. -/
theorem C36_association_violation :
    resolveOne .function "c_equivalent".toList
      [⟨[], "f".toList, .string_literal⟩, ⟨[], "g".toList, .string_literal⟩] =
      .ok ⟨.c_equivalent, [.string "f".toList, .string "g".toList]⟩ ∧
    Assigns (annotationParameters .c_equivalent)
      [⟨[], "f".toList, .string_literal⟩, ⟨[], "g".toList, .string_literal⟩] [0, 1] ∧
    resolveOne .function "c_equivalent".toList
      [⟨"include".toList, "f".toList, .string_literal⟩, ⟨[], "g".toList, .string_literal⟩] =
      .ok ⟨.c_equivalent, [.string "f".toList, .string "g".toList]⟩ ∧
    Assigns (annotationParameters .c_equivalent)
      [⟨"include".toList, "f".toList, .string_literal⟩, ⟨[], "g".toList, .string_literal⟩] [1, 0] := by
  have s1 : Step (annotationParameters .c_equivalent) [] ⟨[], "f".toList, .string_literal⟩ 0 _ :=
    ⟨rfl, by simp, by simp, by simp⟩
  have s2 : Step (annotationParameters .c_equivalent) [0] ⟨[], "g".toList, .string_literal⟩ 1 _ :=
    ⟨rfl, by simp, by simp, by simp⟩
  have s3 : Step (annotationParameters .c_equivalent) [] ⟨"include".toList, "f".toList, .string_literal⟩ 1 _ :=
    ⟨rfl, by simp, fun _ => rfl, by simp⟩
  have s4 : Step (annotationParameters .c_equivalent) [1] ⟨[], "g".toList, .string_literal⟩ 0 _ :=
    ⟨rfl, by simp, by simp, by simp⟩
  exact ⟨by decide, Assigns.snoc (Assigns.snoc Assigns.nil s1) s2, by decide,
    Assigns.snoc (Assigns.snoc Assigns.nil s3) s4⟩

/-- Named and unnamed arguments in one list: `@c_equivalent(since = 23, "f", "x")`; and all the ways in
which arguments can be wrong. -/
theorem C36_sample :
    resolveOne .function "c_equivalent".toList
      [⟨"since".toList, "23".toList, .decimal_literal⟩, ⟨[], "f".toList, .string_literal⟩,
       ⟨[], "x".toList, .string_literal⟩] =
      .ok ⟨.c_equivalent, [.integer 23, .string "f".toList, .string "x".toList]⟩ ∧
    (∀ a ∈ [(⟨"since".toList, "23".toList, .decimal_literal⟩ : Argument), ⟨[], "f".toList, .string_literal⟩,
       ⟨[], "x".toList, .string_literal⟩], Argument.Parsed a) ∧ ¬ Inline "c_equivalent".toList ∧
    resolveOne .while_statement "unroll".toList
      [⟨[], "10".toList, .decimal_literal⟩, ⟨"limit".toList, "10".toList, .decimal_literal⟩] =
      .err (some ⟨.annotation_argument_duplicate, .annotation_argument, "limit".toList⟩) ∧
    resolveOne .while_statement "unroll".toList [⟨[], "129".toList, .decimal_literal⟩] =
      .err (some ⟨.annotation_argument_wrong_value, .annotation_argument, []⟩) ∧
    resolveOne .while_statement "unroll".toList
      [⟨[], "1".toList, .decimal_literal⟩, ⟨[], "1".toList, .decimal_literal⟩] =
      .err (some ⟨.annotation_too_many_arguments, .annotation_argument, []⟩) ∧
    resolveOne .while_statement "unroll".toList [⟨[], [], .keyword_true⟩] =
      .err (some ⟨.annotation_argument_wrong_type, .annotation_argument, []⟩) ∧
    resolveOne .while_statement "unroll".toList [⟨"n".toList, "1".toList, .decimal_literal⟩] =
      .err (some ⟨.annotation_unknown_parameter, .annotation_argument, "n".toList⟩) ∧
    resolveOne .while_statement "unroll".toList [] =
      .err (some ⟨.annotation_missing_argument, .annotation, "unroll".toList⟩) ∧
    resolveOne .variable "unroll".toList [] =
      .err (some ⟨.annotation_not_applicable, .annotation, "unroll".toList⟩) := by
  refine ⟨by decide, ?_, ?_, by decide, by decide, by decide, by decide, by decide, by decide, by decide⟩
  · unfold Argument.Parsed
    decide
  · unfold Inline
    decide

/-! ## C63: annotations of a program -/

theorem quoted_lexemes {src : List Char} {ts : List Token} {res : Outcome TokenizeError Unit}
    (h : tokenize src = some (ts, res)) : Quoted (lexemes src ts) := by
  intro x hx
  simp only [lexemes, List.mem_map, List.mem_filter] at hx
  obtain ⟨t, ⟨ht, -⟩, he⟩ := hx
  simp only [lexeme, Prod.mk.injEq] at he
  obtain ⟨hty, hx⟩ := he
  rw [hty, if_pos (by decide)] at hx
  have hl := C20_token_text_partial h ht (by rw [hty]; simp) (by rw [hty]; simp)
  have e : textOf src t = x := hx
  rw [hty, e] at hl
  cases hl with
  | fixed h => simp [spelling] at h
  | string hb =>
    refine ⟨_, rfl, ?_⟩
    cases hb with
    | nil => simp
    | plain h1 _ _ => simpa using h1
    | escape _ => simp

/-- **C63** (partial: for programs without `@inline`, see `C36_inline_violation`). For a program that was
parsed, the annotations that are resolved are those that are written, at the places where they are
written. All of them are accepted if and only if each of them fits; then what is stored are the values
that were written. Otherwise, the error is one of the first annotation that does not fit, with what is
wrong about it. There are no exceptions and there is no undefined behavior. -/
theorem C63_program_partial {src : List Char} {ts : List Token} {nodes : List Parse.Node} {root : Nat}
    (ht : tokenize src = some (ts, .ok ())) (h : Parse.parse src ts = .ok nodes root) :
    ∃ t, Derives true .program (lexemes src ts) [some t] ∧ Reads nodes root t ∧
      ((∀ s ∈ t.sites, ∀ w ∈ s.2, ¬ Inline w.1) →
        (∀ rs, Annot.resolve nodes root = .ok rs ↔ List.Forall₂ SiteFits t.sites rs) ∧
        ((∀ rs, ¬ List.Forall₂ SiteFits t.sites rs) →
          ∃ e, Annot.resolve nodes root = .err (some e) ∧ FirstError t.sites e)) := by
  obtain ⟨t, h1, h2, -⟩ := C42_sound_partial h
  refine ⟨t, h1, h2, fun hi => ?_⟩
  have hs : Shaped t := by
    have := (shaped_made h1 (quoted_lexemes ht)).1
    simp only [ShapedAll] at this
    exact this.1
  have e : Annot.resolve nodes root = runSites t.sites := visit_ok (root + 1) root (by omega) t hs h2
  rw [e]
  refine ⟨fun rs => ⟨fun hr => ?_, runSites_complete hi hs.parsed⟩, fun hr => ?_⟩
  · rcases runSites_cases hi hs.parsed with ⟨rs', e', h'⟩ | ⟨er, e', -⟩
    · rw [e'] at hr; cases hr; exact h'
    · rw [e'] at hr; cases hr
  · rcases runSites_cases hi hs.parsed with ⟨rs', e', h'⟩ | h'
    · exact absurd h' (hr rs')
    · exact h'

/-- The result for a text. -/
def resolveText (src : List Char) : Option (Outcome (Option Annot.Error) (List (Construct × List Annotation))) :=
  match parseText src with
  | .ok nodes root => some (Annot.resolve nodes root)
  | _ => none

/-- A program with annotations at several places, which is accepted; and one with two wrong annotations,
the first of which is reported. -/
theorem C63_sample :
    resolveText ("@c_equivalent(include = \"m.h\", \"f\") @instantiate(8)\n" ++
      "function f(x: Uint(8)) -> Uint(8) {\n  @loop_variable let i: Uint(8) = 0;\n" ++
      "  @unroll(limit = 0x10) while i < 10 { @loop_step i = i + 1; }\n  return f(x); }").toList =
      some (.ok [(.function, [⟨.c_equivalent, [.string "m.h".toList, .string "f".toList]⟩,
          ⟨.instantiate, [.integer 8]⟩]),
        (.variable, [⟨.loop_variable, []⟩]), (.while_statement, [⟨.unroll, [.integer 16]⟩]),
        (.assignment, [⟨.loop_step, []⟩]), (.function_call_expression, [])]) ∧
    resolveText ("function f() -> Void { @immutable let x = g(1) @immutable; @x const y = 1; }").toList =
      some (.err (some ⟨.annotation_not_applicable, .annotation, "immutable".toList⟩)) := by
  decide +kernel

/-- **C63 does not hold** for an annotation that the description of errors gives as example
(src/bms/analysis_error.hpp:130): `@unroll(limit = -1)` is not reported as having a wrong value; parsing
it throws. -/
theorem C63_negative_violation :
    parseText "function f() -> Void { @unroll(limit = -1) while true { } }".toList = .throws := by
  decide +kernel

/-- **C63 does not hold** for the parameter `function` of `@c_equivalent`: because its name is a keyword,
parsing an argument with this name throws. -/
theorem C63_keyword_violation :
    parseText "@c_equivalent(function = \"f\") function f() -> Void { }".toList = .throws ∧
    "function" ∈ (annotationParameters .c_equivalent).map (·.name) := by
  refine ⟨by decide +kernel, by decide⟩

end Bms
