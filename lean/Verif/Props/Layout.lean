import Verif.Lemmas.LayoutBuild
import Verif.Props.Build
import Verif.Props.Parse
import Verif.Props.TokensComplete

/-!
# C86: layout and comments do not change what a program means
-/

namespace Bms

open Spec Parse

theorem lexemes_strip (src : List Char) (ts : List Token) : lexemes src ts = (strip ts).map (lexeme src) := by
  unfold lexemes strip
  congr 1
  apply List.filter_congr
  intro t _
  cases t.type <;> decide

theorem sameTokens_of {src src' : List Char} {ts ts' : List Token}
    (h : lexemes src ts = lexemes src' ts') (hs : ∀ t ∈ ts, t.pos.start ≤ src.length)
    (hs' : ∀ t ∈ ts', t.pos.start ≤ src'.length) :
    List.Forall₂ (SameToken src src') (strip ts) (strip ts') := by
  rw [lexemes_strip, lexemes_strip] at h
  have a : ∀ t ∈ strip ts, t.pos.start ≤ src.length := fun t ht => hs t (List.mem_filter.1 ht).1
  have a' : ∀ t ∈ strip ts', t.pos.start ≤ src'.length := fun t ht => hs' t (List.mem_filter.1 ht).1
  clear hs hs'
  generalize strip ts = l at h a
  generalize strip ts' = l' at h a'
  induction l generalizing l' with
  | nil => cases l' with
    | nil => exact .nil
    | cons => cases h
  | cons t l ih => cases l' with
    | nil => cases h
    | cons t' l' =>
      simp only [List.map_cons, List.cons.injEq] at h
      obtain ⟨h1, h2⟩ := h
      have e := congrArg Prod.fst h1
      have e2 := congrArg Prod.snd h1
      simp only [lexeme] at e e2
      refine .cons ⟨e, fun ht => ?_, a _ List.mem_cons_self, a' _ List.mem_cons_self⟩
        (ih (fun t ht => a t (List.mem_cons_of_mem _ ht)) _ h2 fun t ht => a' t (List.mem_cons_of_mem _ ht))
      rw [if_pos ht, if_pos (e ▸ ht)] at e2
      exact e2

/-- Results of parsing that are the same but for places. -/
inductive SameParse (src src' : List Char) : ParseResult → ParseResult → Prop
  | ok {ns ns' : List Parse.Node} {root : Nat} : List.Forall₂ SameNode ns ns' →
    SameParse src src' (.ok ns root) (.ok ns' root)
  | err {r x t t'} : lexeme src t = lexeme src' t' → SameParse src src' (.err ⟨r, x, t⟩) (.err ⟨r, x, t'⟩)
  | throws : SameParse src src' .throws .throws

theorem lexeme_first {src src' : List Char} {l l' : List Token} (h : List.Forall₂ (SameToken src src') l l') :
    lexeme src (l.head?.getD Token.default) = lexeme src' (l'.head?.getD Token.default) := by
  cases h with
  | nil => simp [lexeme, tokenText, Token.default]
  | @cons t t' _ _ ht _ =>
    show lexeme src t = lexeme src' t'
    unfold lexeme
    by_cases hx : t.type ∈ textual
    · rw [if_pos hx, if_pos (ht.type ▸ hx), ht.text hx, ht.type]
    · rw [if_neg hx, if_neg (ht.type ▸ hx), ht.type]

theorem sameParse_of {src src' : List Char} {ts ts' : List Token}
    (h : List.Forall₂ (SameToken src src') (strip ts) (strip ts')) :
    SameParse src src' (parse src ts) (parse src' ts') := by
  have hn := C42_terminates src ts
  rw [← parse_strip src ts] at hn ⊢
  rw [← parse_strip src' ts']
  have hs : SameState src src' ⟨strip ts, []⟩ ⟨strip ts', []⟩ :=
    ⟨h, fun t ht => by simpa using (List.mem_filter.1 ht).2, .nil⟩
  unfold parse at *
  rw [← h.length_eq]
  have := alike_program (sameRec (src := src) (src' := src') (3 * (strip ts).length + 3)) _ _ hs
  cases hr : (matchProgram (parseRule (3 * (strip ts).length + 3))).run src ⟨strip ts, []⟩ <;>
    cases hr' : (matchProgram (parseRule (3 * (strip ts).length + 3))).run src' ⟨strip ts', []⟩ <;>
    rw [hr, hr'] at this <;> rw [hr] at hn <;> cases this
  · rename_i h1 h2
    simp only [Parse.finish]
    rw [h2.nodes.length_eq]
    exact .ok (List.rel_append h2.nodes (.cons h1 .nil))
  · rename_i h1
    exact .err (lexeme_first h1.rest)
  · exact .throws
  · exact absurd rfl hn

/-- **C86.** If two texts consist of the same tokens, not counting comments, they are compiled to the
same program, or rejected by the same stage with the same errors of analysis. -/
theorem C86_meaning {src src' : List Char} {ts ts' : List Token} (n : Nat)
    (h : tokenize src = some (ts, .ok ())) (h' : tokenize src' = some (ts', .ok ()))
    (he : lexemes src ts = lexemes src' ts') : compile n src = compile n src' := by
  have hp := sameParse_of (sameTokens_of he (fun t ht => by have := (C19_tokens_ordered h).1 t ht; omega)
    (fun t ht => by have := (C19_tokens_ordered h').1 t ht; omega))
  unfold compile
  rw [h, h']
  simp only
  revert hp
  cases parse src ts <;> cases parse src' ts' <;> intro hp <;> cases hp
  · rename_i hn
    simp only [Build.program_same (Build.sameNodes_of hn), hn.length_eq]
  · rfl
  · rfl

/-- **C86, syntax errors.** The parser reports the same error, at the same token. -/
theorem C86_errors {src src' : List Char} {ts ts' : List Token} {e : ParseError}
    (h : tokenize src = some (ts, .ok ())) (h' : tokenize src' = some (ts', .ok ()))
    (he : lexemes src ts = lexemes src' ts') (hp : parse src ts = .err e) :
    ∃ e', parse src' ts' = .err e' ∧ e'.rule = e.rule ∧ e'.expected = e.expected ∧
      lexeme src' e'.token = lexeme src e.token := by
  have := sameParse_of (sameTokens_of he (fun t ht => by have := (C19_tokens_ordered h).1 t ht; omega)
    (fun t ht => by have := (C19_tokens_ordered h').1 t ht; omega))
  rw [hp] at this
  generalize parse src' ts' = r at this
  cases this with
  | err ht => exact ⟨_, rfl, rfl, rfl, ht.symm⟩

/-- **C86, partial: texts.** Blank space and comments between tokens can be added, removed and changed:
what the compiler does depends only on the sequence of tokens that are not comments. Partial: each
`&&` and `!` must be followed by a blank, and a comment must not end at the end of the text, see
`C86_violated`. -/
theorem C86_text_partial {src src' : List Char} {items items' : List (TokenType × List Char)} (n : Nat)
    (h : Spelled Roomy src items) (h' : Spelled Roomy src' items')
    (he : (items.filter fun i => i.1 ≠ .line_comment && i.1 ≠ .block_comment) =
      (items'.filter fun i => i.1 ≠ .line_comment && i.1 ≠ .block_comment)) :
    compile n src = compile n src' := by
  obtain ⟨ts, h1, h2⟩ := C64_lexemes_partial h
  obtain ⟨ts', h3, h4⟩ := C64_lexemes_partial h'
  exact C86_meaning n h1 h3 (by rw [h2, h4, he])

/-! ## Cases -/

namespace Texts

/-- A program in two layouts. -/
def dense : List Char := "function f(x:Uint(8))->Bool{return 0<x;}".toList

def loose : List Char :=
  "// about f\nfunction f ( x : Uint(8) ) -> Bool {\n  /* compares */ return 0 < x ;\n}\n".toList

/-- `const c=true&&true;` with spaces after `const` and after `&&`. -/
def conjunction (g g' : List Char) : List Char :=
  [] ++ "const".toList ++ (g ++ ['c'] ++ ([] ++ "=".toList ++ ([] ++ "true".toList ++ ([] ++ "&&".toList ++
    (g' ++ "true".toList ++ ([] ++ ";".toList ++ []))))))

def conjunctionItems : List (TokenType × List Char) :=
  [(.keyword_const, "const".toList), (.identifier, ['c']), (.assign, "=".toList), (.keyword_true, "true".toList),
   (.logical_and, "&&".toList), (.keyword_true, "true".toList), (.semicolon, ";".toList)]

theorem spelled_conjunction {follow : TokenType → List Char → Prop} {g g' : List Char}
    (hf : ∀ ty more, ty ≠ .logical_and → ty ≠ .logical_not → ty ≠ .block_comment → follow ty more)
    (hg : ∀ c ∈ g, White c) (hg' : ∀ c ∈ g', White c) (hn : ∀ c ∈ (g ++ ['c']).head?, ¬ IdentPart c)
    (ha : ∀ c ∈ (g' ++ ['t']).head?, ¬ Joins c) (hl : follow .logical_and (g' ++ "true".toList ++ ([] ++ ";".toList ++ []))) :
    Spelled follow (conjunction g g') conjunctionItems := by
  have id : Lexeme .identifier ['c'] := by
    refine .identifier ⟨by decide, by decide⟩ fun ty sp h e => ?_
    rcases keyword_lexeme (.fixed h) (e ▸ (⟨by decide, by decide⟩ : Ident ['c'])) with h3 | ⟨-, h3⟩
    · rw [e, show keywordByName ['c'] = none from by decide] at h3; cases h3
    · subst h3; cases h
  have s7 := spelled_symbol (follow := follow) (gap := []) (more := []) (ty := .semicolon) (sp := ";") rfl
    ⟨_, rfl, by decide⟩ (by decide) (by decide) (hf _ _ (by decide) (by decide) (by decide)) (.nil (by decide))
  have s6 := spelled_word (follow := follow) (gap := g') (ty := .keyword_true) (text := "true".toList)
    (.fixed rfl) ⟨by decide, by decide⟩ hg' (by decide) (hf _ _ (by decide) (by decide) (by decide)) s7
  have s5 := spelled_symbol (follow := follow) (gap := []) (ty := .logical_and) (sp := "&&") rfl
    ⟨_, rfl, by decide⟩ (by decide) (by cases g' <;> exact ha) hl s6
  have s4 := spelled_word (follow := follow) (gap := []) (ty := .keyword_true) (text := "true".toList)
    (.fixed rfl) ⟨by decide, by decide⟩ (by decide)
    (by exact (by decide : ∀ c ∈ some '&', ¬ IdentPart c)) (hf _ _ (by decide) (by decide) (by decide)) s5
  have s3 := spelled_symbol (follow := follow) (gap := []) (ty := .assign) (sp := "=") rfl
    ⟨_, rfl, by decide⟩ (by decide) (by exact (by decide : ∀ c ∈ some 't', ¬ Joins c))
    (hf _ _ (by decide) (by decide) (by decide)) s4
  have s2 := spelled_word (follow := follow) (gap := g) id ⟨by decide, by decide⟩ hg
    (by exact (by decide : ∀ c ∈ some '=', ¬ IdentPart c))
    (hf _ _ (by decide) (by decide) (by decide)) s3
  exact spelled_word (follow := follow) (gap := []) (ty := .keyword_const) (text := "const".toList)
    (.fixed rfl) ⟨by decide, by decide⟩ (by decide) (by cases g <;> exact hn)
    (hf _ _ (by decide) (by decide) (by decide)) s2

end Texts

open Texts

/-- Two layouts with and without comments meet the conditions of `C86_meaning`, and are accepted. -/
theorem C86_sample : ∃ ts ts', tokenize dense = some (ts, .ok ()) ∧ tokenize loose = some (ts', .ok ()) ∧
    lexemes dense ts = lexemes loose ts' ∧ ts.length ≠ ts'.length ∧
    outline 0 (compile 50 loose) = .analyzed .accepted none := by
  refine ⟨((tokenize dense).getD ([], .throws)).1, ((tokenize loose).getD ([], .throws)).1, ?_⟩
  decide +kernel

/-- Two layouts that meet the conditions of `C86_text_partial`. -/
theorem C86_text_sample (n : Nat) :
    compile n (conjunction [' '] [' ']) = compile n (conjunction ['\n', ' '] [' ', '\t', ' ']) := by
  have r : ∀ ty more, ty ≠ .logical_and → ty ≠ .logical_not → ty ≠ .block_comment → Roomy ty more :=
    fun _ _ h1 h2 h3 => ⟨fun h => absurd h h1, fun h => absurd h h2, fun h => absurd h h3⟩
  have l : ∀ {more}, Roomy .logical_and (' ' :: more) := ⟨fun _ => ⟨' ', rfl, by decide⟩, nofun, nofun⟩
  exact C86_text_partial n (spelled_conjunction r (by decide) (by decide) (by decide) (by decide) l)
    (spelled_conjunction r (by decide) (by decide) (by decide) (by decide) l) rfl

/-- **C86 does not hold for all texts**: `true&&true` and `true&& true` are the same tokens, but in the first,
`&&` takes the `t` that follows it, so that analysis looks for a constant `rue`. -/
theorem C86_violated : ∃ src src' items, Spelled (fun _ _ => True) src items ∧
    Spelled (fun _ _ => True) src' items ∧ compile 50 src ≠ compile 50 src' := by
  refine ⟨_, _, _, spelled_conjunction (g := [' ']) (g' := []) (fun _ _ _ _ _ => trivial) (by decide) (by decide)
    (by decide) (by decide) trivial, spelled_conjunction (g := [' ']) (g' := [' ']) (fun _ _ _ _ _ => trivial)
    (by decide) (by decide) (by decide) (by decide) trivial, fun h => ?_⟩
  have := congrArg (outline 0) h
  revert this
  decide +kernel

end Bms
