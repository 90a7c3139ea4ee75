import Verif.Lemmas.ParseCompleteDecl

/-!
# Properties C42, C43 and C51: the parser
-/

namespace Bms

open Spec Parse

/-- The tokens without the comments. -/
def withoutComments (ts : List Token) : List Token :=
  ts.filter fun t => t.type ≠ .line_comment && t.type ≠ .block_comment

theorem strip_eq (ts : List Token) : strip ts = withoutComments ts := by
  refine List.filter_congr fun t _ => ?_
  cases t.type <;> rfl

theorem noC_strip (ts : List Token) : NoC (strip ts) := by
  intro t ht
  have := (List.mem_filter.mp ht).2
  simpa using this

theorem strip_length_le (ts : List Token) : (strip ts).length ≤ ts.length :=
  List.length_filter_le _ _

theorem strip_strip (ts : List Token) : strip (strip ts) = strip ts := by
  simp [strip]

/-- The next token is found behind comments. -/
theorem head_of_skip {ts : List Token} (h : skipComments ts = ts) :
    (strip ts).head? = ts.head? := by
  cases ts with
  | nil => rfl
  | cons t ts =>
    rw [(skipComments_cons h).2]
    rfl

/-- Parsing gives the same result after comments are removed. -/
theorem parse_strip (src : List Char) (ts : List Token) : parse src (strip ts) = parse src ts := by
  unfold parse
  have h1 := run_program_fuel (n := 3 * (strip ts).length + 3) (m := 3 * ts.length + 3) src
    ⟨strip ts, []⟩ (by simp) (by have := strip_length_le ts; omega)
  have h2 := run_strip (src := src) (matchProgram (parseRule (3 * ts.length + 3))) ⟨ts, []⟩
  rw [← h1, show (⟨strip ts, []⟩ : State) = State.strip ⟨ts, []⟩ from rfl, h2]
  cases h3 : (matchProgram (parseRule (3 * ts.length + 3))).run src ⟨ts, []⟩ with
  | ok n s => rfl
  | throws => rfl
  | diverge => rfl
  | err e s =>
    have := Looks.err (looks_program (looks_parseRule _)) (by simp) h3
    simp only [Res.strip, finish, State.strip, ParseResult.err.injEq, ParseError.mk.injEq,
      true_and]
    rw [head_of_skip this]

/-! ## C43: comments do not influence parsing -/

/-- **C43.** Token sequences that differ in comments only give the same nodes, or the same error at
the same token. -/
theorem C43_comments (src : List Char) {ts ts' : List Token}
    (h : withoutComments ts = withoutComments ts') : parse src ts = parse src ts' := by
  rw [← parse_strip src ts, ← parse_strip src ts', strip_eq, strip_eq, h]

/-! ## C42: the parser accepts only sentences of the grammar -/

/-- **C42, termination.** Parsing ends for every token sequence. -/
theorem C42_terminates (src : List Char) (ts : List Token) : parse src ts ≠ .diverge := by
  intro h
  unfold parse at h
  have := halts_program (3 * ts.length + 3) ts.length (by omega) src ⟨ts, []⟩ (Nat.le_refl _)
  revert h this
  cases (matchProgram (parseRule (3 * ts.length + 3))).run src ⟨ts, []⟩ <;> simp [finish]

/-- **C42, what is accepted** (partial: for the grammar in which the commas between arguments of a
call may be left out and string literals are expressions, see `C42_violated_comma` and
`C42_violated_string`). If parsing succeeds, the tokens without comments are a sentence of the
grammar, and the nodes form a tree that the grammar gives to this sentence; the list of nodes has
nothing besides this tree. -/
theorem C42_sound_partial {src : List Char} {ts : List Token} {nodes : List Parse.Node} {root : Nat}
    (h : parse src ts = .ok nodes root) :
    ∃ t, Derives true .program (lexemes src ts) [some t] ∧ Reads nodes root t ∧
      nodes.length = t.size := by
  rw [← parse_strip] at h
  unfold parse at h
  have hs := sound_program (src := src) (sound_parseRule (3 * (strip ts).length + 3))
  cases h1 : (matchProgram (parseRule (3 * (strip ts).length + 3))).run src ⟨strip ts, []⟩ with
  | err e s => rw [h1] at h; cases h
  | throws => rw [h1] at h; cases h
  | diverge => rw [h1] at h; cases h
  | ok n s =>
    rw [h1] at h
    obtain ⟨rfl, rfl⟩ := ParseResult.ok.inj h
    have h2 := hs.2 _ _ _ _ (noC_strip ts) h1
    obtain ⟨used, rest', new, t, e, rfl, hd, hn, hl⟩ := hs.1 _ _ _ _ (noC_strip ts) h1
    simp only [List.nil_append] at h2 hn ⊢
    subst h2
    rw [List.append_nil] at e
    subst e
    refine ⟨t, ?_, hn.reads (List.prefix_refl _), by simpa using hl⟩
    rwa [strip_eq] at hd

/-! ## C51: the parser accepts the sentences of the grammar -/

/-- **C51** (partial: for programs in which no comparison operator is obstructed, see
`C51_violated_argument` and others). A program of the grammar is accepted, and the nodes form the
tree that the grammar gives to it. -/
theorem C51_complete_partial {src : List Char} {ts : List Token} {t : Tree}
    (hd : Derives false .program (lexemes src ts) [some t])
    (hr : ∀ k ∈ ts, k.pos.start ≤ src.length) (hu : Unobstructed ts) (hl : ts.length < 2 ^ 64) :
    ∃ nodes root, parse src ts = .ok nodes root ∧ Reads nodes root t := by
  rw [← parse_strip]
  unfold parse
  obtain ⟨N, hN⟩ : ∃ N, N = 3 * (strip ts).length + 3 := ⟨_, rfl⟩
  rw [← hN]
  have hls := strip_length_le ts
  have hc : Ctx src (strip ts).length (strip ts ++ []) := by
    rw [List.append_nil]
    refine ⟨fun k hk => ⟨noC_strip ts k hk, hr k (List.mem_filter.mp hk).1⟩, Nat.le_refl _,
      fun _ => false, 0, by omega, ?_⟩
    rw [strip_eq]
    exact hu
  have key := complete (src := src) (m := (strip ts).length) (rec := parseRule N)
    (fun r s hs => run_unfold src r s (by have := rank_le r; omega)) (by omega) hd
  obtain ⟨t', e, key⟩ := key
  cases e
  obtain ⟨n, ns, h1, -, h3⟩ := key (strip ts) [] (by rw [strip_eq]; rfl) hc rfl []
  rw [List.append_nil] at h1
  refine ⟨ns ++ [n], ns.length, by rw [h1]; rfl, h3.reads (List.prefix_refl _)⟩

mutual

/-- A handle is the root of one tree. -/
theorem reads_unique {ns : List Parse.Node} : ∀ {t t' : Tree} {i : Nat}, Reads ns i t → Reads ns i t' →
    t = t'
  | .node _ cs, .node _ cs', _, .mk h hs, .mk h' hs' => by
    have e := Option.some.inj (h.symm.trans h')
    subst e
    rw [readsAll_unique hs hs']

theorem readsAll_unique {ns : List Parse.Node} : ∀ {ts ts' : List (Option Tree)} {b : Nat} {hs : List Handle},
    ReadsAll ns b hs ts → ReadsAll ns b hs ts' → ts = ts'
  | [], _, _, _, .nil, .nil => rfl
  | none :: _, _, _, _, .null h, .null h' => by rw [readsAll_unique h h']
  | some _ :: _, _, _, _, .child _ h hs, .child _ h' hs' => by
    rw [reads_unique h h', readsAll_unique hs hs']

end

/-- **C51, unambiguity** (partial for the same reason). The grammar gives one tree to a program. -/
theorem C51_unambiguous_partial {src : List Char} {ts : List Token} {t t' : Tree}
    (hd : Derives false .program (lexemes src ts) [some t])
    (hd' : Derives false .program (lexemes src ts) [some t'])
    (hr : ∀ k ∈ ts, k.pos.start ≤ src.length) (hu : Unobstructed ts) (hl : ts.length < 2 ^ 64) :
    t = t' := by
  obtain ⟨nodes, root, h, hn⟩ := C51_complete_partial hd hr hu hl
  obtain ⟨nodes', root', h', hn'⟩ := C51_complete_partial hd' hr hu hl
  obtain ⟨rfl, rfl⟩ := ParseResult.ok.inj (h.symm.trans h')
  exact reads_unique hn hn'

end Bms
