import Verif.Lemmas.ParseOwn
import Verif.Props.ParseCases

/-!
# Properties C52 and C53: nodes of parsed programs, and exceptions of the parser
-/

namespace Bms

open Parse

/-- What a run of the parser guarantees. -/
theorem parse_post (src : List Char) (ts : List Token) (i : Nat) (plain : Prop)
    (hp : plain → ∀ t ∈ ts, Fine src t) :
    Post src plain i (NodePost i 0)
      ((matchProgram (parseRule (3 * ts.length + 3))).run src ⟨ts, []⟩) :=
  own_program (keeps_parseRule _) ⟨ts, []⟩ ⟨fun _ _ h => by simp at h, hp⟩
    (by simp [balance]) rfl

/-! ## C52: nodes form a tree -/

/-- **C52.** After a successful parse, the root has the last handle and is the child of no node;
every other node is the child of exactly one node; and the handles of children are smaller than
those of their parents. -/
theorem C52_tree {src : List Char} {ts : List Token} {nodes : List Parse.Node} {root : Nat}
    (h : parse src ts = .ok nodes root) :
    root + 1 = nodes.length ∧
    (∀ i < nodes.length, (nodes.flatMap (·.children)).count (some i) = if i = root then 0 else 1) ∧
    (∀ (j : Nat) (n : Parse.Node), nodes[j]? = some n → ∀ c : Nat, some c ∈ n.children → c < j) := by
  unfold parse at h
  have key := fun i => parse_post src ts i False (fun h => h.elim)
  revert h key
  cases (matchProgram (parseRule (3 * ts.length + 3))).run src ⟨ts, []⟩ with
  | err e s => intro h; cases h
  | throws => intro h; cases h
  | diverge => intro h; cases h
  | ok n s =>
    intro h key
    obtain ⟨rfl, rfl⟩ := ParseResult.ok.inj h
    obtain ⟨⟨hv, -⟩, -, hb⟩ := key 0
    have hv := hv.push hb
    refine ⟨by simp, fun i hi => ?_, fun j m hm c hc => ?_⟩
    · obtain ⟨-, he, -⟩ := key i
      have e := balance_push i s.nodes n
      rw [he, balance, if_pos hi, cnt] at e
      unfold one at e
      simp only [Option.some.injEq] at e
      split
      · rename_i hc
        rw [if_pos hc.symm] at e
        omega
      · rename_i hc
        rw [if_neg (fun h => hc h.symm)] at e
        omega
    · have := hv j m hm
      have h2 : ∀ hs : List Handle, some c ∈ hs → c < top hs := by
        intro hs
        induction hs with
        | nil => simp
        | cons h hs ih =>
          intro hx
          rcases List.mem_cons.mp hx with rfl | hx
          · simp only [top_cons, topH_some]; omega
          · have := ih hx; simp only [top_cons]; omega
      have := h2 _ hc
      omega

/-- The sample is accepted, with 29 nodes (for `C52_tree`). -/
example : (match parseText sample with | .ok nodes _ => nodes.length | _ => 0) = 29 := by
  decide +kernel

/-! ## C53: the parser does not throw -/

/-- **C53** (partial: for programs without annotations, see `C53_violated_annotation`). The parser
throws no exception. -/
theorem C53_no_throw_partial {src : List Char} {ts : List Token}
    (h : ∀ t ∈ ts, t.type ≠ .at_sign ∧ t.pos.start ≤ src.length) : parse src ts ≠ .throws := by
  intro hr
  unfold parse at hr
  have key := parse_post src ts 0 True (fun _ => h)
  revert hr key
  cases (matchProgram (parseRule (3 * ts.length + 3))).run src ⟨ts, []⟩ <;> simp [finish, Post]

/-- **C53 for texts** (partial in the same way). Parsing the tokens of a text without `@` gives a
program or an error with a rule, the expected tokens and the failing token. -/
theorem C53_text_partial {src : List Char} {ts : List Token} (h : tokenize src = some (ts, .ok ()))
    (ha : ∀ t ∈ ts, t.type ≠ .at_sign) :
    (∃ nodes root, parse src ts = .ok nodes root) ∨ ∃ e, parse src ts = .err e := by
  have h1 := C53_no_throw_partial (src := src) (ts := ts) fun t ht => ⟨ha t ht, by
    have := (C19_tokens_ordered h).1 t ht
    omega⟩
  have h2 := C42_terminates src ts
  revert h1 h2
  cases parse src ts <;> simp

/-- **C53 does not hold** with annotations: if the arguments of an annotation are wrong, an assertion
fails instead of an error being reported. -/
theorem C53_violated_annotation : parseText "@a(b) const x = 1;".toList = .throws := by
  decide +kernel

/-- Texts without `@`, one of which is not accepted. -/
example : (∀ t ∈ tokensOf "const x = (1 2);".toList, t.type ≠ .at_sign) ∧
    tokenize "const x = (1 2);".toList = some (tokensOf "const x = (1 2);".toList, .ok ()) ∧
    (parseText "const x = (1 2);".toList).isOk = false := by
  decide +kernel

end Bms
