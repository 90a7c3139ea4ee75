import Verif.Lemmas.DumpGen

/-!
# Property C93: dumps of generated code
-/

namespace Bms

open Spec

/-- **C93 for generated code, partial.** If the dumps of the code that is generated for two functions are the same, with
any names of variables, then the code is the same apart from the types of numbers that are pushed. Missing: known values
of more than 64 bits. -/
theorem C93_generated_partial {addr : Key → List Char} (ha : Pointers addr) {env env' : FnEnv} {f f' : FunctionNode}
    (hs : SmallStmts f.body) (hs' : SmallStmts f'.body) {c c' : List (Instr × List Char)}
    (hc : c.map Prod.fst = (Gen.function env f []).1) (hc' : c'.map Prod.fst = (Gen.function env' f' []).1)
    (hn : ∀ x ∈ c, '\n' ∉ x.2) (hn' : ∀ x ∈ c', '\n' ∉ x.2)
    (h : DumpCode.program addr c = DumpCode.program addr c') :
    List.Forall₂ Told (Gen.function env f []).1 (Gen.function env' f' []).1 := by
  have nil : DumpCode.All [] := fun i hi => by cases hi
  have h1 := DumpCode.all_function (env := env) hs nil
  have h2 := DumpCode.all_function (env := env') hs' nil
  rw [← hc] at h1
  rw [← hc'] at h2
  have := C93_dump_partial ha (fun x hx => ⟨h1 _ (List.mem_map_of_mem hx), hn x hx⟩)
    (fun x hx => ⟨h2 _ (List.mem_map_of_mem hx), hn' x hx⟩) h
  rw [← hc, ← hc', List.forall₂_map_left_iff, List.forall₂_map_right_iff]
  exact this.imp fun _ _ h => h.1

/-- `while (true) { x = -x; }` and `return 5;`, for a parameter `x`. -/
def C93_body : List Stmt :=
  [.while_ (.literal .true_ (some ⟨.bool, some 1⟩))
    (.block [.assign (some ⟨.int, none⟩) (some (.param 1))
      (.prefix (some ⟨.int, none⟩) .unary_minus (.id (some ⟨.int, none⟩) (some (.param 1))))]),
   .control .return_ (some ⟨.int, some 5⟩) none]

/-- A function for which the hypotheses are met, its code, and its dump. -/
theorem C93_generated_sample : SmallStmts C93_body ∧
    Gen.function (fun _ => none) ⟨[1], true, some .int, C93_body⟩ [] =
      ([.store 1, .push ⟨.bool, 1⟩, .jumpIf 4 false, .load 1, .unary .unary_minus, .store 1, .jump (-6),
        .push ⟨.int, 5⟩, .ret], .ok ()) ∧
    DumpCode.program (fun k => '0' :: 'x' :: stdToString k)
      ((Gen.function (fun _ => none) ⟨[1], true, some .int, C93_body⟩ []).1.map fun i => (i, [])) =
      ("store           0x1\npush            true\nif              false jump +4\nload            0x1\nunary -\n" ++
       "store           0x1\njump            -6\npush            5\nreturn\n").toList := by
  refine ⟨?_, by decide +kernel, by decide +kernel⟩
  simp [C93_body, SmallStmts, SmallStmt, SmallExpr, SmallKnown, SmallValue, unaryOps]

end Bms
