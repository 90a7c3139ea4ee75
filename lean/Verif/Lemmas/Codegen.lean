import Verif.Model.Codegen
import Mathlib.Tactic.Convert

/-!
# Code generation as a function from trees to code

The generator appends to a vector, patches jumps in place and truncates the vector on errors. Here it
is related to a function that returns the code of a tree, independent of the vector.
-/

namespace Bms

namespace Gen

/-- `r` is what generation does on a vector that starts with `base`, if `o` is the code that is to
be appended to `base` (on failure, anything may have been appended). -/
def CompAt (base : List Instr) (r : GenResult) (o : Outcome GenErr (List Instr)) : Prop :=
  ∃ j, r = (base ++ j, o.map fun _ => ()) ∧ ∀ c, o = .ok c → j = c

theorem CompAt.ok (base c : List Instr) : CompAt base (base ++ c, .ok ()) (.ok c) :=
  ⟨c, rfl, fun _ h => by cases h; rfl⟩

theorem CompAt.ok_nil (base : List Instr) : CompAt base (base, .ok ()) (.ok []) :=
  ⟨[], by simp, fun _ h => by cases h; rfl⟩

theorem CompAt.emit (base : List Instr) (i : Instr) : CompAt base (emit i base) (.ok [i]) :=
  ⟨[i], rfl, fun _ h => by cases h; rfl⟩

theorem CompAt.throws (base c : List Instr) : CompAt base (base ++ c, .throws) .throws :=
  ⟨c, rfl, fun _ h => by cases h⟩

theorem CompAt.throws_nil (base : List Instr) : CompAt base (base, .throws) .throws :=
  ⟨[], by simp, fun _ h => by cases h⟩

theorem CompAt.andThen {base c1 : List Instr} {r : GenResult} {o : Outcome GenErr (List Instr)}
    {f : List Instr → GenResult} {o' : List Instr → Outcome GenErr (List Instr)}
    (h : CompAt (base ++ c1) r o)
    (hf : ∀ c, o = .ok c → CompAt base (f (base ++ (c1 ++ c))) (o' c)) :
    CompAt base (andThen r f) (o >>= o') := by
  obtain ⟨j, rfl, hj⟩ := h
  cases o with
  | ok c =>
    have := hj c rfl
    subst this
    have := hf j rfl
    simp only [Outcome.map_ok, Gen.andThen, Outcome.ok_bind, List.append_assoc]
    exact this
  | err e => exact ⟨c1 ++ j, by simp [Gen.andThen], fun _ h => by cases h⟩
  | throws => exact ⟨c1 ++ j, by simp [Gen.andThen], fun _ h => by cases h⟩
  | ub => exact ⟨c1 ++ j, by simp [Gen.andThen], fun _ h => by cases h⟩

theorem CompAt.restoring {base c1 : List Instr} {n : Nat} {r : GenResult}
    {o : Outcome GenErr (List Instr)} {f : List Instr → GenResult}
    {o' : List Instr → Outcome GenErr (List Instr)}
    (h : CompAt (base ++ c1) r o) (hn : n = base.length)
    (hf : ∀ c, o = .ok c → CompAt base (f (base ++ (c1 ++ c))) (o' c)) :
    CompAt base (Gen.andThen (Gen.restoring n r) f) (o >>= o') := by
  subst hn
  obtain ⟨j, rfl, hj⟩ := h
  cases o with
  | ok c =>
    have := hj c rfl
    subst this
    have := hf j rfl
    simp only [Outcome.map_ok, Gen.restoring, Gen.andThen, Outcome.ok_bind, List.append_assoc]
    exact this
  | err e =>
    refine ⟨[], ?_, fun _ h => by cases h⟩
    simp [Gen.restoring, Gen.andThen]
  | throws => exact ⟨c1 ++ j, by simp [Gen.andThen, Gen.restoring], fun _ h => by cases h⟩
  | ub => exact ⟨c1 ++ j, by simp [Gen.andThen, Gen.restoring], fun _ h => by cases h⟩

/-! ## The code of a tree -/

/-- Code of a node with a value. -/
def foldedC (cv : Option Value) (rest : Outcome GenErr (List Instr)) :
    Outcome GenErr (List Instr) :=
  match cv with
  | none => .throws
  | some ⟨t, some x⟩ => .ok [.push ⟨t, x⟩]
  | some ⟨_, none⟩ => rest

/-- Code of the conversion of an argument. -/
def convertArgC (env : FnEnv) (ref : Option Lookup) (i : Nat) (arg : Expr) :
    Outcome GenErr (List Instr) :=
  match arg.cv with
  | none => .throws
  | some v =>
    match paramType env ref i with
    | .ok t => .ok (if v.type ≠ t then [.convert t] else [])
    | .err e => .err e
    | .throws => .throws
    | .ub => .ub

/-- The call instruction. -/
def callInstrC (env : FnEnv) (ref : Option Lookup) : Outcome GenErr (List Instr) :=
  match ref with
  | some (.node k) =>
    match env k with
    | some f =>
      match f.analyzed, f.address with
      | true, some a => .ok [.call a]
      | _, _ => .err .call_to_unanalyzed
    | none => .ok []
  | some (.builtin f) => .ok [.builtin f]
  | _ => .throws

/-- Code of `left && right` and `left || right`. -/
def shortCode (op : ExprType) (l r : List Instr) : List Instr :=
  l ++ .jumpIf (r.length + 1) (op = .logical_or) ::
    (r ++ [.jump 1, .push (CVal.ofBool (op = .logical_or))])

/-- Code of `left if cond else right`, and of `if (cond) left else right`. -/
def iteCode (c l r : List Instr) : List Instr :=
  c ++ .jumpIf (l.length + 1) false :: (l ++ .jump r.length :: r)

mutual

/-- The code of an expression. -/
def exprC (env : FnEnv) : Expr → Outcome GenErr (List Instr)
  | .literal _ cv => foldedC cv .throws
  | .id cv ref => foldedC cv ((toTarget ref).map fun k => [.load k])
  | .conversion cv e to =>
    foldedC cv (exprC env e >>= fun c =>
      match to with
      | some t => .ok (c ++ [.convert t])
      | none => .throws)
  | .ite cv left cond right =>
    foldedC cv (exprC env cond >>= fun c => exprC env left >>= fun l => exprC env right >>= fun r =>
      .ok (iteCode c l r))
  | .binary cv op left right =>
    foldedC cv (exprC env left >>= fun l => exprC env right >>= fun r =>
      .ok (if isShortCircuit op then shortCode op l r else l ++ (r ++ [.binary op])))
  | .prefix cv op e => foldedC cv (exprC env e >>= fun c => .ok (c ++ [.unary op]))
  | .call cv stmt ref arguments =>
    match cv with
    | none => .throws
    | some ⟨t, some x⟩ => .ok (if stmt then [] else [.push ⟨t, x⟩])
    | some ⟨_, none⟩ =>
      argsC env ref 0 arguments >>= fun as => callInstrC env ref >>= fun c =>
        .ok (as ++ (c ++ if stmt then [.pop] else []))

/-- The code of the arguments of a call, from argument `i` on. -/
def argsC (env : FnEnv) (ref : Option Lookup) : Nat → List Expr → Outcome GenErr (List Instr)
  | _, [] => .ok []
  | i, e :: es =>
    exprC env e >>= fun c => convertArgC env ref i e >>= fun v => argsC env ref (i + 1) es >>= fun r =>
      .ok (c ++ (v ++ r))

end

/-- Break and continue placeholders in the body of a loop, replaced by jumps; `before` is the length
of the code of the loop before its body. -/
def resolve (before : Nat) (b : List Instr) : List Instr :=
  b.mapIdx fun i ins =>
    match ins with
    | .break_ => .jump (b.length - i)
    | .continue_ => .jump (-(before + i : Int) - 1)
    | ins => ins

/-- Code of `while (cond) body`. -/
def whileCode (c b : List Instr) : List Instr :=
  c ++ .jumpIf (b.length + 1) false ::
    (resolve (c.length + 1) b ++ [.jump (-(c.length + 1 + b.length + 1 : Int))])

/-- Code of `return`. -/
def returnC (env : FnEnv) (ret : CType) (cv : Value) (e : Option Expr) :
    Outcome GenErr (List Instr) :=
  if cv.type ≠ ret then .throws
  else match cv.val with
    | some x => .ok [.push ⟨cv.type, x⟩, .ret]
    | none =>
      match e with
      | none => .throws
      | some e =>
        exprC env e >>= fun c =>
          match e.cv with
          | none => .throws
          | some v => .ok (c ++ ((if v.type ≠ ret then [.convert ret] else []) ++ [.ret]))

mutual

/-- The code of a statement. -/
def stmtC (env : FnEnv) (ret : Option CType) : Stmt → Outcome GenErr (List Instr)
  | .const_ _ _ cv _ => if cv.isSome then .ok [] else .throws
  | .let_ k _ cv init =>
    match cv with
    | none => .throws
    | some _ =>
      match init with
      | none => .ok []
      | some e => exprC env e >>= fun c => .ok (c ++ [.store k])
  | .staticAssert cv _ => if cv.isSome then .ok [] else .throws
  | .ifThen cond then_ =>
    exprC env cond >>= fun c => stmtC env ret then_ >>= fun t =>
      .ok (c ++ .jumpIf t.length false :: t)
  | .ifElse cond then_ else_ =>
    exprC env cond >>= fun c => stmtC env ret then_ >>= fun t => stmtC env ret else_ >>= fun e =>
      .ok (iteCode c t e)
  | .while_ cond body =>
    exprC env cond >>= fun c => stmtC env ret body >>= fun b => .ok (whileCode c b)
  | .control c cv e =>
    match ret, cv with
    | some ret, some cv =>
      match c with
      | .break_ => .ok [.break_]
      | .continue_ => .ok [.continue_]
      | .return_ => returnC env ret cv e
    | _, _ => .throws
  | .assign cv target e =>
    match cv with
    | none => .throws
    | some _ => exprC env e >>= fun c => (toTarget target).map fun k => c ++ [.store k]
  | .block ss => stmtsC env ret ss
  | .call e => exprC env e

/-- The code of the children of a block. -/
def stmtsC (env : FnEnv) (ret : Option CType) : List Stmt → Outcome GenErr (List Instr)
  | [] => .ok []
  | s :: ss => stmtC env ret s >>= fun c => stmtsC env ret ss >>= fun r => .ok (c ++ r)

end

/-- What follows the code of the body of a function. -/
def epilogueC (f : FunctionNode) : Outcome GenErr (List Instr) :=
  if f.ret ≠ some .void then .ok []
  else (returnsUnconditionally f.body).map fun b => if b then [] else [.push CVal.void, .ret]

/-- The code of a function. -/
def functionC (env : FnEnv) (f : FunctionNode) : Outcome GenErr (List Instr) :=
  if ¬ f.retAnalyzed then .throws
  else stmtsC env f.ret f.body >>= fun b => epilogueC f >>= fun e =>
    .ok (f.params.reverse.map Instr.store ++ (b ++ e))

/-! ## The generator produces this code -/

theorem CompAt.folded {base : List Instr} {cv : Option Value} {rest : List Instr → GenResult}
    {o : Outcome GenErr (List Instr)} (h : CompAt base (rest base) o) :
    CompAt base (folded cv rest base) (foldedC cv o) := by
  unfold Gen.folded foldedC
  split
  · exact .throws_nil base
  · exact .emit base _
  · exact h

theorem patchJumpIf_at (a l : List Instr) (i : Nat) (o off : Int) (b : Bool) (h : i = a.length) :
    patchJumpIf i off (a ++ .jumpIf o b :: l) = (a ++ .jumpIf off b :: l, .ok ()) := by
  subst h
  unfold patchJumpIf
  rw [List.getElem?_append_right (Nat.le_refl _)]
  simp [List.set_append_right]

theorem patchJump_at (a l : List Instr) (i : Nat) (o off : Int) (h : i = a.length) :
    patchJump i off (a ++ .jump o :: l) = (a ++ .jump off :: l, .ok ()) := by
  subst h
  unfold patchJump
  rw [List.getElem?_append_right (Nat.le_refl _)]
  simp [List.set_append_right]

theorem andThen_emit (i : Instr) (out : List Instr) (f : List Instr → GenResult) :
    Gen.andThen (Gen.emit i out) f = f (out ++ [i]) := rfl

theorem andThen_ok (out : List Instr) (f : List Instr → GenResult) :
    Gen.andThen (out, .ok ()) f = f out := rfl

theorem CompAt.of_eq {base c : List Instr} {r : GenResult} (h : r = (base ++ c, .ok ())) :
    CompAt base r (.ok c) := by subst h; exact .ok base c

theorem CompAt.nil {base : List Instr} {r : GenResult} {o : Outcome GenErr (List Instr)}
    (h : CompAt base r o) : CompAt (base ++ []) r o := by simpa using h

theorem convertArg_comp (env : FnEnv) (ref : Option Lookup) (i : Nat) (e : Expr)
    (base : List Instr) : CompAt base (convertArg env ref i e base) (convertArgC env ref i e) := by
  unfold convertArg convertArgC
  cases e.cv with
  | none => exact .throws_nil base
  | some v =>
    cases paramType env ref i with
    | ok t =>
      by_cases h : v.type = t
      · simp only [h, ne_eq, not_true, if_false]; exact .ok_nil base
      · simp only [h, ne_eq, not_false_iff, if_true]; exact .emit base _
    | err e => exact ⟨[], by simp, fun _ h => by cases h⟩
    | throws => exact .throws_nil base
    | ub => exact ⟨[], by simp, fun _ h => by cases h⟩

theorem callInstr_comp (env : FnEnv) (ref : Option Lookup) (base : List Instr) :
    CompAt base (callInstr env ref base) (callInstrC env ref) := by
  unfold callInstr callInstrC
  match ref with
  | some (.node k) =>
    simp only
    cases env k with
    | none => exact .ok_nil base
    | some f =>
      obtain ⟨ps, an, ad⟩ := f
      cases an <;> cases ad <;> first | exact .emit base _ | exact ⟨[], by simp, fun _ h => by cases h⟩
  | some (.builtin f) => exact .emit base _
  | some (.param k) => exact .throws_nil base
  | none => exact .throws_nil base

theorem expr_comp (env : FnEnv) (e : Expr) :
    ∀ base, CompAt base (expr env e base) (exprC env e) := by
  induction e using Expr.ind with
  | literal l cv => intro base; exact .folded (.throws_nil base)
  | id cv ref =>
    intro base
    refine .folded ?_
    cases toTarget ref with
    | ok k => exact .emit base _
    | err e => exact ⟨[], by simp, fun _ h => by cases h⟩
    | throws => exact .throws_nil base
    | ub => exact ⟨[], by simp, fun _ h => by cases h⟩
  | conversion cv e to ih =>
    intro base
    refine .folded (.andThen (ih base).nil fun c _ => ?_)
    cases to with
    | none => exact .throws base _
    | some t => exact .of_eq (by simp [Gen.emit])
  | ite cv left cond right ihl ihc ihr =>
    intro base
    refine .folded (.andThen (ihc base).nil fun c _ => ?_)
    simp only [List.nil_append, andThen_emit]
    refine .restoring (c1 := c ++ [.jumpIf 0 false])
      (by have := ihl (base ++ (c ++ [.jumpIf 0 false])); rwa [← List.append_assoc] at this ⊢) rfl
      fun l _ => ?_
    have hp : ∀ off : Int, patchJumpIf (base ++ c).length off
        (base ++ (c ++ [.jumpIf 0 false] ++ l)) = (base ++ c ++ .jumpIf off false :: l, .ok ()) := by
      intro off
      rw [show base ++ (c ++ [.jumpIf 0 false] ++ l) = (base ++ c) ++ .jumpIf 0 false :: l by simp]
      exact patchJumpIf_at _ _ _ _ _ _ rfl
    rw [hp]
    simp only [andThen_ok]
    refine .restoring (c1 := c ++ .jumpIf (l.length + 1) false :: (l ++ [.jump 0])) ?_ rfl
      fun r _ => ?_
    · have := ihr (base ++ (c ++ .jumpIf (l.length + 1) false :: (l ++ [.jump 0])))
      convert this using 2
      simp only [List.append_assoc, List.length_append, List.length_cons, List.length_nil,
        List.cons_append]
      congr 4
      push_cast
      omega
    · refine .of_eq ?_
      rw [show base ++ (c ++ .jumpIf (l.length + 1) false :: (l ++ [.jump 0]) ++ r)
        = (base ++ c ++ .jumpIf (l.length + 1) false :: l) ++ .jump 0 :: r by simp]
      rw [patchJump_at]
      · simp only [iteCode, List.append_assoc, List.cons_append]
        simp
        omega
      · simp
  | binary cv op left right ihl ihr =>
    intro base
    refine .folded (.andThen (ihl base).nil fun l _ => ?_)
    simp only [List.nil_append]
    by_cases hs : isShortCircuit op = true
    · simp only [hs, if_true, andThen_emit]
      refine .restoring (c1 := l ++ [.jumpIf 0 (op = .logical_or)]) ?_ rfl fun r _ => ?_
      · have := ihr (base ++ (l ++ [.jumpIf 0 (op = .logical_or)]))
        rwa [← List.append_assoc] at this ⊢
      · refine .of_eq ?_
        rw [show base ++ (l ++ [.jumpIf 0 (op = .logical_or)] ++ r)
          = (base ++ l) ++ .jumpIf 0 (op = .logical_or) :: r by simp]
        rw [patchJumpIf_at _ _ _ _ _ _ rfl]
        simp only [andThen_ok, Gen.emit, shortCode]
        simp
        omega
    · simp only [hs, if_false, Bool.false_eq_true]
      refine .restoring (c1 := l) (ihr (base ++ l)) rfl fun r _ => ?_
      exact .of_eq (by simp [Gen.emit])
  | pre cv op e ih =>
    intro base
    refine .folded (.andThen (ih base).nil fun c _ => ?_)
    exact .of_eq (by simp [Gen.emit])
  | call cv stmt ref arguments ih =>
    intro base
    have hargs : ∀ (as : List Expr), (∀ a ∈ as, a ∈ arguments) → ∀ i c1,
        CompAt (base ++ c1) (args env ref base.length i as (base ++ c1)) (argsC env ref i as) ∨
        ∃ e, argsC env ref i as = .err e ∧ CompAt base
          (args env ref base.length i as (base ++ c1)) (.err e) := by
      intro as
      induction as with
      | nil => intro _ i c1; exact .inl (.ok_nil _)
      | cons a as iha =>
        intro hmem i c1
        obtain ⟨j, hj, hjc⟩ := ih a (hmem a List.mem_cons_self) (base ++ c1)
        simp only [args, argsC]
        rw [hj]
        cases ha : exprC env a with
        | ok c =>
          have := hjc c ha
          subst this
          simp only [Outcome.map_ok, Gen.restoring, andThen_ok, Outcome.ok_bind]
          obtain ⟨jc, hjc', hjcc⟩ := convertArg_comp env ref i a (base ++ c1 ++ j)
          rw [hjc']
          cases hv : convertArgC env ref i a with
          | ok v =>
            have := hjcc v hv
            subst this
            simp only [Outcome.map_ok, andThen_ok, Outcome.ok_bind]
            rcases iha (fun x hx => hmem x (List.mem_cons_of_mem _ hx)) (i + 1) (c1 ++ (j ++ jc))
              with ⟨jr, hr, hrc⟩ | ⟨e, he, hr⟩
            · left
              rw [show base ++ c1 ++ j ++ jc = base ++ (c1 ++ (j ++ jc)) by simp, hr]
              cases hq : argsC env ref (i + 1) as with
              | ok r =>
                have := hrc r hq
                subst this
                exact .of_eq (by simp)
              | err e => exact ⟨j ++ jc ++ jr, by simp, fun _ h => by cases h⟩
              | throws => exact ⟨j ++ jc ++ jr, by simp, fun _ h => by cases h⟩
              | ub => exact ⟨j ++ jc ++ jr, by simp, fun _ h => by cases h⟩
            · right
              rw [show base ++ c1 ++ j ++ jc = base ++ (c1 ++ (j ++ jc)) by simp, he]
              exact ⟨e, rfl, hr⟩
          | err e => exact .inl ⟨j ++ jc, by simp [Gen.andThen], fun _ h => by cases h⟩
          | throws => exact .inl ⟨j ++ jc, by simp [Gen.andThen], fun _ h => by cases h⟩
          | ub => exact .inl ⟨j ++ jc, by simp [Gen.andThen], fun _ h => by cases h⟩
        | err e =>
          right
          exact ⟨e, rfl, [], by simp [Gen.andThen, Gen.restoring], fun _ h => by cases h⟩
        | throws =>
          exact .inl ⟨j, by simp [Gen.andThen, Gen.restoring], fun _ h => by cases h⟩
        | ub => exact .inl ⟨j, by simp [Gen.andThen, Gen.restoring], fun _ h => by cases h⟩
    simp only [expr, exprC]
    split
    · exact .throws_nil base
    · split
      · exact .ok_nil base
      · exact .emit base _
    · have hb : CompAt base (args env ref base.length 0 arguments base)
          (argsC env ref 0 arguments) := by
        rcases hargs arguments (fun _ h => h) 0 [] with h | ⟨e, he, h⟩
        · simpa using h
        · rw [he]; simpa using h
      refine .andThen hb.nil fun as _ => ?_
      simp only [List.nil_append]
      refine .andThen (callInstr_comp env ref (base ++ as)) fun c _ => ?_
      split
      · exact .of_eq (by simp [Gen.emit])
      · exact .of_eq (by simp)

theorem resolveLoop_at (a b : List Instr) (initial : Nat) (h : initial ≤ a.length) :
    resolveLoop initial a.length (a ++ b) = a ++ resolve (a.length - initial) b := by
  unfold resolveLoop resolve
  rw [List.mapIdx_append]
  congr 1
  · apply List.ext_getElem
    · simp
    · intro i h1 h2
      simp at h1
      simp [h1]
  · apply List.ext_getElem
    · simp
    · intro i h1 h2
      simp only [List.getElem_mapIdx, List.length_append]
      rw [if_neg (by omega)]
      simp at h1
      cases b[i] with
      | break_ => simp only [Instr.jump.injEq]; push_cast; omega
      | continue_ =>
        simp only [Instr.jump.injEq]
        push_cast [h]
        omega
      | _ => rfl

theorem returnC_comp (env : FnEnv) (ret : CType) (cv : Value) (e : Option Expr)
    (base : List Instr) : CompAt base (return_ env ret cv e base) (returnC env ret cv e) := by
  unfold return_ returnC
  by_cases ht : cv.type = ret
  · simp only [ht, ne_eq, not_true, if_false]
    cases cv.val with
    | some x => exact .of_eq (by simp [Gen.emit, Gen.andThen])
    | none =>
      cases e with
      | none => exact .throws_nil base
      | some e =>
        refine .andThen (expr_comp env e base).nil fun c _ => ?_
        cases e.cv with
        | none => exact .throws base _
        | some v =>
          refine .of_eq ?_
          by_cases h : v.type = ret <;> simp [h, Gen.emit, Gen.andThen]
  · simp only [ht, ne_eq, not_false_iff, if_true]; exact .throws_nil base

theorem stmt_comp (env : FnEnv) (ret : Option CType) (s : Stmt) :
    ∀ base, CompAt base (stmt env ret s base) (stmtC env ret s) := by
  induction s using Stmt.ind with
  | const_ k d cv e =>
    intro base
    simp only [stmt, stmtC]
    cases cv with
    | none => exact .throws_nil base
    | some v => exact .ok_nil base
  | let_ k d cv init =>
    intro base
    cases cv with
    | none => exact .throws_nil base
    | some v =>
      cases init with
      | none => exact .ok_nil base
      | some e =>
        simp only [stmt, stmtC]
        refine .andThen (expr_comp env e base).nil fun c _ => ?_
        exact .of_eq (by simp [Gen.emit])
  | staticAssert cv e =>
    intro base
    simp only [stmt, stmtC]
    cases cv with
    | none => exact .throws_nil base
    | some v => exact .ok_nil base
  | ifThen cond then_ ih =>
    intro base
    simp only [stmt, stmtC]
    refine .andThen (expr_comp env cond base).nil fun c _ => ?_
    simp only [List.nil_append, andThen_emit]
    refine .restoring (c1 := c ++ [.jumpIf 0 false])
      (by have := ih (base ++ (c ++ [.jumpIf 0 false])); rwa [← List.append_assoc] at this ⊢) rfl
      fun t _ => ?_
    refine .of_eq ?_
    rw [show base ++ (c ++ [.jumpIf 0 false] ++ t) = (base ++ c) ++ .jumpIf 0 false :: t by simp]
    rw [patchJumpIf_at _ _ _ _ _ _ rfl]
    simp
    omega
  | ifElse cond then_ else_ iht ihe =>
    intro base
    simp only [stmt, stmtC]
    refine .andThen (expr_comp env cond base).nil fun c _ => ?_
    simp only [List.nil_append, andThen_emit]
    refine .restoring (c1 := c ++ [.jumpIf 0 false])
      (by have := iht (base ++ (c ++ [.jumpIf 0 false])); rwa [← List.append_assoc] at this ⊢) rfl
      fun l _ => ?_
    have hp : ∀ off : Int, patchJumpIf (base ++ c).length off
        (base ++ (c ++ [.jumpIf 0 false] ++ l)) = (base ++ c ++ .jumpIf off false :: l, .ok ()) := by
      intro off
      rw [show base ++ (c ++ [.jumpIf 0 false] ++ l) = (base ++ c) ++ .jumpIf 0 false :: l by simp]
      exact patchJumpIf_at _ _ _ _ _ _ rfl
    rw [hp]
    simp only [andThen_ok]
    refine .restoring (c1 := c ++ .jumpIf (l.length + 1) false :: (l ++ [.jump 0])) ?_ rfl
      fun r _ => ?_
    · have := ihe (base ++ (c ++ .jumpIf (l.length + 1) false :: (l ++ [.jump 0])))
      convert this using 2
      simp only [List.append_assoc, List.length_append, List.length_cons, List.length_nil,
        List.cons_append]
      congr 4
      push_cast
      omega
    · refine .of_eq ?_
      rw [show base ++ (c ++ .jumpIf (l.length + 1) false :: (l ++ [.jump 0]) ++ r)
        = (base ++ c ++ .jumpIf (l.length + 1) false :: l) ++ .jump 0 :: r by simp]
      rw [patchJump_at]
      · simp only [iteCode, List.append_assoc, List.cons_append]
        simp
        omega
      · simp
  | while_ cond body ih =>
    intro base
    simp only [stmt, stmtC]
    refine .andThen (expr_comp env cond base).nil fun c _ => ?_
    simp only [List.nil_append, andThen_emit]
    refine .restoring (c1 := c ++ [.jumpIf 0 false])
      (by have := ih (base ++ (c ++ [.jumpIf 0 false])); rwa [← List.append_assoc] at this ⊢) rfl
      fun b _ => ?_
    refine .of_eq ?_
    rw [show base ++ (c ++ [.jumpIf 0 false] ++ b) = (base ++ c) ++ .jumpIf 0 false :: b by simp]
    rw [patchJumpIf_at _ _ _ _ _ _ rfl]
    simp only [andThen_ok]
    have hoff : (((base ++ c ++ Instr.jumpIf 0 false :: b).length : Int)
        - ((base ++ c ++ [Instr.jumpIf 0 false]).length : Int) + 1) = b.length + 1 := by
      simp; omega
    rw [hoff]
    have hr := resolveLoop_at (base ++ c ++ [.jumpIf (b.length + 1) false]) b base.length (by simp)
    rw [show (base ++ c ++ [Instr.jumpIf 0 false]).length
      = (base ++ c ++ [Instr.jumpIf ((b.length : Int) + 1) false]).length by simp]
    rw [show base ++ c ++ Instr.jumpIf ((b.length : Int) + 1) false :: b
      = (base ++ c ++ [Instr.jumpIf ((b.length : Int) + 1) false]) ++ b by simp]
    rw [hr]
    simp only [Gen.emit, whileCode]
    rw [show (base ++ c ++ [Instr.jumpIf ((b.length : Int) + 1) false]).length - base.length
      = c.length + 1 by simp]
    simp
    omega
  | control c cv e =>
    intro base
    simp only [stmt, stmtC]
    cases ret with
    | none => exact .throws_nil base
    | some ret =>
      cases cv with
      | none => exact .throws_nil base
      | some cv =>
        cases c
        · exact .emit base _
        · exact .emit base _
        · exact returnC_comp env _ _ e base
  | assign cv target e =>
    intro base
    simp only [stmt, stmtC]
    split
    · exact .throws_nil base
    · refine .andThen (expr_comp env e base).nil fun c _ => ?_
      cases toTarget target with
      | ok k => exact .of_eq (by simp [Gen.emit])
      | err e => exact ⟨c, by simp, fun _ h => by cases h⟩
      | throws => exact .throws base _
      | ub => exact ⟨c, by simp, fun _ h => by cases h⟩
  | block ss ih =>
    intro base
    simp only [stmt, stmtC]
    have hss : ∀ (l : List Stmt), (∀ s ∈ l, s ∈ ss) → ∀ c1,
        CompAt base (stmts env ret base.length l (base ++ c1))
          (stmtsC env ret l >>= fun r => .ok (c1 ++ r)) := by
      intro l
      induction l with
      | nil => intro _ c1; exact .of_eq (by simp [stmts])
      | cons s l ihl =>
        intro hmem c1
        simp only [stmts, stmtsC]
        obtain hs := ih s (hmem s List.mem_cons_self) (base ++ c1)
        have := CompAt.restoring (n := base.length) (f := stmts env ret base.length l) hs rfl
          (fun c _ => ihl (fun x hx => hmem x (List.mem_cons_of_mem _ hx)) (c1 ++ c))
        convert this using 1
        cases stmtC env ret s with
        | ok c => cases stmtsC env ret l <;> simp
        | _ => rfl
    have := hss ss (fun _ h => h) []
    simp only [List.append_nil, List.nil_append] at this
    cases hq : stmtsC env ret ss <;> rw [hq] at this <;> exact this
  | call e => intro base; exact expr_comp env e base

theorem function_comp (env : FnEnv) (f : FunctionNode) (base : List Instr) :
    CompAt base (function env f base) (functionC env f) := by
  simp only [function, functionC]
  split
  · exact .throws base _
  · refine .restoring (stmt_comp env f.ret (.block f.body) _) rfl fun b _ => ?_
    simp only [epilogueC]
    split
    · exact .of_eq (by simp)
    · cases returnsUnconditionally f.body with
      | ok v =>
        cases v
        · exact .of_eq (by simp [Gen.emit, Gen.andThen])
        · exact .of_eq (by simp)
      | err e => exact ⟨f.params.reverse.map Instr.store ++ b, by simp, fun _ h => by cases h⟩
      | throws => exact ⟨f.params.reverse.map Instr.store ++ b, by simp, fun _ h => by cases h⟩
      | ub => exact ⟨f.params.reverse.map Instr.store ++ b, by simp, fun _ h => by cases h⟩

end Gen

end Bms
