import Verif.Lemmas.Codegen
import Verif.Spec.Code

/-!
# Properties C28, C29: generated code is closed; failure leaves the output unchanged
-/

namespace Bms

open Spec

/-! ## C29 -/

/-- **C29.** Code generation for a function only appends; if it reports an error, the instructions are
exactly those that were there before. (If an assertion fails it throws; even then the previous
instructions are kept.) -/
theorem C29_all_or_nothing (env : FnEnv) (f : FunctionNode) (out : List Instr) :
    (∃ code, (Gen.function env f out).1 = out ++ code) ∧
    ∀ e, (Gen.function env f out).2 = .err e → (Gen.function env f out).1 = out := by
  obtain ⟨j, hj, -⟩ := Gen.function_comp env f out
  refine ⟨⟨j, by rw [hj]⟩, fun e he => ?_⟩
  simp only [Gen.function] at he ⊢
  split
  · rename_i h; rw [if_pos h] at he; cases he
  · rename_i h
    rw [if_neg h] at he
    obtain ⟨k, hk, hkc⟩ := Gen.stmt_comp env f.ret (.block f.body)
      (out ++ f.params.reverse.map Instr.store)
    rw [hk] at he ⊢
    cases hs : Gen.stmtC env f.ret (.block f.body) with
    | ok c =>
      rw [hs] at he
      simp only [Outcome.map_ok, Gen.restoring, Gen.andThen] at he
      split at he
      · cases he
      · cases hr : Gen.returnsUnconditionally f.body with
        | ok b => rw [hr] at he; cases b <;> cases he
        | err e =>
          rw [Gen.returnsUnconditionally] at hr
          split at hr <;> cases hr
        | throws => rw [hr] at he; cases he
        | ub => rw [hr] at he; cases he
    | err e' =>
      simp [Gen.restoring, Gen.andThen]
    | throws => rw [hs] at he; cases he
    | ub => rw [hs] at he; cases he

/-- **C29, position independence.** What is appended, and whether generation succeeds, does not depend
on the instructions that were generated before. -/
theorem C29_position_independent (env : FnEnv) (f : FunctionNode) (out out' : List Instr) :
    (Gen.function env f out).2 = (Gen.function env f out').2 ∧
    ((Gen.function env f out).2 = .ok () →
      ∃ code, Gen.function env f out = (out ++ code, .ok ()) ∧
        Gen.function env f out' = (out' ++ code, .ok ())) := by
  obtain ⟨j, hj, hjc⟩ := Gen.function_comp env f out
  obtain ⟨k, hk, hkc⟩ := Gen.function_comp env f out'
  rw [hj, hk]
  refine ⟨rfl, fun h => ?_⟩
  cases hc : Gen.functionC env f with
  | ok c =>
    rw [hc] at h
    have h1 := hjc c hc
    have h2 := hkc c hc
    subst h1
    subst h2
    exact ⟨_, rfl, rfl⟩
  | _ => rw [hc] at h; cases h

/-! ## C28 -/

theorem Spec.JumpsInside.nil : JumpsInside [] := by intro i ins o h; simp at h

theorem Spec.JumpsInside.append {a b : List Instr} (ha : JumpsInside a) (hb : JumpsInside b) :
    JumpsInside (a ++ b) := by
  intro i ins o h ho
  rw [List.getElem?_append] at h
  rw [List.length_append]
  split at h
  · have := ha i ins o h ho; omega
  · have := hb (i - a.length) ins o h ho; omega

theorem Spec.JumpsInside.cons {i : Instr} {b : List Instr} (hb : JumpsInside b)
    (hi : ∀ o, jumpOffset i = some o → 0 ≤ o + 1 ∧ o ≤ b.length) : JumpsInside (i :: b) := by
  intro k ins o h ho
  rw [List.length_cons]
  cases k with
  | zero =>
    simp at h
    subst h
    have := hi o ho
    push_cast
    omega
  | succ k =>
    simp at h
    have := hb k ins o h ho
    push_cast
    omega

theorem Spec.JumpsInside.single {i : Instr} (hi : jumpOffset i = none) : JumpsInside [i] :=
  .cons .nil fun o h => by rw [hi] at h; cases h

theorem Spec.JumpsInside.iteCode {c l r : List Instr} (hc : JumpsInside c) (hl : JumpsInside l)
    (hr : JumpsInside r) : JumpsInside (Gen.iteCode c l r) := by
  refine hc.append (.cons (hl.append (.cons hr ?_)) ?_)
  · intro o ho; cases ho; omega
  · intro o ho; cases ho; simp; omega

theorem Spec.JumpsInside.shortCode {op : ExprType} {l r : List Instr} (hl : JumpsInside l)
    (hr : JumpsInside r) : JumpsInside (Gen.shortCode op l r) := by
  refine hl.append (.cons (hr.append (.cons (.single rfl) ?_)) ?_)
  · intro o ho; cases ho; simp
  · intro o ho; cases ho; simp; omega

theorem Spec.JumpsInside.whileCode {c b : List Instr} (hc : JumpsInside c) (hb : JumpsInside b) :
    JumpsInside (Gen.whileCode c b) := by
  intro i ins o h ho
  unfold Gen.whileCode at h ⊢
  simp only [List.length_append, List.length_cons, List.length_nil, Gen.resolve,
    List.length_mapIdx] at h ⊢
  rw [List.getElem?_append] at h
  split at h
  · have := hc i ins o h ho; omega
  · rename_i hi
    obtain ⟨k, rfl⟩ : ∃ k, i = c.length + k := ⟨i - c.length, by omega⟩
    rw [Nat.add_sub_cancel_left] at h
    cases k with
    | zero => simp at h; subst h; cases ho; push_cast; omega
    | succ k =>
      rw [List.getElem?_cons_succ, List.getElem?_append] at h
      simp only [List.length_mapIdx] at h
      split at h
      · rename_i hk
        rw [List.getElem?_mapIdx, List.getElem?_eq_getElem hk] at h
        simp only [Option.map_some, Option.some.injEq] at h
        cases hbk : b[k] with
        | jump o' =>
          rw [hbk] at h
          subst h
          cases ho
          have := hb k (.jump o) o (by rw [List.getElem?_eq_getElem hk, hbk]) rfl
          push_cast
          omega
        | jumpIf o' e =>
          rw [hbk] at h
          subst h
          cases ho
          have := hb k (.jumpIf o e) o (by rw [List.getElem?_eq_getElem hk, hbk]) rfl
          push_cast
          omega
        | break_ => rw [hbk] at h; subst h; cases ho; push_cast; omega
        | continue_ => rw [hbk] at h; subst h; cases ho; push_cast; omega
        | _ => rw [hbk] at h; subst h; cases ho
      · rename_i hk
        have hk0 : k - b.length = 0 := by
          rcases Nat.eq_zero_or_pos (k - b.length) with h0 | h0
          · exact h0
          · rw [List.getElem?_eq_none (by simp; omega)] at h; cases h
        rw [hk0] at h
        simp at h
        subst h
        cases ho
        push_cast
        omega

theorem Spec.NoPlaceholder.append {a b : List Instr} (ha : NoPlaceholder a) (hb : NoPlaceholder b) :
    NoPlaceholder (a ++ b) := by
  intro i hi
  rcases List.mem_append.1 hi with h | h
  · exact ha i h
  · exact hb i h

theorem Spec.NoPlaceholder.cons {i : Instr} {b : List Instr} (hi : i ≠ .break_ ∧ i ≠ .continue_)
    (hb : NoPlaceholder b) : NoPlaceholder (i :: b) := by
  intro j hj
  cases hj with
  | head => exact hi
  | tail _ h => exact hb j h

theorem Spec.NoPlaceholder.nil : NoPlaceholder [] := by intro i hi; cases hi

theorem Spec.NoPlaceholder.whileCode {c b : List Instr} (hc : NoPlaceholder c) :
    NoPlaceholder (Gen.whileCode c b) := by
  refine hc.append (.cons ⟨by simp, by simp⟩ (.append ?_ (.cons ⟨by simp, by simp⟩ .nil)))
  intro i hi
  simp only [Gen.resolve, List.mem_mapIdx] at hi
  obtain ⟨k, hk, rfl⟩ := hi
  cases b[k] <;> simp

theorem exprC_closed (env : FnEnv) (e : Expr) : ∀ c, Gen.exprC env e = .ok c →
    JumpsInside c ∧ NoPlaceholder c := by
  have hfold : ∀ {cv : Option Value} {o : Outcome GenErr (List Instr)} {c : List Instr},
      Gen.foldedC cv o = .ok c → (∀ c, o = .ok c → JumpsInside c ∧ NoPlaceholder c) →
      JumpsInside c ∧ NoPlaceholder c := by
    intro cv o c h ho
    unfold Gen.foldedC at h
    split at h
    · cases h
    · cases h; exact ⟨.single rfl, .cons ⟨by simp, by simp⟩ .nil⟩
    · exact ho c h
  induction e using Expr.ind with
  | literal l cv => intro c h; exact hfold h (by intro c h; cases h)
  | id cv ref =>
    intro c h
    refine hfold h fun c h => ?_
    cases ht : Gen.toTarget ref <;> rw [ht] at h <;> cases h
    exact ⟨.single rfl, .cons ⟨by simp, by simp⟩ .nil⟩
  | conversion cv e to ih =>
    intro c h
    refine hfold h fun c h => ?_
    obtain ⟨ce, he, h⟩ := Outcome.bind_eq_ok.1 h
    cases to with
    | none => cases h
    | some t =>
      cases h
      exact ⟨(ih ce he).1.append (.single rfl), (ih ce he).2.append (.cons ⟨by simp, by simp⟩ .nil)⟩
  | ite cv left cond right ihl ihc ihr =>
    intro c h
    refine hfold h fun c h => ?_
    obtain ⟨cc, hc, h⟩ := Outcome.bind_eq_ok.1 h
    obtain ⟨cl, hl, h⟩ := Outcome.bind_eq_ok.1 h
    obtain ⟨cr, hr, h⟩ := Outcome.bind_eq_ok.1 h
    cases h
    exact ⟨(ihc _ hc).1.iteCode (ihl _ hl).1 (ihr _ hr).1,
      (ihc _ hc).2.append (.cons ⟨by simp, by simp⟩
        ((ihl _ hl).2.append (.cons ⟨by simp, by simp⟩ (ihr _ hr).2)))⟩
  | binary cv op left right ihl ihr =>
    intro c h
    refine hfold h fun c h => ?_
    obtain ⟨cl, hl, h⟩ := Outcome.bind_eq_ok.1 h
    obtain ⟨cr, hr, h⟩ := Outcome.bind_eq_ok.1 h
    cases h
    split
    · exact ⟨(ihl _ hl).1.shortCode (ihr _ hr).1,
        (ihl _ hl).2.append (.cons ⟨by simp, by simp⟩ ((ihr _ hr).2.append
          (.cons ⟨by simp, by simp⟩ (.cons ⟨by simp, by simp⟩ .nil))))⟩
    · exact ⟨(ihl _ hl).1.append ((ihr _ hr).1.append (.single rfl)),
        (ihl _ hl).2.append ((ihr _ hr).2.append (.cons ⟨by simp, by simp⟩ .nil))⟩
  | pre cv op e ih =>
    intro c h
    refine hfold h fun c h => ?_
    obtain ⟨ce, he, h⟩ := Outcome.bind_eq_ok.1 h
    cases h
    exact ⟨(ih ce he).1.append (.single rfl), (ih ce he).2.append (.cons ⟨by simp, by simp⟩ .nil)⟩
  | call cv stmt ref arguments ih =>
    intro c h
    have hargs : ∀ (as : List Expr), (∀ a ∈ as, a ∈ arguments) → ∀ i c,
        Gen.argsC env ref i as = .ok c → JumpsInside c ∧ NoPlaceholder c := by
      intro as
      induction as with
      | nil => intro _ i c h; cases h; exact ⟨.nil, .nil⟩
      | cons a as iha =>
        intro hmem i c h
        obtain ⟨ca, hca, h⟩ := Outcome.bind_eq_ok.1 h
        obtain ⟨cv, hcv, h⟩ := Outcome.bind_eq_ok.1 h
        obtain ⟨cr, hcr, h⟩ := Outcome.bind_eq_ok.1 h
        cases h
        have h1 := ih a (hmem a List.mem_cons_self) ca hca
        have h2 := iha (fun x hx => hmem x (List.mem_cons_of_mem _ hx)) _ _ hcr
        have h3 : JumpsInside cv ∧ NoPlaceholder cv := by
          unfold Gen.convertArgC at hcv
          split at hcv
          · cases hcv
          · split at hcv
            · cases hcv
              split
              · exact ⟨.single rfl, .cons ⟨by simp, by simp⟩ .nil⟩
              · exact ⟨.nil, .nil⟩
            all_goals cases hcv
        exact ⟨h1.1.append (h3.1.append h2.1), h1.2.append (h3.2.append h2.2)⟩
    simp only [Gen.exprC] at h
    split at h
    · cases h
    · cases h
      split
      · exact ⟨.nil, .nil⟩
      · exact ⟨.single rfl, .cons ⟨by simp, by simp⟩ .nil⟩
    · obtain ⟨as, has, h⟩ := Outcome.bind_eq_ok.1 h
      obtain ⟨cc, hcc, h⟩ := Outcome.bind_eq_ok.1 h
      cases h
      have h1 := hargs arguments (fun _ h => h) 0 as has
      have h2 : JumpsInside cc ∧ NoPlaceholder cc := by
        unfold Gen.callInstrC at hcc
        split at hcc
        · split at hcc
          · split at hcc
            · cases hcc; exact ⟨.single rfl, .cons ⟨by simp, by simp⟩ .nil⟩
            · cases hcc
          · cases hcc; exact ⟨.nil, .nil⟩
        · cases hcc; exact ⟨.single rfl, .cons ⟨by simp, by simp⟩ .nil⟩
        · cases hcc
      refine ⟨h1.1.append (h2.1.append ?_), h1.2.append (h2.2.append ?_)⟩
      · split
        · exact .single rfl
        · exact .nil
      · split
        · exact .cons ⟨by simp, by simp⟩ .nil
        · exact .nil

theorem stmtC_closed (env : FnEnv) (ret : Option CType) (s : Stmt) :
    ∀ c, Gen.stmtC env ret s = .ok c →
      JumpsInside c ∧ (LoopControl false s → NoPlaceholder c) := by
  induction s using Stmt.ind with
  | const_ k d cv e =>
    intro c h
    simp only [Gen.stmtC] at h
    split at h <;> cases h
    exact ⟨.nil, fun _ => .nil⟩
  | let_ k d cv init =>
    intro c h
    simp only [Gen.stmtC] at h
    split at h
    · cases h
    · split at h
      · cases h; exact ⟨.nil, fun _ => .nil⟩
      · obtain ⟨ce, he, h⟩ := Outcome.bind_eq_ok.1 h
        cases h
        have := exprC_closed env _ ce he
        exact ⟨this.1.append (.single rfl), fun _ => this.2.append (.cons ⟨by simp, by simp⟩ .nil)⟩
  | staticAssert cv e =>
    intro c h
    simp only [Gen.stmtC] at h
    split at h <;> cases h
    exact ⟨.nil, fun _ => .nil⟩
  | ifThen cond then_ ih =>
    intro c h
    obtain ⟨cc, hc, h⟩ := Outcome.bind_eq_ok.1 h
    obtain ⟨ct, ht, h⟩ := Outcome.bind_eq_ok.1 h
    cases h
    have h1 := exprC_closed env _ cc hc
    have h2 := ih ct ht
    refine ⟨h1.1.append (.cons h2.1 ?_), fun hl =>
      h1.2.append (.cons ⟨by simp, by simp⟩ (h2.2 hl))⟩
    intro o ho; cases ho; omega
  | ifElse cond then_ else_ iht ihe =>
    intro c h
    obtain ⟨cc, hc, h⟩ := Outcome.bind_eq_ok.1 h
    obtain ⟨ct, ht, h⟩ := Outcome.bind_eq_ok.1 h
    obtain ⟨ce, he, h⟩ := Outcome.bind_eq_ok.1 h
    cases h
    have h1 := exprC_closed env _ cc hc
    have h2 := iht ct ht
    have h3 := ihe ce he
    exact ⟨h1.1.iteCode h2.1 h3.1, fun hl => h1.2.append (.cons ⟨by simp, by simp⟩
      ((h2.2 hl.1).append (.cons ⟨by simp, by simp⟩ (h3.2 hl.2))))⟩
  | while_ cond body ih =>
    intro c h
    obtain ⟨cc, hc, h⟩ := Outcome.bind_eq_ok.1 h
    obtain ⟨cb, hb, h⟩ := Outcome.bind_eq_ok.1 h
    cases h
    have h1 := exprC_closed env _ cc hc
    exact ⟨h1.1.whileCode (ih cb hb).1, fun _ => h1.2.whileCode⟩
  | control k cv e =>
    intro c h
    simp only [Gen.stmtC] at h
    split at h
    · cases k with
      | break_ =>
        cases h
        exact ⟨.single rfl, fun hl => by cases hl with | inl h => cases h | inr h => cases h⟩
      | continue_ =>
        cases h
        exact ⟨.single rfl, fun hl => by cases hl with | inl h => cases h | inr h => cases h⟩
      | return_ =>
        simp only [Gen.returnC] at h
        split at h
        · cases h
        · split at h
          · cases h
            exact ⟨.cons (.single rfl) (fun o ho => by cases ho),
              fun _ => .cons ⟨by simp, by simp⟩ (.cons ⟨by simp, by simp⟩ .nil)⟩
          · split at h
            · cases h
            · obtain ⟨ce, he, h⟩ := Outcome.bind_eq_ok.1 h
              have h1 := exprC_closed env _ ce he
              split at h
              · cases h
              · cases h
                refine ⟨h1.1.append (.append ?_ (.single rfl)), fun _ =>
                  h1.2.append (.append ?_ (.cons ⟨by simp, by simp⟩ .nil))⟩
                · split
                  · exact .single rfl
                  · exact .nil
                · split
                  · exact .cons ⟨by simp, by simp⟩ .nil
                  · exact .nil
    · cases h
  | assign cv target e =>
    intro c h
    simp only [Gen.stmtC] at h
    split at h
    · cases h
    · obtain ⟨ce, he, h⟩ := Outcome.bind_eq_ok.1 h
      have h1 := exprC_closed env _ ce he
      cases ht : Gen.toTarget target <;> rw [ht] at h <;> cases h
      exact ⟨h1.1.append (.single rfl), fun _ => h1.2.append (.cons ⟨by simp, by simp⟩ .nil)⟩
  | block ss ih =>
    intro c h
    have : ∀ (l : List Stmt), (∀ s ∈ l, s ∈ ss) → ∀ c, Gen.stmtsC env ret l = .ok c →
        JumpsInside c ∧ (LoopControls false l → NoPlaceholder c) := by
      intro l
      induction l with
      | nil => intro _ c h; cases h; exact ⟨.nil, fun _ => .nil⟩
      | cons s l ihl =>
        intro hmem c h
        obtain ⟨cs, hcs, h⟩ := Outcome.bind_eq_ok.1 h
        obtain ⟨cl, hcl, h⟩ := Outcome.bind_eq_ok.1 h
        cases h
        have h1 := ih s (hmem s List.mem_cons_self) cs hcs
        have h2 := ihl (fun x hx => hmem x (List.mem_cons_of_mem _ hx)) cl hcl
        exact ⟨h1.1.append h2.1, fun hl => (h1.2 hl.1).append (h2.2 hl.2)⟩
    exact this ss (fun _ h => h) c h
  | call e =>
    intro c h
    have := exprC_closed env e c h
    exact ⟨this.1, fun _ => this.2⟩

/-- **C28.** If code generation for a function succeeds, every relative jump in the code leads into
the code of this function or directly behind it, and, if `break` and `continue` occur in loops only
(which analysis ensures), no placeholder is left. -/
theorem C28_closed {env : FnEnv} {f : FunctionNode} {out out' : List Instr}
    (h : Gen.function env f out = (out', .ok ())) :
    ∃ code, out' = out ++ code ∧ JumpsInside code ∧
      (LoopControls false f.body → NoPlaceholder code) := by
  obtain ⟨j, hj, hjc⟩ := Gen.function_comp env f out
  rw [hj] at h
  cases hc : Gen.functionC env f with
  | ok c =>
    have hjc := hjc c hc
    subst hjc
    rw [hc] at h
    cases h
    refine ⟨_, rfl, ?_⟩
    simp only [Gen.functionC] at hc
    split at hc
    · cases hc
    · obtain ⟨b, hb, hc⟩ := Outcome.bind_eq_ok.1 hc
      obtain ⟨e, he, hc⟩ := Outcome.bind_eq_ok.1 hc
      cases hc
      have h1 : ∀ l : List Key, JumpsInside (l.map Instr.store) ∧
          NoPlaceholder (l.map Instr.store) := by
        intro l
        induction l with
        | nil => exact ⟨.nil, .nil⟩
        | cons k l ih => exact ⟨.cons ih.1 (fun o h => by cases h), .cons ⟨by simp, by simp⟩ ih.2⟩
      have h2 := stmtC_closed env f.ret (.block f.body) b hb
      have h3 : JumpsInside e ∧ NoPlaceholder e := by
        unfold Gen.epilogueC at he
        split at he
        · cases he; exact ⟨.nil, .nil⟩
        · cases hr : Gen.returnsUnconditionally f.body with
          | ok v =>
            rw [hr] at he
            cases he
            cases v
            · exact ⟨.cons (.single rfl) (fun o ho => by cases ho),
                .cons ⟨by simp, by simp⟩ (.cons ⟨by simp, by simp⟩ .nil)⟩
            · exact ⟨.nil, .nil⟩
          | _ => rw [hr] at he; cases he
      exact ⟨(h1 _).1.append (h2.1.append h3.1),
        fun hl => (h1 _).2.append ((h2.2 hl).append h3.2)⟩
  | _ => rw [hc] at h; cases h

/-- A function `f(x: Int) -> Void { while true { if x == 0 { break; } else { continue; } } }`. -/
def closedExample : FunctionNode where
  params := [7]
  retAnalyzed := true
  ret := some .void
  body := [.while_ (.literal .true_ (some (Value.ofBool true)))
    (.block [.ifElse
      (.binary (some (Value.unknownOf .bool)) .equals (.id (some (Value.unknownOf .int)) (some (.param 7)))
        (.literal (.integer ['0']) (some (Value.known (CVal.ofInt 0)))))
      (.block [.control .break_ (some Value.void) none])
      (.block [.control .continue_ (some Value.void) none])])]

/-- The hypotheses of `C28_closed` are met: generation succeeds, with a loop, a `break` and a
`continue`. -/
example : Gen.function (fun _ => none) closedExample [.pop] =
    ([.pop, .store 7, .push CVal.tt, .jumpIf 8 false, .load 7, .push (CVal.ofInt 0), .binary .equals,
      .jumpIf 2 false, .jump 3, .jump 1, .jump (-9), .jump (-10), .push CVal.void, .ret], .ok ()) ∧
    LoopControls false closedExample.body := by
  refine ⟨by decide +kernel, ?_⟩
  simp [closedExample, LoopControls, LoopControl]

/-- A call of a function without code is reported, with the output unchanged. -/
example : Gen.function (fun _ => some ⟨[], true, none⟩)
    ⟨[1], true, some .int, [.let_ 5 none (some (Value.unknownOf .int))
        (some (.literal (.integer ['3']) (some (Value.known (CVal.ofInt 3))))),
      .control .return_ (some (Value.unknownOf .int)) (some (.call (some (Value.unknownOf .int)) false (some (.node 9)) []))]⟩
    [.pop] = ([.pop], .err .call_to_unanalyzed) := by decide +kernel

end Bms
