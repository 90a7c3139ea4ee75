import Verif.Lemmas.SimProg

/-!
# Generated code is well-formed
-/

namespace Bms

open Spec Gen

/-- `InstrOk` without the condition on jumps. -/
def OperandOk : Instr → Prop
  | .load k | .store k => k ≠ sentinelKey
  | .push v => WF v
  | .convert t => t.WF
  | _ => True

/-- All instructions have well-formed operands. -/
def OperandsOk (c : List Instr) : Prop := ∀ i ∈ c, OperandOk i

theorem OperandsOk.nil : OperandsOk [] := fun _ h => by cases h

theorem OperandsOk.cons {i : Instr} {c : List Instr} (hi : OperandOk i) (hc : OperandsOk c) :
    OperandsOk (i :: c) := by
  intro j hj
  cases hj with
  | head => exact hi
  | tail _ h => exact hc j h

theorem OperandsOk.append {a b : List Instr} (ha : OperandsOk a) (hb : OperandsOk b) :
    OperandsOk (a ++ b) := fun i hi => (List.mem_append.1 hi).elim (ha i) (hb i)

section

variable {Γ : Ctx} {env : FnEnv}

theorem Sound.push {M : Meaning} {σ : Frame} {e : Expr} {w : Value} (h : Sound M σ e w) {x : Int}
    (hx : w.val = some x) : OperandOk (.push ⟨w.type, x⟩) := (h.ok _ (h.known x hx)).2

theorem argsC_operands {ref : Option Lookup} (hp : ∀ i t, paramType env ref i = .ok t → t.WF)
    {args : List Expr} (ih : ∀ a ∈ args, ∀ c, exprC env a = .ok c → OperandsOk c) :
    ∀ i c, argsC env ref i args = .ok c → OperandsOk c := by
  induction args with
  | nil => intro i c h; cases h; exact .nil
  | cons a as iha =>
    intro i c h
    simp only [argsC] at h
    obtain ⟨ca, hca, h⟩ := Outcome.bind_eq_ok.1 h
    obtain ⟨cv, hcv, h⟩ := Outcome.bind_eq_ok.1 h
    obtain ⟨cr, hcr, h⟩ := Outcome.bind_eq_ok.1 h
    cases h
    refine (ih a List.mem_cons_self ca hca).append
      (.append ?_ (iha (fun a ha => ih a (List.mem_cons_of_mem _ ha)) _ _ hcr))
    unfold convertArgC at hcv
    split at hcv
    · cases hcv
    · split at hcv
      · rename_i ht
        cases hcv
        split
        · exact .cons (hp _ _ ht) .nil
        · exact .nil
      all_goals cases hcv

theorem callInstrC_operands {ref : Option Lookup} {c : List Instr} (h : callInstrC env ref = .ok c) :
    OperandsOk c := by
  unfold callInstrC at h
  split at h
  · split at h
    · split at h
      · cases h; exact .cons trivial .nil
      · cases h
    · cases h; exact .nil
  · cases h; exact .cons trivial .nil
  · cases h

theorem paramType_wf (hΓ : Γ.WF) (hE : EnvOk Γ env) {cv : Option Value} {st : Bool}
    {ref : Option Lookup} {args : List Expr} (ht : Typed Γ (.call cv st ref args)) :
    ∀ i t, paramType env ref i = .ok t → t.WF := by
  intro i t h
  cases ht with
  | call hk hta hargs =>
    rename_i k ts u
    obtain ⟨f, hf, hfp⟩ := hE k ts u hk
    unfold paramType at h
    simp only [hf] at h
    cases hi : f.params[i]? with
    | none => rw [hi] at h; cases h
    | some o =>
      rw [hi] at h
      cases o with
      | none => cases h
      | some v =>
        cases h
        have h1 : (f.params.map (Option.map Value.type))[i]? = some (some v.type) := by
          rw [List.getElem?_map, hi]; rfl
        rw [hfp, List.getElem?_map, Option.map_eq_some_iff] at h1
        obtain ⟨t, ht, he⟩ := h1
        cases he
        exact (hΓ.fns k ts u hk).2 _ (List.mem_of_getElem? ht)
  | builtin hta hcv hev =>
    rename_i f vs w
    cases f
    unfold paramType at h
    simp only [Builtin.paramTypes] at h
    cases i with
    | zero => cases h; trivial
    | succ i => simp at h

theorem exprC_operands (hΓ : Γ.WF) (hE : EnvOk Γ env) {M : Meaning} (hA : Agrees Γ M) {σ : Frame}
    (hσ : FrameOk Γ σ) (e : Expr) : Typed Γ e → ∀ c, exprC env e = .ok c → OperandsOk c := by
  induction e using Expr.ind with
  | literal l cv =>
    intro ht c hc
    obtain ⟨w, hs⟩ := typed_sound hΓ hA hσ ht
    obtain rfl : cv = some w := hs.cv
    simp only [exprC] at hc
    rcases foldedC_ok hc with ⟨x, hx, rfl⟩ | ⟨hx, hc⟩
    · exact .cons (hs.push hx) .nil
    · cases hc
  | id cv ref =>
    intro ht c hc
    obtain ⟨w, hs⟩ := typed_sound hΓ hA hσ ht
    obtain rfl : cv = some w := hs.cv
    simp only [exprC] at hc
    rcases foldedC_ok hc with ⟨x, hx, rfl⟩ | ⟨hx, hc⟩
    · exact .cons (hs.push hx) .nil
    · cases ht with
      | var hk hv => cases hc; exact .cons (hΓ.vars _ _ hv).2 .nil
      | param hv => cases hc; exact .cons (hΓ.vars _ _ hv).2 .nil
      | const_ hk => cases hx
      | width hw => cases hx
  | conversion cv e ct ih =>
    intro ht c hc
    obtain ⟨w, hs⟩ := typed_sound hΓ hA hσ ht
    obtain rfl : cv = some w := hs.cv
    simp only [exprC] at hc
    rcases foldedC_ok hc with ⟨x, hx, rfl⟩ | ⟨hx, hc⟩
    · exact .cons (hs.push hx) .nil
    · cases ht with
      | conversion he hcv htw hconv hf =>
        obtain ⟨ce, hce, hc⟩ := Outcome.bind_eq_ok.1 hc
        cases hc
        exact (ih he ce hce).append (.cons htw .nil)
  | ite cv l c r ihl ihc ihr =>
    intro ht code hc
    obtain ⟨w, hs⟩ := typed_sound hΓ hA hσ ht
    obtain rfl : cv = some w := hs.cv
    simp only [exprC] at hc
    rcases foldedC_ok hc with ⟨x, hx, rfl⟩ | ⟨hx, hc⟩
    · exact .cons (hs.push hx) .nil
    · cases ht with
      | ite hl hcd hr hcl hcc hcr hck hf =>
        obtain ⟨cc, hcc', hc⟩ := Outcome.bind_eq_ok.1 hc
        obtain ⟨cl, hcl', hc⟩ := Outcome.bind_eq_ok.1 hc
        obtain ⟨cr, hcr', hc⟩ := Outcome.bind_eq_ok.1 hc
        cases hc
        exact (ihc hcd cc hcc').append (.cons trivial
          ((ihl hl cl hcl').append (.cons trivial (ihr hr cr hcr'))))
  | binary cv op l r ihl ihr =>
    intro ht c hc
    obtain ⟨w, hs⟩ := typed_sound hΓ hA hσ ht
    obtain rfl : cv = some w := hs.cv
    simp only [exprC] at hc
    rcases foldedC_ok hc with ⟨x, hx, rfl⟩ | ⟨hx, hc⟩
    · exact .cons (hs.push hx) .nil
    · cases ht with
      | binary hl hr _ _ _ _ =>
        obtain ⟨cl, hcl', hc⟩ := Outcome.bind_eq_ok.1 hc
        obtain ⟨cr, hcr', hc⟩ := Outcome.bind_eq_ok.1 hc
        cases hc
        split
        · exact (ihl hl cl hcl').append (.cons trivial
            ((ihr hr cr hcr').append (.cons trivial (.cons (ofBool_wf _) .nil))))
        · exact (ihl hl cl hcl').append ((ihr hr cr hcr').append (.cons trivial .nil))
  | pre cv op e ih =>
    intro ht c hc
    obtain ⟨w, hs⟩ := typed_sound hΓ hA hσ ht
    obtain rfl : cv = some w := hs.cv
    simp only [exprC] at hc
    rcases foldedC_ok hc with ⟨x, hx, rfl⟩ | ⟨hx, hc⟩
    · exact .cons (hs.push hx) .nil
    · cases ht with
      | pre he _ _ _ =>
        obtain ⟨ce, hce, hc⟩ := Outcome.bind_eq_ok.1 hc
        cases hc
        exact (ih he ce hce).append (.cons trivial .nil)
  | call cv st ref args ih =>
    intro ht c hc
    obtain ⟨w, hs⟩ := typed_sound hΓ hA hσ ht
    obtain rfl : cv = some w := hs.cv
    have hta : ∀ a ∈ args, Typed Γ a := by cases ht <;> assumption
    simp only [exprC] at hc
    obtain ⟨t, v⟩ := w
    cases v with
    | some x =>
      simp only at hc
      cases hc
      split
      · exact .nil
      · exact .cons (hs.push rfl) .nil
    | none =>
      obtain ⟨as, has, hc⟩ := Outcome.bind_eq_ok.1 hc
      obtain ⟨ci, hci, hc⟩ := Outcome.bind_eq_ok.1 hc
      cases hc
      refine (argsC_operands (paramType_wf hΓ hE ht) (fun a ha => ih a ha (hta a ha)) 0 as has).append
        ((callInstrC_operands hci).append ?_)
      split
      · exact .cons trivial .nil
      · exact .nil

theorem resolve_operands {n : Nat} {b : List Instr} (h : OperandsOk b) : OperandsOk (resolve n b) := by
  intro i hi
  simp only [resolve, List.mem_mapIdx] at hi
  obtain ⟨k, hk, rfl⟩ := hi
  have := h b[k] (List.getElem_mem hk)
  cases hb : b[k] <;> rw [hb] at this <;> exact this

theorem stmtC_operands (hΓ : Γ.WF) (hE : EnvOk Γ env) {M : Meaning} (hA : Agrees Γ M) {σ : Frame}
    (hσ : FrameOk Γ σ) {ret : CType} (hret : ret.WF) (st : Stmt) :
    ∀ {loop : Bool}, TypedS Γ ret loop st → ∀ c, stmtC env (some ret) st = .ok c → OperandsOk c := by
  have hexpr := fun {e : Expr} => exprC_operands hΓ hE hA hσ e
  induction st using Stmt.ind with
  | const_ k d cv e =>
    intro loop ht c h
    simp only [stmtC] at h
    split at h <;> cases h
    exact .nil
  | let_ k d cv init =>
    intro loop ht c h
    cases ht with
    | letNone hc hv => cases h; exact .nil
    | letInit hc hv he _ _ =>
      simp only [stmtC] at h
      obtain ⟨ce, hce, h⟩ := Outcome.bind_eq_ok.1 h
      cases h
      exact (hexpr he ce hce).append (.cons (hΓ.vars _ _ hv).2 .nil)
  | staticAssert cv e =>
    intro loop ht c h
    simp only [stmtC] at h
    split at h <;> cases h
    exact .nil
  | ifThen cd t ih =>
    intro loop ht c h
    cases ht with
    | ifThen hc _ _ ht =>
      simp only [stmtC] at h
      obtain ⟨cc, hcc, h⟩ := Outcome.bind_eq_ok.1 h
      obtain ⟨ct, hct, h⟩ := Outcome.bind_eq_ok.1 h
      cases h
      exact (hexpr hc cc hcc).append (.cons trivial (ih ht ct hct))
  | ifElse cd t e iht ihe =>
    intro loop ht c h
    cases ht with
    | ifElse hc _ _ ht he =>
      simp only [stmtC] at h
      obtain ⟨cc, hcc, h⟩ := Outcome.bind_eq_ok.1 h
      obtain ⟨ct, hct, h⟩ := Outcome.bind_eq_ok.1 h
      obtain ⟨ce, hce, h⟩ := Outcome.bind_eq_ok.1 h
      cases h
      exact (hexpr hc cc hcc).append (.cons trivial
        ((iht ht ct hct).append (.cons trivial (ihe he ce hce))))
  | while_ cd b ih =>
    intro loop ht c h
    cases ht with
    | while_ hc _ _ hb =>
      simp only [stmtC] at h
      obtain ⟨cc, hcc, h⟩ := Outcome.bind_eq_ok.1 h
      obtain ⟨cb, hcb, h⟩ := Outcome.bind_eq_ok.1 h
      cases h
      exact (hexpr hc cc hcc).append (.cons trivial
        ((resolve_operands (ih hb cb hcb)).append (.cons trivial .nil)))
  | control ct cv e =>
    intro loop ht c h
    cases ht with
    | break_ => cases h; exact .cons trivial .nil
    | continue_ => cases h; exact .cons trivial .nil
    | returnVoid hr =>
      simp only [stmtC, returnC] at h
      rw [if_neg (by rw [hr]; decide)] at h
      cases h
      exact .cons ⟨trivial, rfl⟩ (.cons trivial .nil)
    | return_ he hcv hconv hf =>
      rename_i e v w
      simp only [stmtC, returnC] at h
      split at h
      · cases h
      · rename_i hw
        have hw : w.type = ret := by simpa using hw
        obtain ⟨u, hs⟩ := typed_sound hΓ hA hσ (.conversion he hcv hret hconv hf)
        have huw : some w = some u := hs.cv
        cases huw
        split at h
        · rename_i x hx
          cases h
          exact .cons (hs.push hx) (.cons trivial .nil)
        · obtain ⟨ce, hce, h⟩ := Outcome.bind_eq_ok.1 h
          rw [hcv] at h
          cases h
          refine (hexpr he ce hce).append (.append ?_ (.cons trivial .nil))
          split
          · exact .cons hret .nil
          · exact .nil
  | assign cv t e =>
    intro loop ht c h
    cases ht with
    | assign hc hv he hcv hconv hf =>
      simp only [stmtC] at h
      obtain ⟨ce, hce, h⟩ := Outcome.bind_eq_ok.1 h
      cases h
      exact (hexpr he ce hce).append (.cons (hΓ.vars _ _ hv).2 .nil)
  | block ss ih =>
    intro loop ht c h
    cases ht with
    | block ht =>
      simp only [stmtC] at h
      induction ss generalizing c with
      | nil => cases h; exact .nil
      | cons s ss ihs =>
        cases ht with
        | cons h1 h2 =>
          simp only [stmtsC] at h
          obtain ⟨c, hc, h⟩ := Outcome.bind_eq_ok.1 h
          obtain ⟨d, hd, h⟩ := Outcome.bind_eq_ok.1 h
          cases h
          exact (ih s List.mem_cons_self h1 c hc).append
            (ihs (fun s hs {_} => ih s (List.mem_cons_of_mem _ hs)) _ hd h2)
  | call e =>
    intro loop ht c h
    cases ht with
    | call he =>
      rename_i cv ref args
      simp only [stmtC] at h
      obtain ⟨w, hs⟩ := typed_sound hΓ hA hσ he
      obtain rfl : cv = some w := hs.cv
      obtain ⟨t, v⟩ := w
      simp only [exprC] at h
      cases v with
      | some x => cases h; exact .nil
      | none =>
        obtain ⟨as, has, h⟩ := Outcome.bind_eq_ok.1 h
        obtain ⟨ci, hci, h⟩ := Outcome.bind_eq_ok.1 h
        cases h
        have := hexpr he (as ++ (ci ++ [])) (by simp [exprC, has, hci])
        rw [List.append_nil] at this
        rw [← List.append_assoc]
        exact this.append (.cons trivial .nil)

end

/-! ## Branches -/

theorem branches_append {a b : List Instr} (ha : JumpsInside a) (hb : BranchesInside b)
    (hne : b ≠ []) : BranchesInside (a ++ b) := by
  intro i o e h
  have hl := List.length_pos_iff.2 hne
  rw [List.length_append]
  rw [List.getElem?_append] at h
  split at h
  · have := ha i _ o h rfl; omega
  · have := hb (i - a.length) o e h; omega

theorem branches_append' {a b : List Instr} (ha : BranchesInside a) (hb : BranchesInside b) :
    BranchesInside (a ++ b) := by
  intro i o e h
  rw [List.length_append]
  rw [List.getElem?_append] at h
  split at h
  · have := ha i o e h; omega
  · have := hb (i - a.length) o e h; omega

theorem branches_cons {i : Instr} {b : List Instr} (hb : BranchesInside b)
    (hi : ∀ o e, i = .jumpIf o e → o < b.length) : BranchesInside (i :: b) := by
  intro k o e h
  rw [List.length_cons]
  cases k with
  | zero =>
    simp at h
    have := hi o e h
    push_cast; omega
  | succ k =>
    simp at h
    have := hb k o e h
    push_cast; omega

theorem branches_nil : BranchesInside [] := by intro i o e h; simp at h

theorem ends_branches {env : FnEnv} {ret : Option CType} (st : Stmt) :
    Ends st → ∀ c, stmtC env ret st = .ok c → BranchesInside c ∧ c ≠ [] := by
  induction st using Stmt.ind with
  | control ct cv e =>
    intro hE c h
    cases ct <;> try (simp only [Ends] at hE; done)
    match ret, cv with
    | none, _ => cases h
    | some ret, none => cases h
    | some ret, some w =>
      simp only [stmtC, returnC] at h
      split at h
      · cases h
      · split at h
        · cases h
          exact ⟨branches_cons (branches_cons branches_nil (by simp)) (by simp), by simp⟩
        · split at h
          · cases h
          · obtain ⟨ce, hce, h⟩ := Outcome.bind_eq_ok.1 h
            split at h
            · cases h
            · cases h
              have hj := (exprC_closed env _ ce hce).1
              refine ⟨?_, by simp⟩
              split
              · exact branches_append hj (branches_cons (branches_cons branches_nil (by simp))
                  (by simp)) (by simp)
              · exact branches_append hj (branches_cons branches_nil (by simp)) (by simp)
  | ifElse cd t e iht ihe =>
    intro hE c h
    simp only [Ends] at hE
    simp only [stmtC] at h
    obtain ⟨cc, hcc, h⟩ := Outcome.bind_eq_ok.1 h
    obtain ⟨ct, hct, h⟩ := Outcome.bind_eq_ok.1 h
    obtain ⟨ce, hce, h⟩ := Outcome.bind_eq_ok.1 h
    cases h
    obtain ⟨h1, -⟩ := iht hE.1 ct hct
    obtain ⟨h2, h2'⟩ := ihe hE.2 ce hce
    have hl := List.length_pos_iff.2 h2'
    refine ⟨branches_append (exprC_closed env _ cc hcc).1 (branches_cons (branches_append' h1
      (branches_cons h2 (by simp))) ?_) (by simp), by simp [iteCode]⟩
    intro o e h
    cases h
    simp; omega
  | block ss ih =>
    intro hE c h
    simp only [Ends] at hE
    simp only [stmtC] at h
    induction ss generalizing c with
    | nil => exact absurd hE (by simp [EndsLast])
    | cons s ss ihs =>
      simp only [stmtsC] at h
      obtain ⟨c, hc, h⟩ := Outcome.bind_eq_ok.1 h
      obtain ⟨d, hd, h⟩ := Outcome.bind_eq_ok.1 h
      cases h
      cases ss with
      | nil =>
        cases hd
        simp only [EndsLast] at hE
        have := ih s List.mem_cons_self hE c hc
        rwa [List.append_nil]
      | cons s' ss =>
        simp only [EndsLast] at hE
        obtain ⟨h1, h2⟩ := ihs (fun s hs => ih s (List.mem_cons_of_mem _ hs)) hE d hd
        exact ⟨branches_append (stmtC_closed env ret s c hc).1 h1 h2, by simp [h2]⟩
  | _ => intro hE; exact absurd hE (by simp [Ends])

theorem Spec.Ends.returns (st : Stmt) : Ends st → Returns st := by
  induction st using Stmt.ind with
  | control ct cv e => intro h; cases ct <;> exact h
  | ifElse cd t e iht ihe =>
    intro h
    simp only [Ends] at h
    simp only [Returns]
    exact ⟨iht h.1, ihe h.2⟩
  | block ss ih =>
    intro h
    simp only [Ends] at h
    simp only [Returns]
    induction ss with
    | nil => exact absurd h (by simp [EndsLast])
    | cons s ss ihs =>
      cases ss with
      | nil =>
        simp only [EndsLast] at h
        exact .inl (ih s List.mem_cons_self h)
      | cons s' ss =>
        simp only [EndsLast] at h
        exact .inr (ihs (fun s hs => ih s (List.mem_cons_of_mem _ hs)) h)
  | _ => intro hE; exact absurd hE (by simp [Ends])

theorem Spec.Prog.Ends.returns {P : Prog} (h : P.Ends) : P.Returns := by
  intro k f hf hr
  rcases h k f hf with h | h
  · have := Spec.Ends.returns (.block f.body) (by simp only [Spec.Ends]; exact h)
    simp only [Spec.Returns] at this
    exact this
  · exact absurd h.1 hr

theorem function_branches {env : FnEnv} {f : FnDef} {c : List Instr}
    (hE : EndsLast f.body ∨ (f.ret = .void ∧ ∀ s ∈ f.body, isControl s = false))
    (h : functionC env f.node = .ok c) : BranchesInside c := by
  have hst : ∀ l : List Key, BranchesInside (l.map Instr.store) := by
    intro l
    induction l with
    | nil => exact branches_nil
    | cons k l ih => exact branches_cons ih (by simp)
  simp only [functionC, FnDef.node, not_true, if_false] at h
  obtain ⟨b, hb, h⟩ := Outcome.bind_eq_ok.1 h
  obtain ⟨e, he, h⟩ := Outcome.bind_eq_ok.1 h
  cases h
  refine branches_append' (hst _) ?_
  have hep : BranchesInside [.push CVal.void, .ret] :=
    branches_cons (branches_cons branches_nil (by simp)) (by simp)
  have hcl := (stmtC_closed env (some f.ret) (.block f.body) b hb).1
  unfold epilogueC at he
  rcases hE with hE | ⟨hv, hE⟩
  · have h1 := (ends_branches (.block f.body) (by simpa only [Ends] using hE) b hb).1
    refine branches_append' h1 ?_
    split at he
    · cases he; exact branches_nil
    · cases hu : returnsUnconditionally f.body with
      | ok u =>
        rw [hu] at he
        cases u
        · cases he; exact hep
        · cases he; exact branches_nil
      | _ => rw [hu] at he; cases he
  · have hn : returnsUnconditionally f.body = .ok false := by
      unfold returnsUnconditionally
      rw [List.findSome?_eq_none_iff.2]
      intro s hs
      have := hE s (List.mem_reverse.1 hs)
      cases s <;> first | rfl | cases this
    rw [if_neg (by simp [hv]), hn] at he
    cases he
    exact branches_append hcl hep (by simp)

/-! ## Programs -/

theorem env_ok (P : Prog) (addr : Key → Option Nat) (vars : Key → Option CType) :
    EnvOk (P.ctx vars) (P.env addr) := by
  intro j ts t hj
  simp only [Prog.ctx, Option.map_eq_some_iff] at hj
  obtain ⟨g, hg, hj⟩ := hj
  cases hj
  refine ⟨_, by simp only [Prog.env, hg, Option.map_some]; rfl, ?_⟩
  simp [Value.unknownOf]

theorem Spec.Loaded.branches {P : Prog} (hE : P.Ends) {addr : Key → Option Nat} {prog : List Instr}
    (h : Loaded P addr prog) : BranchesInside prog := by
  induction h with
  | empty => exact branches_nil
  | add hl hk hn hg ih =>
    obtain ⟨c, hcc, rfl, rfl⟩ := loadFunction_ok hg
    exact branches_append' ih (function_branches (hE _ _ hk) hcc)

theorem Spec.Loaded.closed {P : Prog} (hP : P.Typed) {addr : Key → Option Nat} {prog : List Instr}
    (h : Loaded P addr prog) : JumpsInside prog ∧ OperandsOk prog := by
  induction h with
  | empty => exact ⟨.nil, .nil⟩
  | add hl hk hn hg ih =>
    rename_i addr prog prog' k f a
    obtain ⟨c, hcc, rfl, rfl⟩ := loadFunction_ok hg
    obtain ⟨vars, hwf, hps, hts⟩ := hP _ _ hk
    refine ⟨ih.1.append (functionC_closed hts hcc).1, ih.2.append ?_⟩
    have hret : f.ret.WF := (hwf.fns k (f.params.map Prod.snd) f.ret (by simp [Prog.ctx, hk])).1
    obtain ⟨b, e, hb, rfl, he⟩ := functionC_ok hcc
    refine .append ?_ (.append ?_ ?_)
    · intro i hi
      simp only [List.mem_map, List.mem_reverse] at hi
      obtain ⟨_, ⟨p, hp, rfl⟩, rfl⟩ := hi
      exact (hwf.vars _ _ (hps p hp)).2
    · exact stmtC_operands hwf (env_ok P addr vars) (callN_agrees hP 0 vars) (σ := Frame.empty)
        (fun k v h => by cases h) hret (.block f.body) (.block hts) b hb
    · rcases he with ⟨-, rfl⟩ | ⟨-, -, rfl⟩ | ⟨-, rfl⟩
      · exact .nil
      · exact .nil
      · exact .cons ⟨trivial, rfl⟩ (.cons trivial .nil)

/-- All instructions of a loaded program are well-formed. -/
theorem Spec.Loaded.instrOk {P : Prog} (hP : P.Typed) {addr : Key → Option Nat} {prog : List Instr}
    (h : Loaded P addr prog) (hlen : prog.length ≤ 2 ^ 62) : ∀ i ∈ prog, InstrOk i := by
  obtain ⟨h1, h2⟩ := h.closed hP
  intro i hi
  have ho := h2 i hi
  obtain ⟨n, hn⟩ := List.mem_iff_getElem?.1 hi
  have hlt := (List.getElem?_eq_some_iff.1 hn).1
  cases i with
  | jump o => have := h1 n _ o hn rfl; show -2 ^ 62 ≤ o; omega
  | jumpIf o b => have := h1 n _ o hn rfl; show -2 ^ 62 ≤ o; omega
  | _ => exact ho

end Bms
