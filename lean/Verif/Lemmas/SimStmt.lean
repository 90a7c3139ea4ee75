import Verif.Lemmas.Sim

/-!
# Generated code follows the reference semantics: statements
-/

namespace Bms

open Spec Gen

/-- The variables after a statement. -/
def Spec.Flow.frame : Flow → Option Frame
  | .normal σ | .break_ σ | .continue_ σ => some σ
  | .return_ _ => none

/-- Variables without value that are not assigned have no value afterwards. -/
def Keeps (s : List Key) (σ : Frame) (f : Flow) : Prop :=
  ∀ σ', f.frame = some σ' → ∀ k, σ k = none → k ∉ s → σ' k = none

theorem whileLoop_keeps {ks : List Key} {cond : Frame → Res Bool} {body : Frame → Res Flow}
    (hb : ∀ σ f, body σ = .ok f → Keeps ks σ f) :
    ∀ n σ f, whileLoop cond body n σ = .ok f → Keeps ks σ f := by
  intro n
  induction n with
  | zero => intro σ f h; cases h
  | succ n ih =>
    intro σ f h
    simp only [whileLoop] at h
    obtain ⟨b, -, h⟩ := Res.bind_eq_ok.1 h
    cases b
    · cases h; intro σ' h k hk _; cases h; exact hk
    · simp only [if_true] at h
      obtain ⟨g, hg, h⟩ := Res.bind_eq_ok.1 h
      have hk := hb σ g hg
      cases g with
      | normal σ1 => exact fun σ' h' k hσ hn => ih σ1 f h σ' h' k (hk σ1 rfl k hσ hn) hn
      | continue_ σ1 => exact fun σ' h' k hσ hn => ih σ1 f h σ' h' k (hk σ1 rfl k hσ hn) hn
      | break_ σ1 => cases h; exact fun σ' h' k hσ hn => by cases h'; exact hk σ1 rfl k hσ hn
      | return_ v => cases h; intro σ' h'; cases h'

theorem execS_keeps {M : Meaning} {ret : CType} {fuel : Nat} (s : Stmt) :
    ∀ σ f, execS M ret fuel s σ = .ok f → Keeps (assigned s) σ f := by
  have same : ∀ {ks : List Key} {σ : Frame}, Keeps ks σ (.normal σ) := by
    intro ks σ σ' h k hk _; cases h; exact hk
  have set : ∀ {k : Key} {σ : Frame} {v : CVal}, Keeps [k] σ (.normal (σ.set k v)) := by
    intro k σ v σ' h j hj hn
    cases h
    unfold Frame.set
    rw [if_neg (by simpa using hn)]; exact hj
  induction s using Stmt.ind with
  | const_ k d cv e => intro σ f h; cases h; exact same
  | let_ k d cv init =>
    intro σ f h
    cases init with
    | none =>
      cases h
      intro σ' h j hj _
      cases h
      unfold Frame.unset
      split
      · rfl
      · exact hj
    | some e =>
      simp only [execS] at h
      obtain ⟨v, -, h⟩ := Res.bind_eq_ok.1 h
      cases cv with
      | none => cases h
      | some w =>
        obtain ⟨v, -, h⟩ := Res.bind_eq_ok.1 h
        cases h; exact set
  | staticAssert cv e => intro σ f h; cases h; exact same
  | ifThen c t ih =>
    intro σ f h
    simp only [execS] at h
    obtain ⟨b, -, h⟩ := Res.bind_eq_ok.1 h
    cases b
    · cases h; exact same
    · exact ih σ f h
  | ifElse c t e iht ihe =>
    intro σ f h
    simp only [execS] at h
    obtain ⟨b, -, h⟩ := Res.bind_eq_ok.1 h
    cases b
    · exact fun σ' h' k hk hn => ihe σ f h σ' h' k hk fun h => hn (List.mem_append_right _ h)
    · exact fun σ' h' k hk hn => iht σ f h σ' h' k hk fun h => hn (List.mem_append_left _ h)
  | while_ c b ih =>
    intro σ f h
    simp only [execS] at h
    exact whileLoop_keeps ih fuel σ f h
  | control c cv e =>
    intro σ f h
    cases c with
    | break_ => cases h; intro σ' h k hk _; cases h; exact hk
    | continue_ => cases h; intro σ' h k hk _; cases h; exact hk
    | return_ =>
      cases e with
      | none => cases h; intro σ' h; cases h
      | some e =>
        simp only [execS] at h
        obtain ⟨_, -, h⟩ := Res.bind_eq_ok.1 h
        obtain ⟨_, -, h⟩ := Res.bind_eq_ok.1 h
        cases h; intro σ' h; cases h
  | assign cv t e =>
    intro σ f h
    match cv, t with
    | some w, some (.node k) =>
      simp only [execS] at h
      obtain ⟨_, -, h⟩ := Res.bind_eq_ok.1 h
      obtain ⟨_, -, h⟩ := Res.bind_eq_ok.1 h
      cases h; exact set
    | none, _ => cases h
    | some w, none => cases h
    | some w, some (.param _) => cases h
    | some w, some (.builtin _) => cases h
  | block ss ih =>
    intro σ f h
    simp only [execS] at h
    simp only [assigned]
    induction ss generalizing σ with
    | nil => cases h; exact same
    | cons s ss ihs =>
      simp only [execSs] at h
      obtain ⟨g, hg, h⟩ := Res.bind_eq_ok.1 h
      have hk := ih s List.mem_cons_self σ g hg
      have hl : ∀ {k}, k ∉ assignedAll (s :: ss) → k ∉ assigned s ∧ k ∉ assignedAll ss := by
        intro k hk
        simpa [assignedAll] using hk
      cases g with
      | normal σ1 =>
        exact fun σ' h' k hσ hn => ihs (fun s hs => ih s (List.mem_cons_of_mem _ hs)) σ1 h σ' h' k
          (hk σ1 rfl k hσ (hl hn).1) (hl hn).2
      | break_ σ1 => cases h; exact fun σ' h' k hσ hn => hk σ' h' k hσ (hl hn).1
      | continue_ σ1 => cases h; exact fun σ' h' k hσ hn => hk σ' h' k hσ (hl hn).1
      | return_ v => cases h; intro σ' h; cases h
  | call e =>
    intro σ f h
    simp only [execS] at h
    obtain ⟨_, -, h⟩ := Res.bind_eq_ok.1 h
    cases h; exact same

/-- Where the machine is after a statement whose code has length `len` and begins at `p`, inside a
function whose code ends at `lim`. -/
def FlowAt (prog : List Instr) (strict : Prop) (rest : List (CVal × Frame)) (s : List CVal)
    (last : Nat) (lim : Nat) (brk cont : Int) : Flow → Config → Prop
  | .normal σ, c => ∃ top, Matches strict σ top ∧ c = ⟨⟨top, rest⟩, s, last⟩
  | .break_ σ, c => ∃ top, Matches strict σ top ∧ c.vars = ⟨top, rest⟩ ∧ c.stack = s ∧ (c.pc : Int) = brk
  | .continue_ σ, c =>
    ∃ top, Matches strict σ top ∧ c.vars = ⟨top, rest⟩ ∧ c.stack = s ∧ (c.pc : Int) = cont
  | .return_ v, c => ∃ top q, c = ⟨⟨top, rest⟩, v :: s, q⟩ ∧ prog[q]? = some .ret ∧ q < lim

theorem resolve_get {before i : Nat} {b : List Instr} {ins : Instr} (hi : b[i]? = some ins)
    (h1 : ins ≠ .break_) (h2 : ins ≠ .continue_) : (resolve before b)[i]? = some ins := by
  unfold resolve
  rw [List.getElem?_mapIdx, hi]
  cases ins <;> first | rfl | exact absurd rfl h1 | exact absurd rfl h2

theorem resolve_located {prog : List Instr} {q before : Nat} {brk cont : Int} {b : List Instr}
    (h : Located prog q brk cont (resolve before b)) :
    Located prog q (q + b.length + 1 : Nat) (q - before : Int) b := by
  intro i ins hi
  cases ins
  case break_ =>
    have hr : (resolve before b)[i]? = some (.jump (b.length - i)) := by
      unfold resolve
      rw [List.getElem?_mapIdx, hi]; rfl
    rw [h i _ hr]
    simp only [Option.some.injEq, Instr.jump.injEq]
    push_cast; omega
  case continue_ =>
    have hr : (resolve before b)[i]? = some (.jump (-(before + i : Int) - 1)) := by
      unfold resolve
      rw [List.getElem?_mapIdx, hi]; rfl
    rw [h i _ hr]
    simp only [Option.some.injEq, Instr.jump.injEq]
    push_cast; omega
  all_goals exact h i _ (resolve_get hi (by simp) (by simp))

section Stmt

variable {prog : List Instr} {strict : Prop} {T : Nat} {Γ : Ctx} {M : Meaning} {env : FnEnv}
  {base : Nat}

theorem sim_while {ret : CType} {rest : List (CVal × Frame)} {s : List CVal} {p lim : Nat}
    {brk cont : Int} {c b : List Instr} {cond : Frame → Res Bool} {body : Frame → Res Flow}
    (hloc : Located prog p brk cont (whileCode c b))
    (hfb : ∀ σ f, FrameOk Γ σ → body σ = .ok f → FlowOk Γ ret true f)
    (hcond : ∀ σ top, FrameOk Γ σ → Matches strict σ top →
      Sim prog strict T ⟨⟨top, rest⟩, s, p⟩ (cond σ) fun b c' =>
        c' = ⟨⟨top, rest⟩, CVal.ofBool b :: s, p + c.length⟩)
    (hbody : ∀ σ top, FrameOk Γ σ → Matches strict σ top →
      Sim prog strict T ⟨⟨top, rest⟩, s, p + c.length + 1⟩ (body σ)
        (FlowAt prog strict rest s (p + c.length + 1 + b.length) lim
          (p + c.length + 1 + b.length + 1 : Nat) p)) :
    ∀ n σ top, FrameOk Γ σ → Matches strict σ top →
      Sim prog strict (min n T) ⟨⟨top, rest⟩, s, p⟩ (whileLoop cond body n σ)
        (FlowAt prog strict rest s (p + (whileCode c b).length) lim brk cont) := by
  have hlen : (whileCode c b).length = c.length + 1 + b.length + 1 := by
    simp [whileCode, resolve]; omega
  have hle := hloc.le (by simp [whileCode])
  rw [hlen] at hle
  have hj := hloc.right.head ⟨by simp, by simp⟩
  have hback : prog[p + c.length + 1 + b.length]? =
      some (.jump (-(c.length + 1 + b.length + 1 : Int))) := by
    have := hloc.right.tail.right.head ⟨by simp, by simp⟩
    simpa [resolve] using this
  intro n
  induction n with
  | zero => intro σ top _ _; exact ⟨0, _, .refl _, by omega⟩
  | succ n ih =>
    intro σ top hσ hm
    simp only [whileLoop]
    refine ((hcond σ top hσ hm).mono (Nat.min_le_right (n + 1) T) fun _ _ _ h => h).bind
      fun v c' _ hc' => ?_
    subst hc'
    cases v
    · simp only [Bool.false_eq_true, if_false]
      refine .step (step_taken (t := p + c.length + 1 + b.length + 1) hj (by push_cast; omega)
        (by omega) (by omega)) (.done ⟨top, hm, ?_⟩)
      rw [hlen]; congr 1; omega
    · simp only [if_true]
      have hstep : Step prog ⟨⟨top, rest⟩, CVal.ofBool true :: s, p + c.length⟩
          ⟨⟨top, rest⟩, s, p + c.length + 1⟩ := step_notTaken (b := false) hj (by push_cast; omega)
      refine (Sim.after (T := min n T) (.step hstep (.refl _)) ?_).mono (by omega)
        fun _ _ _ h => h
      refine ((hbody σ top hσ hm).mono (Nat.min_le_right n T) fun _ _ _ h => h).bind
        fun f c' hf hc' => ?_
      have hfo := hfb σ f hσ hf
      cases f with
      | normal σ' =>
        obtain ⟨top', hm', rfl⟩ := hc'
        exact .step (step_jump (t := p) hback (by push_cast; omega) (by omega) (by omega))
          (ih σ' top' hfo hm')
      | continue_ σ' =>
        obtain ⟨top', hm', h1, h2, h3⟩ := hc'
        obtain ⟨v, st, pc⟩ := c'
        simp only at h1 h2 h3
        obtain rfl : pc = p := by omega
        subst h1 h2
        exact ih σ' top' hfo.2 hm'
      | break_ σ' =>
        obtain ⟨top', hm', h1, h2, h3⟩ := hc'
        obtain ⟨v, st, pc⟩ := c'
        simp only at h1 h2 h3
        subst h1 h2
        refine .done ⟨top', hm', ?_⟩
        rw [hlen]; congr 1; omega
      | return_ v => exact .done hc'

/-- The code of a statement does what the statement means. -/
theorem sim_stmt (S : Setting prog strict T Γ M env base) {ret : CType} (hret : ret.WF)
    {fuel : Nat} (hfuel : T ≤ fuel) {rest : List (CVal × Frame)} {s : List CVal} {lim : Nat}
    (st : Stmt) : ∀ {loop : Bool} {brk cont : Int} {σ top : Frame} {p : Nat} {c : List Instr},
      TypedS Γ ret loop st → HomogeneousS st → FrameOk Γ σ → Matches strict σ top →
      (strict → Fresh st ∧ ∀ k ∈ uninitialized st, σ k = none) →
      stmtC env (some ret) st = .ok c → Located prog p brk cont c → base ≤ p →
      p + c.length ≤ lim →
      (loop = true → (p + c.length : Nat) ≤ brk ∧ brk ≤ prog.length ∧ 0 ≤ cont ∧ cont < p) →
      Sim prog strict T ⟨⟨top, rest⟩, s, p⟩ (execS M ret fuel st σ)
        (FlowAt prog strict rest s (p + c.length) lim brk cont) := by
  induction st using Stmt.ind with
  | const_ k d cv e =>
    intro loop brk cont σ top p c ht hu hσ hm hfr hc hloc hb hlim hl
    cases ht <;>
    · simp only [stmtC, Option.isSome_some, if_true] at hc
      cases hc
      exact .done ⟨top, hm, rfl⟩
  | let_ k d cv init =>
    intro loop brk cont σ top p c ht hu hσ hm hfr hc hloc hb hlim hl
    cases ht with
    | letNone hc' hv =>
      cases hc
      refine .done ⟨top, ⟨fun j u hj => ?_, fun hs => ?_⟩, rfl⟩
      · unfold Frame.unset at hj
        split at hj
        · cases hj
        · exact hm.1 j u hj
      · rw [hm.2 hs]
        have := (hfr hs).2 k (by simp [uninitialized])
        funext j
        unfold Frame.unset
        split
        · rename_i h; subst h; exact this
        · rfl
    | letInit hc' hv he hcv hconv =>
      simp only [HomogeneousS, hcv, Option.map_some, Option.some.injEq] at hu
      simp only [stmtC] at hc
      obtain ⟨ce, hce, hc⟩ := Outcome.bind_eq_ok.1 hc
      cases hc
      obtain ⟨w, hs⟩ := typed_sound S.ctx S.agrees hσ he
      have h1 := hs.cv
      rw [hcv] at h1
      cases h1
      simp only [execS]
      refine (sim_expr S hσ (fr := ⟨top, rest⟩) hm _ he hu.2 s p ce hce hloc.left hb).bind
        fun v c' hv' hc' => ?_
      subst hc'
      rw [evalConversion, ← hu.1, ← (hs.ok v hv').1, convertTo_same]
      refine .step (step_store (hloc.right.head ⟨by simp, by simp⟩)) (.done ⟨_, hm.set k v, ?_⟩)
      simp [Nat.add_assoc]
  | staticAssert cv e =>
    intro loop brk cont σ top p c ht hu hσ hm hfr hc hloc hb hlim hl
    cases ht
    simp only [stmtC, Option.isSome_some, if_true] at hc
    cases hc
    exact .done ⟨top, hm, rfl⟩
  | ifThen cd t ih =>
    intro loop brk cont σ top p c ht hu hσ hm hfr hc hloc hb hlim hl
    cases ht with
    | ifThen hcd hcv hbool htt =>
      simp only [stmtC] at hc
      obtain ⟨cc, hcc, hc⟩ := Outcome.bind_eq_ok.1 hc
      obtain ⟨ct, hct, hc⟩ := Outcome.bind_eq_ok.1 hc
      cases hc
      obtain ⟨w, hs⟩ := typed_sound S.ctx S.agrees hσ hcd
      have hle := hloc.le (by simp)
      simp only [List.length_append, List.length_cons] at hle hlim hl
      simp only [execS]
      refine (sim_condition (sim_expr S hσ (fr := ⟨top, rest⟩) hm _ hcd hu.1 s p cc hcc hloc.left hb)
        fun v hv => hs.ok v hv).bind fun b c' _ hc' => ?_
      subst hc'
      have hj := hloc.right.head ⟨by simp, by simp⟩
      cases b
      · simp only [Bool.false_eq_true, if_false]
        refine .step (step_taken (t := p + cc.length + 1 + ct.length) hj (by push_cast; omega)
          (by omega) (by omega)) (.done ⟨top, hm, ?_⟩)
        congr 1; simp; omega
      · simp only [if_true]
        refine .step (step_notTaken (b := false) hj (by push_cast; omega)) ?_
        have := ih (brk := brk) (cont := cont) (top := top) htt hu.2 hσ hm hfr hct hloc.right.tail
          (by omega) (by omega) (fun h => by have := hl h; omega)
        refine this.mono (Nat.le_refl _) fun f c' _ h => ?_
        rwa [show p + (cc ++ Instr.jumpIf (ct.length) false :: ct).length =
          p + cc.length + 1 + ct.length by simp; omega]
  | ifElse cd t e iht ihe =>
    intro loop brk cont σ top p c ht hu hσ hm hfr hc hloc hb hlim hl
    cases ht with
    | ifElse hcd hcv hbool htt hte =>
      simp only [stmtC] at hc
      obtain ⟨cc, hcc, hc⟩ := Outcome.bind_eq_ok.1 hc
      obtain ⟨ct, hct, hc⟩ := Outcome.bind_eq_ok.1 hc
      obtain ⟨ce, hce, hc⟩ := Outcome.bind_eq_ok.1 hc
      cases hc
      obtain ⟨w, hs⟩ := typed_sound S.ctx S.agrees hσ hcd
      have hle := hloc.le (by simp [iteCode])
      have hlen : (iteCode cc ct ce).length = cc.length + 1 + ct.length + 1 + ce.length := by
        simp [iteCode]; omega
      rw [hlen] at hle hlim hl ⊢
      have hfrt : strict → Fresh t ∧ ∀ k ∈ uninitialized t, σ k = none := fun h =>
        ⟨(hfr h).1.1, fun k hk => (hfr h).2 k (List.mem_append_left _ hk)⟩
      have hfre : strict → Fresh e ∧ ∀ k ∈ uninitialized e, σ k = none := fun h =>
        ⟨(hfr h).1.2, fun k hk => (hfr h).2 k (List.mem_append_right _ hk)⟩
      simp only [execS]
      refine (sim_condition (sim_expr S hσ (fr := ⟨top, rest⟩) hm _ hcd hu.1 s p cc hcc hloc.left hb)
        fun v hv => hs.ok v hv).bind fun b c' _ hc' => ?_
      subst hc'
      have hj := hloc.right.head ⟨by simp, by simp⟩
      cases b
      · simp only [Bool.false_eq_true, if_false]
        refine .step (step_taken (t := p + cc.length + 1 + ct.length + 1) hj (by push_cast; omega)
          (by omega) (by omega)) ?_
        have := ihe (brk := brk) (cont := cont) (top := top) hte hu.2.2 hσ hm hfre hce
          hloc.right.tail.right.tail (by omega) (by omega) (fun h => by have := hl h; omega)
        refine this.mono (Nat.le_refl _) fun f c' _ h => ?_
        rwa [show p + (cc.length + 1 + ct.length + 1 + ce.length) =
          p + cc.length + 1 + ct.length + 1 + ce.length by omega]
      · simp only [if_true]
        refine .step (step_notTaken (b := false) hj (by push_cast; omega)) ?_
        have := iht (brk := brk) (cont := cont) (top := top) htt hu.2.1 hσ hm hfrt hct
          hloc.right.tail.left (by omega) (by omega) (fun h => by have := hl h; omega)
        have hjmp : prog[p + cc.length + 1 + ct.length]? = some (.jump ce.length) :=
          hloc.right.tail.right.head ⟨by simp, by simp⟩
        -- the jump over the other branch, if the end of this one is reached
        cases hf : execS M ret fuel t σ with
        | ok f =>
          rw [hf] at this
          obtain ⟨n, c', hn, hK⟩ := this
          cases f with
          | normal σ' =>
            obtain ⟨top', hm', rfl⟩ := hK
            refine ⟨_, _, hn.trans (.step (step_jump
              (t := p + (cc.length + 1 + ct.length + 1 + ce.length)) hjmp (by push_cast; omega)
              (by omega) (by omega)) (.refl _)), top', hm', rfl⟩
          | break_ σ' => exact ⟨n, c', hn, hK⟩
          | continue_ σ' => exact ⟨n, c', hn, hK⟩
          | return_ v => exact ⟨n, c', hn, hK⟩
        | fails e => rw [hf] at this; exact this
        | throws => rw [hf] at this; exact this
        | ub => rw [hf] at this; exact this
        | timeout => rw [hf] at this; exact this
        | stuck => trivial
  | while_ cd b ih =>
    intro loop brk cont σ top p c ht hu hσ hm hfr hc hloc hb hlim hl
    cases ht with
    | while_ hcd hcv hbool htb =>
      simp only [stmtC] at hc
      obtain ⟨cc, hcc, hc⟩ := Outcome.bind_eq_ok.1 hc
      obtain ⟨cb, hcb, hc⟩ := Outcome.bind_eq_ok.1 hc
      cases hc
      have hlen : (whileCode cc cb).length = cc.length + 1 + cb.length + 1 := by
        simp [whileCode, resolve]; omega
      have hle := hloc.le (by simp [whileCode])
      have hlocb : Located prog (p + cc.length + 1) (p + cc.length + 1 + cb.length + 1 : Nat) p cb := by
        have := resolve_located hloc.right.tail.left
        rwa [show ((p + cc.length + 1 : Nat) - (cc.length + 1 : Nat) : Int) = p by push_cast; omega]
          at this
      simp only [execS]
      have := sim_while (lim := lim) (T := T) hloc
        (fun σ f hσ h => execS_ok S.ctx S.agrees hret fuel b htb hσ h)
        (fun σ top hσ hm => by
          obtain ⟨w, hs⟩ := typed_sound S.ctx S.agrees hσ hcd
          exact sim_condition (sim_expr S hσ (fr := ⟨top, rest⟩) hm _ hcd hu.1 s p cc hcc hloc.left hb)
            fun v hv => hs.ok v hv)
        (fun σ top hσ hm => by
          refine ih htb hu.2 hσ hm (fun h => ⟨(hfr h).1.1, fun k hk => ?_⟩) hcb hlocb
            (by omega) (by omega) (fun _ => by push_cast; omega)
          rw [(hfr h).1.2] at hk; cases hk) fuel σ top hσ hm
      rwa [Nat.min_eq_right hfuel] at this
  | control ct cv e =>
    intro loop brk cont σ top p c ht hu hσ hm hfr hc hloc hb hlim hl
    cases ht with
    | break_ =>
      cases hc
      have hl := hl rfl
      have := hloc 0 .break_ rfl
      simp only [List.length_cons, List.length_nil, Nat.add_zero] at this hl
      refine .step (step_jump (t := brk.toNat) this (by omega) (by omega) (by omega))
        (.done ⟨top, hm, rfl, rfl, ?_⟩)
      simp only; omega
    | continue_ =>
      cases hc
      have hl := hl rfl
      have := hloc 0 .continue_ rfl
      simp only [List.length_cons, List.length_nil, Nat.add_zero] at this hl
      have hle := hloc.le (by simp)
      refine .step (step_jump (t := cont.toNat) this (by omega) (by omega) (by omega))
        (.done ⟨top, hm, rfl, rfl, ?_⟩)
      simp only; omega
    | returnVoid hr =>
      simp only [stmtC, returnC] at hc
      rw [if_neg (by rw [hr]; decide)] at hc
      cases hc
      simp only [execS]
      refine .step (step_push (hloc.head ⟨by simp, by simp⟩)) (.done ⟨top, p + 1, rfl, ?_, ?_⟩)
      · exact hloc.tail.head ⟨by simp, by simp⟩
      · simp at hlim; omega
    | return_ he hcv hconv hf =>
      rename_i e v w
      have hwt : w.type = ret := hf.type fun w hw => (valueConvertTo_known hw).1
      obtain ⟨v', hs⟩ := typed_sound S.ctx S.agrees hσ he
      obtain rfl : v' = v := by have := hs.cv; rw [hcv] at this; cases this; rfl
      simp only [stmtC, returnC] at hc
      rw [if_neg (by simp [hwt])] at hc
      simp only [execS]
      cases hx : w.val with
      | some x =>
        rw [hx] at hc
        cases hc
        obtain ⟨y, hy, hcv'⟩ := evalConversionV_known (hf.known hx) hx
        rw [hs.known y hy]
        simp only [Res.ok_bind, hcv', Res.ofOutcome]
        refine .step (step_push (hloc.head ⟨by simp, by simp⟩)) (.done ⟨top, p + 1, rfl, ?_, ?_⟩)
        · exact hloc.tail.head ⟨by simp, by simp⟩
        · simp at hlim; omega
      | none =>
        simp only [hx] at hc
        obtain ⟨ce, hce, hc⟩ := Outcome.bind_eq_ok.1 hc
        simp only [hcv] at hc
        cases hc
        refine (sim_expr S hσ (fr := ⟨top, rest⟩) hm _ he hu s p ce hce hloc.left hb).bind
          fun v c' hv' hc' => ?_
        subst hc'
        refine (sim_convert (hs.ok v hv').1 hloc.right.left).bind fun u c' hu' hc' => ?_
        subst hc'
        refine .done ⟨top, _, rfl, hloc.right.right.head ⟨by simp, by simp⟩, ?_⟩
        simp only [List.length_append, List.length_cons, List.length_nil] at hlim
        omega
  | assign cv t e =>
    intro loop brk cont σ top p c ht hu hσ hm hfr hc hloc hb hlim hl
    cases ht with
    | assign hc' hv he hcv hconv hf =>
      rename_i k t v w
      simp only [HomogeneousS, hcv, Option.map_some, Option.some.injEq] at hu
      simp only [stmtC] at hc
      obtain ⟨ce, hce, hc⟩ := Outcome.bind_eq_ok.1 hc
      simp only [toTarget, Outcome.map_ok] at hc
      cases hc
      obtain ⟨v', hs⟩ := typed_sound S.ctx S.agrees hσ he
      obtain rfl : v' = v := by have := hs.cv; rw [hcv] at this; cases this; rfl
      simp only [execS]
      refine (sim_expr S hσ (fr := ⟨top, rest⟩) hm _ he hu.2 s p ce hce hloc.left hb).bind
        fun v c' hv' hc' => ?_
      subst hc'
      rw [evalConversion, ← hu.1, ← (hs.ok v hv').1, convertTo_same]
      refine .step (step_store (hloc.right.head ⟨by simp, by simp⟩)) (.done ⟨_, hm.set k v, ?_⟩)
      simp [Nat.add_assoc]
  | block ss ih =>
    intro loop brk cont σ top p c ht hu hσ hm hfr hc hloc hb hlim hl
    cases ht with
    | block hts =>
      simp only [execS]
      simp only [stmtC] at hc
      simp only [HomogeneousS] at hu
      replace hfr : strict → FreshAll ss ∧ ∀ k ∈ uninitializedAll ss, σ k = none := hfr
      induction ss generalizing σ top p c with
      | nil =>
        simp only [stmtsC] at hc
        cases hc
        exact .done ⟨top, hm, rfl⟩
      | cons st ss ihs =>
        simp only [stmtsC] at hc
        obtain ⟨c1, hc1, hc⟩ := Outcome.bind_eq_ok.1 hc
        obtain ⟨c2, hc2, hc⟩ := Outcome.bind_eq_ok.1 hc
        cases hc
        simp only [List.length_append] at hlim hl ⊢
        cases hts with
        | cons ht1 ht2 =>
          simp only [execSs]
          refine (ih st List.mem_cons_self (brk := brk) (cont := cont) ht1 hu.1 hσ hm
            (fun h => ⟨(hfr h).1.1, fun k hk => (hfr h).2 k (List.mem_append_left _ hk)⟩) hc1
            hloc.left hb (by omega) (fun h => by have := hl h; omega)).bind fun f c' hf hc' => ?_
          have hfo := execS_ok S.ctx S.agrees hret fuel st ht1 hσ hf
          cases f with
          | normal σ' =>
            obtain ⟨top', hm', rfl⟩ := hc'
            have := ihs (fun s hs => ih s (List.mem_cons_of_mem _ hs)) (σ := σ') (top := top') hu.2
              hfo hm' hc2 hloc.right (by omega) (by omega) (fun h => by have := hl h; omega) ht2
              (fun h => ⟨(hfr h).1.2.2, fun k hk => execS_keeps st σ _ hf σ' rfl k
                ((hfr h).2 k (List.mem_append_right _ hk)) ((hfr h).1.2.1 k hk)⟩)
            rwa [Nat.add_assoc] at this
          | break_ σ' => exact .done hc'
          | continue_ σ' => exact .done hc'
          | return_ v => exact .done hc'
  | call e =>
    intro loop brk cont σ top p c ht hu hσ hm hfr hc hloc hb hlim hl
    cases ht with
    | call he =>
      rename_i cv ref args
      obtain ⟨w, hs⟩ := typed_sound S.ctx S.agrees hσ he
      obtain rfl : cv = some w := hs.cv
      have hta : ∀ a ∈ args, Typed Γ a := by cases he <;> assumption
      have hev : evalE M (.call (some w) true ref args) σ =
          evalE M (.call (some w) false ref args) σ := by simp only [evalE]
      obtain ⟨t, v⟩ := w
      simp only [stmtC, exprC] at hc
      simp only [execS]
      cases v with
      | some x =>
        cases hc
        rw [hev, hs.known x rfl]
        exact .done ⟨top, hm, rfl⟩
      | none =>
        simp only at hc
        obtain ⟨as, has, hc⟩ := Outcome.bind_eq_ok.1 hc
        obtain ⟨ci, hci, hc⟩ := Outcome.bind_eq_ok.1 hc
        simp only [if_true] at hc
        cases hc
        rw [← List.append_assoc] at hloc
        refine (sim_call S hσ (fr := ⟨top, rest⟩) (fun a ha => sim_expr S hσ hm a (hta a ha)
          (HomogeneousAll_mem hu a ha)) he has hci hloc.left hb).bind fun v c' hv' hc' => ?_
        subst hc'
        have hp := hloc.right.head ⟨by simp, by simp⟩
        rw [List.length_append, ← Nat.add_assoc] at hp
        refine .step (step_pop hp) (.done ⟨top, hm, ?_⟩)
        simp [Nat.add_assoc]

end Stmt

end Bms
