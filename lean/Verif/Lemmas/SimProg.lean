import Verif.Lemmas.SimStmt
import Verif.Props.Codegen
import Verif.Spec.Loaded

/-!
# Generated code follows the reference semantics: programs
-/

namespace Bms

open Spec Gen

/-- `code` is part of the program, at position `a`. -/
def CodeAt (prog : List Instr) (a : Nat) (code : List Instr) : Prop :=
  ∃ pre post, prog = pre ++ (code ++ post) ∧ pre.length = a

theorem CodeAt.located {prog code : List Instr} {a : Nat} (h : CodeAt prog a code)
    (hn : NoPlaceholder code) (brk cont : Int) : Located prog a brk cont code := by
  obtain ⟨pre, post, rfl, rfl⟩ := h
  intro i ins hi
  have hlt : i < code.length := (List.getElem?_eq_some_iff.1 hi).1
  have h1 : (pre ++ (code ++ post))[pre.length + i]? = some ins := by
    rw [List.getElem?_append_right (by omega), Nat.add_sub_cancel_left,
      List.getElem?_append_left hlt, hi]
  rw [h1]
  have := hn ins (List.mem_of_getElem? hi)
  cases ins <;> first | rfl | exact absurd rfl this.1 | exact absurd rfl this.2

theorem CodeAt.le {prog code : List Instr} {a : Nat} (h : CodeAt prog a code) :
    a + code.length ≤ prog.length := by
  obtain ⟨pre, post, rfl, rfl⟩ := h
  simp

theorem CodeAt.append {prog code : List Instr} {a : Nat} (h : CodeAt prog a code) (c : List Instr) :
    CodeAt (prog ++ c) a code := by
  obtain ⟨pre, post, rfl, rfl⟩ := h
  exact ⟨pre, post ++ c, by simp, rfl⟩

/-- The functions in the program with their addresses and codes; each was compiled with functions
before it only. -/
def Compiled (P : Prog) (lay : Key → Option (Nat × List Instr)) (prog : List Instr) : Prop :=
  ∀ k a c, lay k = some (a, c) → ∃ f, P.fns k = some f ∧ ∃ lay' : Key → Option (Nat × List Instr),
    functionC (P.env fun j => (lay' j).map Prod.fst) f.node = .ok c ∧ CodeAt prog a c ∧
    ∀ j b d, lay' j = some (b, d) → lay j = some (b, d) ∧ b + d.length ≤ a

theorem loadFunction_ok {env : FnEnv} {f : FunctionNode} {prog prog' : List Instr} {a : Nat}
    (h : loadFunction env f prog = .ok (prog', a)) :
    ∃ c, functionC env f = .ok c ∧ prog' = prog ++ c ∧ a = prog.length := by
  unfold loadFunction at h
  obtain ⟨j, hj, hjc⟩ := Gen.function_comp env f prog
  rw [hj] at h
  cases hc : functionC env f with
  | ok c =>
    have := hjc c hc
    subst this
    rw [hc] at h
    cases h
    exact ⟨_, rfl, rfl, rfl⟩
  | _ => rw [hc] at h; cases h

theorem Spec.Loaded.compiled {P : Prog} {addr : Key → Option Nat} {prog : List Instr}
    (h : Loaded P addr prog) :
    ∃ lay, (∀ j, addr j = (lay j).map Prod.fst) ∧ Compiled P lay prog := by
  induction h with
  | empty => exact ⟨fun _ => none, fun _ => rfl, fun k a c h => by cases h⟩
  | add hl hk hn hg ih =>
    rename_i addr prog prog' k f a
    obtain ⟨lay, hlay, hc⟩ := ih
    obtain ⟨c, hcc, rfl, rfl⟩ := loadFunction_ok hg
    have hlk : lay k = none := by
      have := hlay k
      rw [hn] at this
      cases hl : lay k with
      | none => rfl
      | some x => rw [hl] at this; cases this
    refine ⟨fun j => if j = k then some (prog.length, c) else lay j, fun j => ?_, ?_⟩
    · simp only
      split
      · rfl
      · exact hlay j
    · intro j a d hj
      have hold : ∀ i x, lay i = some x → (if i = k then some (prog.length, c) else lay i) = some x := by
        intro i x hi
        split
        · rename_i h; subst h; rw [hlk] at hi; cases hi
        · exact hi
      simp only at hj
      split at hj
      · rename_i h
        subst h
        cases hj
        refine ⟨f, hk, lay, ?_, ⟨prog, [], by simp, rfl⟩, fun i b d hi => ⟨hold i _ hi, ?_⟩⟩
        · rw [← hcc]; congr 2; funext i; exact (hlay i).symm
        · obtain ⟨_, _, _, _, hca, _⟩ := hc i b d hi
          exact hca.le
      · obtain ⟨f, hf, lay', hfc, hca, hlt⟩ := hc j a d hj
        refine ⟨f, hf, lay', hfc, hca.append c, fun i b e hi => ⟨hold i _ (hlt i b e hi).1, ?_⟩⟩
        exact (hlt i b e hi).2

/-! ## Functions -/

section Fn

variable {prog : List Instr} {strict : Prop} {T : Nat} {Γ : Ctx} {M : Meaning} {env : FnEnv}
  {base : Nat}

/-- The parameters are taken from the stack. -/
theorem steps_params {rest : List (CVal × Frame)} {brk cont : Int} :
    ∀ {ps : List (Key × CType)} {vs s : List CVal} {a : Nat}, vs.length = ps.length →
    Located prog a brk cont ((ps.map Prod.fst).reverse.map Instr.store) →
    StepsN prog ps.length ⟨⟨Frame.empty, rest⟩, vs.reverse ++ s, a⟩
      ⟨⟨bindParams ps vs, rest⟩, s, a + ps.length⟩ := by
  intro ps
  induction ps with
  | nil =>
    intro vs s a hl _
    match vs, hl with
    | [], _ => exact .refl _
  | cons p ps ih =>
    intro vs s a hl hloc
    obtain ⟨k, t⟩ := p
    match vs, hl with
    | v :: vs, hl =>
      simp only [List.map_cons, List.reverse_cons, List.map_append, List.map_nil] at hloc
      have h1 := ih (s := v :: s) (by simpa using hl) hloc.left
      have hp := hloc.right.head ⟨by simp, by simp⟩
      simp only [List.length_map, List.length_reverse] at hp
      have := h1.trans (.step (step_store (v := v) hp) (.refl _))
      rw [show (v :: vs).reverse ++ s = vs.reverse ++ v :: s by simp]
      exact this

theorem paramKeys_none {ps : List (Key × CType)} {vs : List CVal} {k : Key}
    (h : k ∉ ps.map Prod.fst) : bindParams ps vs k = none := by
  induction ps generalizing vs with
  | nil => rfl
  | cons p ps ih =>
    obtain ⟨j, t⟩ := p
    simp only [List.map_cons, List.mem_cons, not_or] at h
    cases vs with
    | nil => rfl
    | cons v vs =>
      simp only [bindParams, Frame.set]
      rw [if_neg h.1]; exact ih h.2

theorem TypedS.loopControl {ret : CType} (st : Stmt) :
    ∀ {loop : Bool}, TypedS Γ ret loop st → LoopControl loop st := by
  induction st using Stmt.ind with
  | ifThen c t ih => intro loop h; cases h; simp only [LoopControl]; exact ih (by assumption)
  | ifElse c t e iht ihe =>
    intro loop h; cases h; simp only [LoopControl]
    exact ⟨iht (by assumption), ihe (by assumption)⟩
  | while_ c b ih => intro loop h; cases h; simp only [LoopControl]; exact ih (by assumption)
  | control c cv e => intro loop h; cases h <;> simp [LoopControl]
  | block ss ih =>
    intro loop h
    cases h with
    | block h =>
      simp only [LoopControl]
      induction ss with
      | nil => trivial
      | cons s ss ihs =>
        cases h with
        | cons h1 h2 =>
          exact ⟨ih s List.mem_cons_self h1, ihs (fun s hs => ih s (List.mem_cons_of_mem _ hs)) h2⟩
  | _ => intro loop h; simp [LoopControl]

/-- Statements without code have no effect. -/
theorem stmt_no_code (hΓ : Γ.WF) (hA : Agrees Γ M) {ret : CType} (hret : ret.WF) {fuel : Nat}
    (st : Stmt) :
    ∀ {loop : Bool} {σ : Frame}, TypedS Γ ret loop st → FrameOk Γ σ →
    stmtC env (some ret) st = .ok [] → ∃ σ', execS M ret fuel st σ = .ok (.normal σ') := by
  induction st using Stmt.ind with
  | const_ k d cv e => intro loop σ ht hσ h; exact ⟨σ, rfl⟩
  | let_ k d cv init =>
    intro loop σ ht hσ h
    cases init with
    | none => exact ⟨_, rfl⟩
    | some e =>
      cases cv with
      | none => cases h
      | some w =>
        simp only [stmtC] at h
        obtain ⟨c, -, h⟩ := Outcome.bind_eq_ok.1 h
        simp at h
  | staticAssert cv e => intro loop σ ht hσ h; exact ⟨σ, rfl⟩
  | ifThen c t ih =>
    intro loop σ ht hσ h
    simp only [stmtC] at h
    obtain ⟨c, -, h⟩ := Outcome.bind_eq_ok.1 h
    obtain ⟨d, -, h⟩ := Outcome.bind_eq_ok.1 h
    simp at h
  | ifElse c t e iht ihe =>
    intro loop σ ht hσ h
    simp only [stmtC] at h
    obtain ⟨c, -, h⟩ := Outcome.bind_eq_ok.1 h
    obtain ⟨d, -, h⟩ := Outcome.bind_eq_ok.1 h
    obtain ⟨e, -, h⟩ := Outcome.bind_eq_ok.1 h
    simp [iteCode] at h
  | while_ c b ih =>
    intro loop σ ht hσ h
    simp only [stmtC] at h
    obtain ⟨c, -, h⟩ := Outcome.bind_eq_ok.1 h
    obtain ⟨d, -, h⟩ := Outcome.bind_eq_ok.1 h
    simp [whileCode] at h
  | control c cv e =>
    intro loop σ ht hσ h
    cases ht with
    | break_ => cases h
    | continue_ => cases h
    | returnVoid hr =>
      simp only [stmtC, returnC] at h
      rw [if_neg (by rw [hr]; decide)] at h
      cases h
    | return_ he hcv hconv hf =>
      rename_i e v w
      simp only [stmtC, returnC] at h
      split at h
      · cases h
      · split at h
        · cases h
        · obtain ⟨c, -, h⟩ := Outcome.bind_eq_ok.1 h
          split at h
          · cases h
          · simp at h
  | assign cv t e =>
    intro loop σ ht hσ h
    cases ht with
    | assign hc hv he hcv hconv hf =>
      simp only [stmtC] at h
      obtain ⟨c, -, h⟩ := Outcome.bind_eq_ok.1 h
      simp [toTarget] at h
  | block ss ih =>
    intro loop σ ht hσ h
    cases ht with
    | block ht =>
      simp only [stmtC] at h
      simp only [execS]
      induction ss generalizing σ with
      | nil => exact ⟨σ, rfl⟩
      | cons s ss ihs =>
        cases ht with
        | cons h1 h2 =>
          simp only [stmtsC] at h
          obtain ⟨c, hc, h⟩ := Outcome.bind_eq_ok.1 h
          obtain ⟨d, hd, h⟩ := Outcome.bind_eq_ok.1 h
          simp only [Outcome.ok.injEq, List.append_eq_nil_iff] at h
          obtain ⟨rfl, rfl⟩ := h
          obtain ⟨σ', hσ'⟩ := ih s List.mem_cons_self h1 hσ hc
          simp only [execSs, hσ', Res.ok_bind]
          have hok : FlowOk Γ ret loop (.normal σ') := execS_ok hΓ hA hret fuel s h1 hσ hσ'
          exact ihs (fun s hs => ih s (List.mem_cons_of_mem _ hs)) hok hd h2
  | call e =>
    intro loop σ ht hσ h
    cases ht with
    | call he =>
      rename_i cv ref args
      obtain ⟨w, hs⟩ := typed_sound hΓ hA hσ he
      obtain rfl : cv = some w := hs.cv
      have hev : evalE M (.call (some w) true ref args) σ =
          evalE M (.call (some w) false ref args) σ := by simp only [evalE]
      obtain ⟨t, v⟩ := w
      cases v with
      | some x =>
        simp only [execS, hev, hs.known x rfl, Res.ok_bind]
        exact ⟨σ, rfl⟩
      | none =>
        simp only [stmtC, exprC] at h
        obtain ⟨c, -, h⟩ := Outcome.bind_eq_ok.1 h
        obtain ⟨d, -, h⟩ := Outcome.bind_eq_ok.1 h
        simp at h

theorem returnsAny_of_mem {s : Stmt} {ss : List Stmt} (h : Returns s) (hm : s ∈ ss) :
    ReturnsAny ss := by
  induction ss with
  | nil => cases hm
  | cons a ss ih =>
    cases hm with
    | head => exact .inl h
    | tail _ hm => exact .inr (ih hm)

theorem returnsUnconditionally_true {body : List Stmt} (h : returnsUnconditionally body = .ok true) :
    ReturnsAny body := by
  unfold returnsUnconditionally at h
  split at h
  · rename_i hf
    obtain ⟨s, hs, hc⟩ := List.exists_of_findSome?_eq_some hf
    refine returnsAny_of_mem ?_ (List.mem_reverse.1 hs)
    cases s <;> try cases hc
    simp only [Returns]
  · cases h
  · cases h

/-- The parts of the code of a function. -/
theorem functionC_ok {f : FnDef} {c : List Instr} (h : functionC env f.node = .ok c) :
    ∃ b e, stmtC env (some f.ret) (.block f.body) = .ok b ∧
      c = (f.params.map Prod.fst).reverse.map Instr.store ++ (b ++ e) ∧
      ((f.ret ≠ .void ∧ e = []) ∨ (f.ret = .void ∧ ReturnsAny f.body ∧ e = []) ∨
        (f.ret = .void ∧ e = [.push CVal.void, .ret])) := by
  simp only [functionC, FnDef.node, not_true, if_false] at h
  obtain ⟨b, hb, h⟩ := Outcome.bind_eq_ok.1 h
  obtain ⟨e, he, h⟩ := Outcome.bind_eq_ok.1 h
  cases h
  refine ⟨b, e, hb, rfl, ?_⟩
  unfold epilogueC at he
  split at he
  · rename_i hr; cases he; exact .inl ⟨by simpa using hr, rfl⟩
  · rename_i hr
    have hr : f.ret = .void := by simpa using hr
    cases hu : returnsUnconditionally f.body with
    | ok u =>
      rw [hu] at he
      cases u
      · cases he; exact .inr (.inr ⟨hr, rfl⟩)
      · cases he; exact .inr (.inl ⟨hr, returnsUnconditionally_true hu, rfl⟩)
    | _ => rw [hu] at he; cases he

theorem functionC_closed {f : FnDef} {c : List Instr}
    (hts : TypedSs Γ f.ret false f.body) (h : functionC env f.node = .ok c) :
    JumpsInside c ∧ NoPlaceholder c := by
  obtain ⟨j, hj, hjc⟩ := Gen.function_comp env f.node []
  rw [h, hjc c h] at hj
  obtain ⟨code, hcode, h1, h2⟩ := C28_closed hj
  rw [List.nil_append, List.nil_append] at hcode
  subst hcode
  exact ⟨h1, h2 (by
    have := TypedS.loopControl (.block f.body) (.block hts)
    simp only [LoopControl] at this
    exact this)⟩

/-- Where the machine is when a function with code of length `len` at `a` is about to return `v`. -/
def ReturnsAt (prog : List Instr) (rest : List (CVal × Frame)) (s : List CVal) (last : Nat) (v : CVal)
    (c : Config) : Prop :=
  ∃ top q, c = ⟨⟨top, rest⟩, v :: s, q⟩ ∧ prog[q]? = some .ret ∧ q < last

/-- A function runs from its first instruction to a `ret` instruction. -/
theorem sim_function {f : FnDef}
    (S : Setting prog strict T Γ M env base) (hret : f.ret.WF)
    (hps : ∀ p ∈ f.params, Γ.vars p.1 = some p.2) (hts : TypedSs Γ f.ret false f.body)
    (hu : HomogeneousSs f.body)
    (hfr : strict → FreshAll f.body ∧ ∀ j ∈ uninitializedAll f.body, j ∉ f.params.map Prod.fst)
    {fuel : Nat} (hfuel : T ≤ fuel) {c : List Instr} (hc : functionC env f.node = .ok c)
    (hat : CodeAt prog base c) {vs : List CVal}
    (hvs : List.Forall₂ (fun (v : CVal) t => v.type = t ∧ WF v) vs (f.params.map Prod.snd))
    {rest : List (CVal × Frame)} {s : List CVal} :
    Sim prog strict T ⟨⟨Frame.empty, rest⟩, vs.reverse ++ s, base⟩
      (execSs M f.ret fuel f.body (bindParams f.params vs) >>= finish f.ret)
      (ReturnsAt prog rest s (base + c.length)) := by
  have hn := (functionC_closed hts hc).2
  obtain ⟨b, e, hb, rfl, he⟩ := functionC_ok hc
  have hloc := hat.located hn 0 0
  have hσ := bindParams_ok (Γ := Γ) hps hvs
  have hlen : vs.length = f.params.length := by simpa using hvs.length_eq
  refine (Sim.after (steps_params hlen hloc.left) ?_).mono (Nat.le_add_left _ _) fun _ _ _ h => h
  have hloc' := hloc.right
  simp only [List.length_map, List.length_reverse] at hloc'
  have hs := sim_stmt S hret hfuel (rest := rest) (s := s)
    (lim := base + ((f.params.map Prod.fst).reverse.map Instr.store ++ (b ++ e)).length)
    (.block f.body) (.block hts) (by simpa only [HomogeneousS] using hu) hσ
    (top := bindParams f.params vs) ⟨fun _ _ h => h, fun _ => rfl⟩ (fun hs => ?_) hb hloc'.left
    (by omega) (by simp; omega) (fun h => by cases h)
  · simp only [execS] at hs
    refine hs.bind fun fl c' hfl hfl' => ?_
    have hok := execSs_ok S.ctx S.agrees hret fuel hts hσ hfl
    cases fl with
    | return_ v => exact .done hfl'
    | break_ σ => cases hok.1
    | continue_ σ => cases hok.1
    | normal σ =>
      obtain ⟨top, -, rfl⟩ := hfl'
      rcases he with ⟨hr, -⟩ | ⟨hr, hra, -⟩ | ⟨hr, rfl⟩
      · simp only [finish, if_neg hr]; trivial
      · exact absurd hfl hra.not_normal
      · simp only [finish, if_pos hr]
        have h1 := hloc'.right
        refine .step (step_push (h1.head ⟨by simp, by simp⟩)) (.done ⟨top, _, rfl, h1.tail.head ⟨by simp, by simp⟩, ?_⟩)
        simp; omega
  · simp only [Fresh, uninitialized]
    exact ⟨(hfr hs).1, fun k hk => paramKeys_none ((hfr hs).2 k hk)⟩

/-- Functions without code do not return. -/
theorem no_code_stuck {f : FnDef} (hΓ : Γ.WF) (hA : Agrees Γ M) (hret : f.ret.WF)
    (hts : TypedSs Γ f.ret false f.body) {σ : Frame} (hσ : FrameOk Γ σ) {fuel : Nat}
    (hc : functionC env f.node = .ok []) :
    (execSs M f.ret fuel f.body σ >>= finish f.ret) = .stuck := by
  obtain ⟨b, e, hb, hbe, he⟩ := functionC_ok hc
  have hbe := hbe.symm
  simp only [List.append_eq_nil_iff] at hbe
  obtain ⟨-, rfl, rfl⟩ := hbe
  obtain ⟨σ', h⟩ := stmt_no_code hΓ hA hret (fuel := fuel) (.block f.body) (.block hts) hσ hb
  simp only [execS] at h
  rw [h, Res.ok_bind]
  rcases he with ⟨hr, -⟩ | ⟨hr, hra, -⟩ | ⟨hr, he⟩
  · simp only [finish, if_neg hr]
  · exact absurd h hra.not_normal
  · cases he

end Fn

/-! ## Programs -/

theorem Sim.last {prog : List Instr} {strict : Prop} {T : Nat} {α : Type} {c : Config} {r : Res α}
    {K K' : α → Config → Prop} (h : Sim prog strict T c r K)
    (hs : ∀ a c', K a c' → ∃ c'', Step prog c' c'' ∧ K' a c'') : Sim prog strict T c r K' := by
  cases r with
  | ok a =>
    obtain ⟨n, c', h, hK⟩ := h
    obtain ⟨c'', hst, hK'⟩ := hs a c' hK
    exact ⟨_, _, h.trans (.step hst (.refl _)), hK'⟩
  | _ => exact h

section Prog

variable {P : Prog} {lay : Key → Option (Nat × List Instr)} {prog : List Instr} {strict : Prop}

/-- Call instructions behind a function do what its calls mean. -/
def CallsOk (P : Prog) (lay : Key → Option (Nat × List Instr)) (prog : List Instr) (strict : Prop)
    (n : Nat) : Prop :=
  ∀ k a c f, lay k = some (a, c) → P.fns k = some f →
    ∀ vs, List.Forall₂ (fun (v : CVal) t => v.type = t ∧ WF v) vs (f.params.map Prod.snd) →
    ∀ (fr : Frames) s p, a + c.length ≤ p → prog[p]? = some (.call a) →
      Sim prog strict n ⟨fr, vs.reverse ++ s, p⟩ (P.callN n k vs) fun v c' => c' = ⟨fr, v :: s, p + 1⟩

/-- A call, from the first instruction of the function to its `ret` instruction. -/
theorem sim_body (hP : P.Typed) (hH : P.Homogeneous) (hF : strict → P.Fresh)
    (hC : Compiled P lay prog) {n : Nat} (ih : CallsOk P lay prog strict n) {k : Key} {a : Nat}
    {c : List Instr} {f : FnDef} (hk : lay k = some (a, c)) (hf : P.fns k = some f) {vs : List CVal}
    (hvs : List.Forall₂ (fun (v : CVal) t => v.type = t ∧ WF v) vs (f.params.map Prod.snd))
    {rest : List (CVal × Frame)} {s : List CVal} :
    Sim prog strict n ⟨⟨Frame.empty, rest⟩, vs.reverse ++ s, a⟩ (P.callN (n + 1) k vs)
      (ReturnsAt prog rest s (a + c.length)) ∧ (c = [] → P.callN (n + 1) k vs = .stuck) := by
  obtain ⟨f', hf', lay', hfc, hca, hlt⟩ := hC k a c hk
  rw [hf] at hf'
  cases hf'
  obtain ⟨vars, hwf, hps, hts⟩ := hP k f hf
  have hret : f.ret.WF := (hwf.fns k (f.params.map Prod.snd) f.ret (by simp [Prog.ctx, hf])).1
  have hA := callN_agrees hP n vars
  simp only [Prog.callN, hf, if_pos (show vs.length = f.params.length by simpa using hvs.length_eq)]
  have S : Setting prog strict n (P.ctx vars) (P.meaning (P.callN n))
      (P.env fun j => (lay' j).map Prod.fst) a := by
    refine ⟨hwf, hA, ?_, ?_⟩
    · intro j ts t hj
      simp only [Prog.ctx, Option.map_eq_some_iff] at hj
      obtain ⟨g, hg, hj⟩ := hj
      cases hj
      refine ⟨_, by simp only [Prog.env, hg, Option.map_some]; rfl, ?_⟩
      simp [Value.unknownOf]
    · intro j ts t g b hj hg hga hgb ws hws fr s p hp hcall
      simp only [Prog.ctx, Option.map_eq_some_iff] at hj
      obtain ⟨g', hg', hj⟩ := hj
      cases hj
      simp only [Prog.env, hg', Option.map_some, Option.some.injEq] at hg
      subst hg
      simp only [Option.map_eq_some_iff] at hgb
      obtain ⟨⟨b', d⟩, hl, rfl⟩ := hgb
      obtain ⟨hl', hle⟩ := hlt j b' d hl
      exact ih j b' d g' hl' hg' ws hws fr s p (by omega) hcall
  refine ⟨sim_function S hret hps hts (hH k f hf) (fun hs => hF hs k f hf) (Nat.le_succ n) hfc hca hvs, ?_⟩
  rintro rfl
  exact no_code_stuck hwf hA hret hts (bindParams_ok (Γ := P.ctx vars) hps hvs) hfc

theorem callsOk (hP : P.Typed) (hH : P.Homogeneous) (hF : strict → P.Fresh)
    (hC : Compiled P lay prog) (n : Nat) : CallsOk P lay prog strict n := by
  induction n with
  | zero => intro k a c f _ _ vs _ fr s p _ _; exact ⟨0, _, .refl _, Nat.le_refl _⟩
  | succ n ih =>
    intro k a c f hk hf vs hvs fr s p hp hcall
    have hb := sim_body hP hH hF hC ih hk hf hvs (rest := (CVal.ofInt (p + 1), fr.top) :: fr.rest) (s := s)
    by_cases hc : c = []
    · rw [hb.2 hc]; trivial
    · have hlen : 0 < c.length := List.length_pos_iff.2 hc
      have hle : a ≤ prog.length := by
        obtain ⟨_, _, _, _, hca, _⟩ := hC k a c hk
        have := hca.le; omega
      have h1 : Step prog ⟨fr, vs.reverse ++ s, p⟩
          ⟨⟨Frame.empty, (CVal.ofInt (p + 1), fr.top) :: fr.rest⟩, vs.reverse ++ s, a⟩ :=
        ⟨_, hcall, .call (by omega), by show a ≠ p; omega⟩
      have h2 := Sim.after (.step h1 (.refl _)) hb.1
      refine (Sim.last h2 fun v c' hr => ?_).mono (Nat.le_of_eq (Nat.add_comm _ _))
        fun _ _ _ h => h
      obtain ⟨top, q, rfl, hq, hlt⟩ := hr
      exact ⟨_, ⟨_, hq, .ret (a := p + 1), by show p + 1 ≠ q; omega⟩, rfl⟩

end Prog

end Bms
