import Verif.Lemmas.CSemExpr

/-!
# Lemmas: statements and functions do the same in C
-/

namespace Bms.C

open Spec (WF Meaning evalE evalArgs Res Frame Flow execS execSs whileLoop)

/-! ## Arguments -/

theorem sameEs_agrees {A : Around} {M : Meaning} {F : List Char → Option Fun} {ρ : Visible} {σ : Frame} {E : Env}
    (hM : Matches A M F) (hs : Sees A ρ σ E) {es : List AExpr} {ts : List CType} (h : SameEs A ρ es ts) :
    ∀ cs tys vs, MeansEs A.cs es cs → (∀ t ∈ ts, t.WF) → List.Forall₂ TypeIs ts tys →
      evalArgs M ts (eraseAll es) σ = .ok vs → vs.map CVal.type = ts ∧ (∀ v ∈ vs, WF v) ∧
      Agrees A.strict (List.Forall₂ (Rep true) vs) (evalCs F E tys cs) := by
  refine SameEs.rec (motive_1 := fun _ _ _ _ => True)
    (motive_2 := fun es ts _ => ∀ cs tys vs, MeansEs A.cs es cs → (∀ t ∈ ts, t.WF) → List.Forall₂ TypeIs ts tys →
      evalArgs M ts (eraseAll es) σ = .ok vs → vs.map CVal.type = ts ∧ (∀ v ∈ vs, WF v) ∧
      Agrees A.strict (List.Forall₂ (Rep true) vs) (evalCs F E tys cs))
    ?_ ?_ ?_ ?_ ?_ ?_ ?_ ?_ ?_ ?_ ?_ ?_ ?_ ?_ ?_ ?_ ?_ ?nil ?cons h
  case nil =>
    intro cs tys vs hc _ ht h
    cases hc
    cases ht
    simp only [eraseAll, evalArgs] at h
    cases h
    refine ⟨rfl, by simp, ?_⟩
    simp only [evalCs]
    exact .nil
  case cons =>
    intro e es s f t ts he hw hes _ ihs cs tys vs hc hwf ht h
    cases hc with
    | cons hc hcs =>
      cases ht with
      | cons hty htys =>
        simp only [eraseAll, evalArgs] at h
        obtain ⟨v, h1, h⟩ := Res.bind_eq_ok.mp h
        obtain ⟨u, h2, h⟩ := Res.bind_eq_ok.mp h
        obtain ⟨us, h3, h⟩ := Res.bind_eq_ok.mp h
        cases h
        have h2 := Res.ofOutcome_eq_ok.mp h2
        obtain ⟨x1, x2, x3⟩ := sameE_agrees hM hs he _ hc _ h1
        obtain ⟨y1, y2, y3⟩ := ihs _ _ _ hcs (fun t ht => hwf t (.tail _ ht)) htys h3
        have twf := hwf t (.head _)
        obtain ⟨k1, -, k3⟩ := C08_conversion_keeps_value x1 twf h2
        refine ⟨by rw [List.map_cons, k1, y1], ?_, ?_⟩
        · intro v hv
          cases hv with
          | head => exact k3
          | tail _ hv => exact y2 v hv
        · simp only [evalCs]
          refine Agrees.bind (P := Rep true u) (x3.bind fun d hd => ?_) ?_
          · obtain ⟨q1, -, -, q4⟩ := convert_type x1 twf (typeIs_fits hty (.inr hw)) (wide_not_void hw) hd h2
            rw [q1]; exact q4
          · intro d hd
            refine y3.bind fun ds hds => ?_
            exact .cons hd hds
  all_goals (intros; trivial)

/-! ## Variables -/

/-- A variable in BMS and in C. -/
def VarIs (A : Around) (σ : Frame) (p : Name × Option Key) (q : List Char × VTy × Option Int) : Prop :=
  q.1 = p.1 ∧ ∃ k t, p.2 = some k ∧ A.vars k = some t ∧ t ≠ .void ∧ FitsTy t true q.2.1 ∧
    ∀ v, σ k = some v → WF v ∧ v.type = t ∧ q.2.2 = some v.int ∧ q.2.1.Holds v.int

/-- The variables in BMS and in C. -/
structure EnvIs (A : Around) (σ : Frame) (ρ : Visible) (E : Env) : Prop where
  vars : List.Forall₂ (VarIs A σ) ρ E
  nodup : (ρ.map Prod.snd).Nodup

theorem forall₂_length {α β : Type} {R : α → β → Prop} {as : List α} {bs : List β} (h : List.Forall₂ R as bs) :
    as.length = bs.length := by
  induction h with
  | nil => rfl
  | cons _ _ ih => simp [ih]

theorem forall₂_drop {α β : Type} {R : α → β → Prop} (as : List α) {cs : List α} {bs : List β}
    (h : List.Forall₂ R (as ++ cs) bs) : List.Forall₂ R cs (bs.drop as.length) := by
  induction as generalizing bs with
  | nil => exact h
  | cons a as ih =>
    cases h with
    | cons _ h => exact ih h

theorem EnvIs.leave {A : Around} {σ : Frame} {ρ : Visible} {E : Env} (δ : Visible) (h : EnvIs A σ (δ ++ ρ) E) :
    EnvIs A σ ρ (E.leave ρ.length) := by
  refine ⟨?_, ?_⟩
  · have hl := forall₂_length h.vars
    unfold Env.leave
    rw [← hl, List.length_append, Nat.add_sub_cancel]
    exact forall₂_drop δ h.vars
  · have := h.nodup
    rw [List.map_append, List.nodup_append] at this
    exact this.2.1

theorem EnvIs.sees {A : Around} {σ : Frame} {ρ : Visible} {E : Env} (h : EnvIs A σ ρ E) : Sees A ρ σ E := by
  obtain ⟨h, -⟩ := h
  induction h with
  | nil => exact ⟨fun _ _ => rfl, fun _ _ _ h => by cases h⟩
  | @cons p q ρ E hpq _ ih =>
    obtain ⟨x, o⟩ := p
    obtain ⟨y, ty, c⟩ := q
    obtain ⟨hxy, k, t, h1, h2, h3, h4, h5⟩ := hpq
    dsimp only at hxy h1 h4 h5
    subst hxy
    subst h1
    constructor
    · intro z hz
      unfold Env.find
      rw [List.lookup_cons] at hz ⊢
      cases hzx : z == y with
      | true => rw [hzx] at hz; cases hz
      | false => rw [hzx] at hz; exact ih.none z hz
    · intro z n s hz hs
      unfold Env.find
      rw [List.lookup_cons] at hz ⊢
      cases hzx : z == y with
      | true =>
        rw [hzx] at hz
        cases hz
        rw [h2] at hs
        cases hs
        exact ⟨ty, c, rfl, h3, h4, h5⟩
      | false => rw [hzx] at hz; exact ih.some z n s hz hs

theorem sees_hidden {A : Around} {σ : Frame} {ρ : Visible} {E : Env} (h : Sees A ρ σ E) (x : Name) (ty : VTy) :
    Sees A ((x, none) :: ρ) σ ((x, ty, none) :: E) := by
  constructor
  · intro z hz
    unfold Env.find
    rw [List.lookup_cons] at hz ⊢
    cases hzx : z == x with
    | true => rw [hzx] at hz; cases hz
    | false => rw [hzx] at hz; exact h.none z hz
  · intro z n s hz hs
    unfold Env.find
    rw [List.lookup_cons] at hz ⊢
    cases hzx : z == x with
    | true => rw [hzx] at hz; cases hz
    | false => rw [hzx] at hz; exact h.some z n s hz hs

theorem varIs_other {A : Around} {σ τ : Frame} {k : Key} (hτ : ∀ j, j ≠ k → τ j = σ j) {ρ : Visible} {E : Env}
    (h : List.Forall₂ (VarIs A σ) ρ E) (hk : some k ∉ ρ.map Prod.snd) : List.Forall₂ (VarIs A τ) ρ E := by
  induction h with
  | nil => exact .nil
  | @cons p q ρ E hpq _ ih =>
    refine .cons ?_ (ih fun hm => hk (by simp at hm ⊢; exact .inr hm))
    obtain ⟨h0, j, t, h1, h2, h3, h4, h5⟩ := hpq
    refine ⟨h0, j, t, h1, h2, h3, h4, fun v hv => h5 v ?_⟩
    rw [← hτ j]
    · exact hv
    · rintro rfl
      exact hk (by rw [List.map_cons, h1]; exact .head _)

/-- A new variable. -/
theorem EnvIs.declare {A : Around} {σ τ : Frame} {ρ : Visible} {E : Env} (h : EnvIs A σ ρ E) {x : Name} {k : Key}
    {t : CType} {ty : VTy} {o : Option Int} (hk : some k ∉ ρ.map Prod.snd) (hτ : ∀ j, j ≠ k → τ j = σ j)
    (hv : A.vars k = some t) (hn : t ≠ .void) (hf : FitsTy t true ty)
    (ho : ∀ v, τ k = some v → WF v ∧ v.type = t ∧ o = some v.int ∧ ty.Holds v.int) :
    EnvIs A τ ((x, some k) :: ρ) ((x, ty, o) :: E) :=
  ⟨.cons ⟨rfl, k, t, rfl, hv, hn, hf, ho⟩ (varIs_other hτ h.vars hk), by
    rw [List.map_cons, List.nodup_cons]; exact ⟨hk, h.nodup⟩⟩

theorem mem_of_lookup {ρ : Visible} {x : Name} {o : Option Key} (h : ρ.lookup x = some o) : (x, o) ∈ ρ := by
  induction ρ with
  | nil => cases h
  | cons p ρ ih =>
    rw [show p = (p.1, p.2) from rfl, List.lookup_cons] at h
    cases hx : x == p.1 with
    | true =>
      rw [hx] at h
      cases h
      rw [beq_iff_eq.mp hx]
      exact .head _
    | false => rw [hx] at h; exact .tail _ (ih h)

/-- A value that is stored in a variable. -/
theorem EnvIs.store {A : Around} {σ : Frame} {ρ : Visible} {E : Env} (h : EnvIs A σ ρ E) {x : Name} {n : Key}
    {t : CType} {ty : VTy} {o : Option Int} {u : CVal} (hl : ρ.lookup x = some (some n)) (hv : A.vars n = some t)
    (hfind : E.find x = some (ty, o)) (hu : WF u) (hut : u.type = t) (hh : ty.Holds u.int) :
    EnvIs A (σ.set n u) ρ (E.store x u.int) := by
  obtain ⟨h, hnd⟩ := h
  refine ⟨?_, hnd⟩
  induction h with
  | nil => cases hl
  | @cons p q ρ E hpq hrest ih =>
    obtain ⟨y, j⟩ := p
    obtain ⟨z, ty', c⟩ := q
    obtain ⟨h0, k, s, h1, h2, h3, h4, h5⟩ := hpq
    dsimp only at h0 h1 h4 h5
    subst h0
    subst h1
    rw [List.map_cons, List.nodup_cons] at hnd
    unfold Env.find at hfind
    rw [List.lookup_cons] at hl hfind
    simp only [Env.store]
    cases hxz : x == z with
    | true =>
      have : z = x := (beq_iff_eq.mp hxz).symm
      rw [if_pos this]
      rw [hxz] at hl hfind
      cases hl
      cases hfind
      rw [hv] at h2
      cases h2
      refine .cons ⟨rfl, n, t, rfl, hv, h3, h4, fun v hv' => ?_⟩ (varIs_other (fun j hj => ?_) hrest hnd.1)
      · simp only [Frame.set, if_true] at hv'
        cases hv'
        exact ⟨hu, hut, rfl, hh⟩
      · simp only [Frame.set, if_neg hj]
    | false =>
      have : ¬ z = x := fun e => by subst e; simp at hxz
      rw [if_neg this]
      rw [hxz] at hl hfind
      refine .cons ⟨rfl, k, s, rfl, h2, h3, h4, fun v hv' => h5 v ?_⟩ (ih hl hfind hnd.2)
      have hkn : k ≠ n := by
        rintro rfl
        refine hnd.1 ?_
        have : (x, some k) ∈ ρ := mem_of_lookup hl
        exact List.mem_map.mpr ⟨_, this, rfl⟩
      simpa only [Frame.set, if_neg hkn] using hv'

/-! ## Statements -/

/-- How a statement ends in BMS and in C. -/
def FlowIs (A : Around) (ret : CType) (inner : Bool) (ρ ρ' : Visible) : Flow → CFlow → Prop
  | .normal σ, .normal E => EnvIs A σ ρ' E
  | .break_ σ, .break_ E => ∃ δ, (inner = false → δ = []) ∧ EnvIs A σ (δ ++ ρ) E
  | .continue_ σ, .continue_ E => ∃ δ, (inner = false → δ = []) ∧ EnvIs A σ (δ ++ ρ) E
  | .return_ v, .return_ c => WF v ∧ v.type = ret ∧ Rep true v c
  | _, _ => False

theorem execCs_single (F : List Char → Option Fun) (ret : Ty) (n : Nat) (c : CStmt) (E : Env) :
    execCs F ret n [c] E = execC F ret n c E := by
  simp only [execCs]
  cases h : execC F ret n c E with
  | ok f => cases f <;> rfl
  | _ => rfl

theorem execCs_append (F : List Char → Option Fun) (ret : Ty) (n : Nat) (a b : List CStmt) (E : Env) :
    execCs F ret n (a ++ b) E = (execCs F ret n a E >>= fun
      | .normal E => execCs F ret n b E
      | f => .ok f) := by
  induction a generalizing E with
  | nil => simp only [List.nil_append, execCs]; rfl
  | cons s a ih =>
    simp only [List.cons_append, execCs]
    cases h : execC F ret n s E with
    | ok f =>
      cases f with
      | normal E => simp only [CRes.ok_bind]; exact ih E
      | _ => rfl
    | _ => rfl

theorem sameSs_grows {A : Around} {ret : CType} {ρ ρ' : Visible} {ss : List AStmt} (h : SameSs A ret ρ ss ρ') :
    ∃ δ, ρ' = δ ++ ρ := by
  refine SameSs.rec (motive_1 := fun ρ _ ρ' _ => ∃ δ, ρ' = δ ++ ρ) (motive_2 := fun ρ _ ρ' _ => ∃ δ, ρ' = δ ++ ρ)
    ?_ ?_ ?_ ?_ ?_ ?_ ?_ ?_ ?_ ?_ ?_ ?_ ?_ ?_ ?_ ?_ ?_ h
  all_goals intros
  all_goals first
    | exact ⟨[], rfl⟩
    | exact ⟨[_], rfl⟩
    | skip
  rename_i h1 h2
  obtain ⟨a, rfl⟩ := h1
  obtain ⟨b, rfl⟩ := h2
  exact ⟨b ++ a, by rw [List.append_assoc]⟩

theorem unset_other {σ : Frame} {k j : Key} (h : j ≠ k) : Spec.Frame.unset σ k j = σ j := if_neg h

theorem set_other {σ : Frame} {k j : Key} {v : CVal} (h : j ≠ k) : σ.set k v j = σ j := if_neg h

/-- `while` does the same in C. -/
theorem loop_agrees {A : Around} {ret : CType} {ρ : Visible} {cond : Frame → Res Bool} {body : Frame → Res Flow}
    {ccond : Env → CRes Bool} {cbody : Env → CRes CFlow}
    (hc : ∀ σ E b, EnvIs A σ ρ E → cond σ = .ok b → Agrees A.strict (fun b' => b' = b) (ccond E))
    (hb : ∀ σ E fl, EnvIs A σ ρ E → body σ = .ok fl → Agrees A.strict (FlowIs A ret false ρ ρ fl) (cbody E)) :
    ∀ n σ E fl, EnvIs A σ ρ E → whileLoop cond body n σ = .ok fl →
      Agrees A.strict (FlowIs A ret false ρ ρ fl) (loopC ccond cbody n E) := by
  intro n
  induction n with
  | zero => intro σ E fl _ h; cases h
  | succ n ih =>
    intro σ E fl hE h
    simp only [whileLoop] at h
    simp only [loopC]
    obtain ⟨b, h1, h⟩ := Res.bind_eq_ok.mp h
    refine (hc σ E b hE h1).bind ?_
    rintro b' rfl
    cases b' with
    | false =>
      cases h
      exact hE
    | true =>
      simp only [if_true] at h ⊢
      obtain ⟨fl', h2, h⟩ := Res.bind_eq_ok.mp h
      refine (hb σ E fl' hE h2).bind fun cf hcf => ?_
      cases fl' with
      | normal τ =>
        cases cf with
        | normal E' => exact ih τ E' fl hcf h
        | _ => exact hcf.elim
      | break_ τ =>
        cases cf with
        | break_ E' =>
          obtain ⟨δ, hδ, hcf⟩ := hcf
          cases hδ rfl
          cases h
          exact hcf
        | _ => exact hcf.elim
      | continue_ τ =>
        cases cf with
        | continue_ E' =>
          obtain ⟨δ, hδ, hcf⟩ := hcf
          cases hδ rfl
          exact ih τ E' fl hcf h
        | _ => exact hcf.elim
      | return_ v =>
        cases cf with
        | return_ c => cases h; exact hcf
        | _ => exact hcf.elim

theorem cond_agrees {A : Around} {M : Meaning} {F : List Char → Option Fun} {ρ : Visible} {σ : Frame} {E : Env}
    (hM : Matches A M F) (hE : EnvIs A σ ρ E) {e : AExpr} {f : Bool} (h : SameE A ρ e .bool f) {c : CExpr}
    (hc : MeansE A.cs e c) {b : Bool} (hv : (evalE M e.erase σ >>= Spec.asBool) = .ok b) :
    Agrees A.strict (fun b' => b' = b) (evalC F E c >>= truthOf) := by
  obtain ⟨x, h1, h2⟩ := evalE_cond hv
  obtain ⟨x1, x2, x3⟩ := sameE_agrees hM hE.sees h _ hc _ h1
  have hx := asBool_ok h2 x1
  exact x3.bind fun a ha => by rw [truthOf_rep hx ha]; rfl

theorem flow_leave {A : Around} {ret : CType} {ρ ρ' : Visible} (hg : ∃ δ, ρ' = δ ++ ρ) {fl : Flow} {cf : CFlow}
    (h : FlowIs A ret true ρ ρ' fl cf) : FlowIs A ret false ρ ρ fl (cf.leave ρ.length) := by
  cases fl with
  | normal σ =>
    cases cf with
    | normal E => obtain ⟨δ, rfl⟩ := hg; exact EnvIs.leave δ h
    | _ => exact h.elim
  | break_ σ =>
    cases cf with
    | break_ E => obtain ⟨δ, -, h⟩ := h; exact ⟨[], fun _ => rfl, EnvIs.leave δ h⟩
    | _ => exact h.elim
  | continue_ σ =>
    cases cf with
    | continue_ E => obtain ⟨δ, -, h⟩ := h; exact ⟨[], fun _ => rfl, EnvIs.leave δ h⟩
    | _ => exact h.elim
  | return_ v =>
    cases cf with
    | return_ c => exact h
    | _ => exact h.elim

theorem flow_then {A : Around} {ret : CType} {ρ ρ' ρ'' : Visible} {fl : Flow} {cf : CFlow}
    (hn : ∀ σ, fl ≠ .normal σ) (h : FlowIs A ret false ρ ρ' fl cf) :
    FlowIs A ret true ρ ρ'' fl cf ∧ ∀ E, cf ≠ .normal E := by
  cases fl with
  | normal σ => exact absurd rfl (hn σ)
  | break_ σ =>
    cases cf with
    | break_ E => obtain ⟨δ, -, h⟩ := h; exact ⟨⟨δ, nofun, h⟩, by simp⟩
    | _ => exact h.elim
  | continue_ σ =>
    cases cf with
    | continue_ E => obtain ⟨δ, -, h⟩ := h; exact ⟨⟨δ, nofun, h⟩, by simp⟩
    | _ => exact h.elim
  | return_ v =>
    cases cf with
    | return_ c => exact ⟨h, by simp⟩
    | _ => exact h.elim

theorem flow_outer {A : Around} {ret : CType} {δ ρ ρ'' : Visible} {fl : Flow} {cf : CFlow}
    (h : FlowIs A ret true (δ ++ ρ) ρ'' fl cf) : FlowIs A ret true ρ ρ'' fl cf := by
  cases fl with
  | normal σ => cases cf <;> exact h
  | break_ σ =>
    cases cf with
    | break_ E =>
      obtain ⟨a, -, h⟩ := h
      exact ⟨a ++ δ, nofun, by rw [List.append_assoc]; exact h⟩
    | _ => exact h.elim
  | continue_ σ =>
    cases cf with
    | continue_ E =>
      obtain ⟨a, -, h⟩ := h
      exact ⟨a ++ δ, nofun, by rw [List.append_assoc]; exact h⟩
    | _ => exact h.elim
  | return_ v => cases cf <;> exact h

/-- Statements do the same in C. -/
theorem sameSs_agrees {A : Around} {M : Meaning} {F : List Char → Option Fun} {ret : CType} {rty : Ty} (fuel : Nat)
    (hM : Matches A M F) (hret : TypeIs ret rty) (hrw : ret.WF) {ρ ρ' : Visible} {ss : List AStmt}
    (h : SameSs A ret ρ ss ρ') :
    ∀ cs, MeansSs A.cs false ss cs → ∀ σ E fl, EnvIs A σ ρ E → execSs M ret fuel (eraseStmts ss) σ = .ok fl →
      Agrees A.strict (FlowIs A ret true ρ ρ' fl) (execCs F rty fuel cs E) := by
  refine SameSs.rec
    (motive_1 := fun ρ s ρ' _ => ∀ cs, MeansS A.cs false s cs → ∀ σ E fl, EnvIs A σ ρ E →
      execS M ret fuel s.erase σ = .ok fl → Agrees A.strict (FlowIs A ret false ρ ρ' fl) (execCs F rty fuel cs E))
    (motive_2 := fun ρ ss ρ' _ => ∀ cs, MeansSs A.cs false ss cs → ∀ σ E fl, EnvIs A σ ρ E →
      execSs M ret fuel (eraseStmts ss) σ = .ok fl →
      Agrees A.strict (FlowIs A ret true ρ ρ' fl) (execCs F rty fuel cs E))
    ?const_ ?declare ?let_ ?staticAssert ?ifThen ?ifElse ?while_ ?break_ ?continue_ ?returnVoid ?return_ ?assign
    ?call ?assert ?block ?nil ?cons h
  case const_ =>
    intro ρ k cv x t e cs hc σ E fl hE h
    cases hc
    simp only [AStmt.erase, execS] at h
    cases h
    simp only [execCs]
    exact hE
  case declare =>
    intro ρ k t v x ty hw hv hk cs hc σ E fl hE h
    cases hc with
    | let_ hty ho =>
      cases ho
      simp only [AStmt.erase, Option.map_none, execS] at h
      cases h
      rw [execCs_single]
      simp only [execC]
      refine hE.declare hk (fun j hj => unset_other hj) hv (wide_not_void hw) (typeIs_fits hty (.inr hw)) ?_
      intro v hv
      simp [Spec.Frame.unset] at hv
  case let_ =>
    intro ρ k t v x ty e s f hw hv hk he cs hc σ E fl hE h
    cases hc with
    | @let_ _ _ _ _ _ _ _ cty _ hty ho =>
      cases ho with
      | some hc =>
        simp only [AStmt.erase, Option.map_some, execS] at h
        obtain ⟨y, h1, h⟩ := Res.bind_eq_ok.mp h
        obtain ⟨u, h2, h⟩ := Res.bind_eq_ok.mp h
        cases h
        have h2 := Res.ofOutcome_eq_ok.mp h2
        rw [execCs_single]
        simp only [execC]
        obtain ⟨y1, y2, y3⟩ := sameE_agrees hM (sees_hidden hE.sees x cty.value) he _ hc _ h1
        have twf := hM.vars _ _ hv
        have hn := wide_not_void hw
        have hf := typeIs_fits hty (.inr hw)
        obtain ⟨k1, k2, k3⟩ := C08_conversion_keeps_value y1 twf h2
        refine Agrees.bind (P := fun d => d = ⟨cty.value, u.int⟩ ∧ cty.value.Holds u.int) (y3.bind fun d hd => ?_) ?_
        · obtain ⟨q1, -, -, q4⟩ := convert_type y1 twf hf hn hd h2
          rw [q1]
          exact ⟨rfl, q4.2.2⟩
        · rintro d ⟨rfl, hh⟩
          refine hE.declare hk (fun j hj => set_other hj) hv hn hf ?_
          intro v hv
          simp only [Frame.set, if_true] at hv
          cases hv
          exact ⟨k3, k1, rfl, hh⟩
  case staticAssert =>
    intro ρ k cv e cs hc σ E fl hE h
    cases hc
    simp only [AStmt.erase, execS] at h
    cases h
    simp only [execCs]
    exact hE
  case ifThen =>
    intro ρ k cv c b f he hb ih cs hc σ E fl hE h
    cases hc with
    | ifThen hcc hcb =>
      simp only [AStmt.erase, execS] at h
      obtain ⟨t, h1, h⟩ := Res.bind_eq_ok.mp h
      rw [execCs_single]
      simp only [execC]
      refine (cond_agrees hM hE he hcc h1).bind ?_
      rintro t rfl
      cases t with
      | true =>
        have := ih _ hcb σ E fl hE h
        rw [execCs_single] at this
        exact this
      | false => cases h; exact hE
  case ifElse =>
    intro ρ k cv c b e f he hb hel ihb ihe cs hc σ E fl hE h
    cases hc with
    | ifElse hcc hcb hce =>
      simp only [AStmt.erase, execS] at h
      obtain ⟨t, h1, h⟩ := Res.bind_eq_ok.mp h
      rw [execCs_single]
      simp only [execC]
      refine (cond_agrees hM hE he hcc h1).bind ?_
      rintro t rfl
      cases t with
      | true =>
        have := ihb _ hcb σ E fl hE h
        rw [execCs_single] at this
        exact this
      | false =>
        have := ihe _ hce σ E fl hE h
        rw [execCs_single] at this
        exact this
  case while_ =>
    intro ρ k cv c b f he hb ih cs hc σ E fl hE h
    cases hc with
    | while_ hcc hcb =>
      simp only [AStmt.erase, execS] at h
      rw [execCs_single]
      simp only [execC]
      refine loop_agrees (fun σ E t hE ht => cond_agrees hM hE he hcc ht) (fun σ E fl hE h => ?_) fuel σ E fl hE h
      have := ih _ hcb σ E fl hE h
      rw [execCs_single] at this
      exact this
  case break_ =>
    intro ρ k cv cs hc σ E fl hE h
    cases hc
    simp only [AStmt.erase, execS] at h
    cases h
    rw [execCs_single]
    simp only [execC]
    exact ⟨[], fun _ => rfl, hE⟩
  case continue_ =>
    intro ρ k cv cs hc σ E fl hE h
    cases hc
    simp only [AStmt.erase, execS] at h
    cases h
    rw [execCs_single]
    simp only [execC]
    exact ⟨[], fun _ => rfl, hE⟩
  case returnVoid =>
    intro ρ k cv hv cs hc σ E fl hE h
    cases hc with
    | return_ ho =>
      cases ho
      simp only [AStmt.erase, Option.map_none, execS] at h
      cases h
      rw [execCs_single]
      simp only [execC]
      exact ⟨⟨trivial, rfl⟩, hv.symm, rfl, rfl, rfl⟩
  case return_ =>
    intro ρ k cv e s f he hw cs hc σ E fl hE h
    cases hc with
    | return_ ho =>
      cases ho with
      | some hc =>
        simp only [AStmt.erase, Option.map_some, execS] at h
        obtain ⟨y, h1, h⟩ := Res.bind_eq_ok.mp h
        obtain ⟨u, h2, h⟩ := Res.bind_eq_ok.mp h
        cases h
        have h2 := Res.ofOutcome_eq_ok.mp h2
        rw [execCs_single]
        simp only [execC]
        obtain ⟨y1, y2, y3⟩ := sameE_agrees hM hE.sees he _ hc _ h1
        obtain ⟨k1, k2, k3⟩ := C08_conversion_keeps_value y1 hrw h2
        refine Agrees.bind (P := Rep true u) (y3.bind fun d hd => ?_) ?_
        · obtain ⟨q1, -, -, q4⟩ := convert_type y1 hrw (typeIs_fits hret (.inr hw)) (wide_not_void hw) hd h2
          rw [q1]
          exact q4
        · intro d hd
          exact ⟨k3, k1, hd⟩
  case assign =>
    intro ρ k v x n e s f hcs hl hv he cs hc σ E fl hE h
    cases hc with
    | assign hc =>
      simp only [AStmt.erase, execS] at h
      obtain ⟨y, h1, h⟩ := Res.bind_eq_ok.mp h
      obtain ⟨u, h2, h⟩ := Res.bind_eq_ok.mp h
      cases h
      have h2 := Res.ofOutcome_eq_ok.mp h2
      rw [execCs_single]
      simp only [execC]
      obtain ⟨y1, y2, y3⟩ := sameE_agrees hM hE.sees he _ hc _ h1
      obtain ⟨ty, o, g1, g2, g3, g4⟩ := hE.sees.some _ _ _ hl hv
      have twf := hM.vars _ _ hv
      obtain ⟨k1, k2, k3⟩ := C08_conversion_keeps_value y1 twf h2
      rw [g1]
      refine Agrees.bind (P := fun d => d = ⟨ty, u.int⟩ ∧ ty.Holds u.int) (y3.bind fun d hd => ?_) ?_
      · obtain ⟨q1, -, -, q4⟩ := convert_type y1 twf g3 g2 hd h2
        rw [q1]
        exact ⟨rfl, q4.2.2⟩
      · rintro d ⟨rfl, hh⟩
        exact hE.store hl hv g1 k3 k1 hh
  case call =>
    intro ρ k cv st x n args ts t hfn hno hargs cs hc σ E fl hE h
    cases hc with
    | call hc =>
      cases hc with
      | call hc =>
        obtain ⟨m1, m2, fn, m3, m4, m5, m6⟩ := hM.fns _ _ _ _ hfn
        simp only [AStmt.erase, AExpr.erase, execS, evalE, m1] at h
        obtain ⟨u, hu, h⟩ := Res.bind_eq_ok.mp h
        cases h
        obtain ⟨vs, h1, h2⟩ := Res.bind_eq_ok.mp hu
        obtain ⟨g1, g2, g3⟩ := sameEs_agrees hM hE.sees hargs _ _ _ hc m2 m5 h1
        obtain ⟨k1, k2, k3⟩ := m6 vs u g1 g2 h2
        rw [execCs_single]
        simp only [execC, evalC]
        rw [hE.sees.none _ hno, m3]
        refine Agrees.bind (g3.bind fun cs hcs => k3 cs hcs) fun _ _ => ?_
        exact hE
  case assert =>
    intro ρ k cv st e f hfn hno he cs hc σ E fl hE h
    cases hc with
    | call hc =>
      cases hc with
      | call hc =>
        simp only [AStmt.erase, AExpr.erase, execS, evalE] at h
        obtain ⟨u, hu, h⟩ := Res.bind_eq_ok.mp h
        cases h
        obtain ⟨vs, h1, h2⟩ := Res.bind_eq_ok.mp hu
        have hargs : SameEs A ρ [e] [.bool] := .cons he trivial .nil
        obtain ⟨g1, g2, g3⟩ := sameEs_agrees hM hE.sees hargs _ [.bool] _ hc
          (by intro t ht; simp at ht; subst ht; trivial) (.cons .bool .nil) h1
        rw [execCs_single]
        simp only [execC, evalC]
        rw [hE.sees.none _ hno, hM.assert hfn]
        have h2 := Res.ofOutcome_eq_ok.mp h2
        match vs, g1 with
        | [v], g1 =>
          have hv : v.int ≠ 0 := by
            intro h0
            have g1 : v.type = .bool := by simpa using g1
            simp [evalBuiltin, unsafeEvalBuiltin, checkBuiltin, Builtin.paramTypes, g1, h0] at h2
          refine Agrees.bind (P := fun _ => True) (g3.bind fun ds hds => ?_) fun _ _ => hE
          cases hds with
          | cons hd hr =>
            cases hr
            show Agrees _ _ (if _ then _ else _)
            rw [if_neg (by rw [hd.2.1]; exact hv)]
            trivial
  case block =>
    intro ρ ρ' k cv ss hss ih cs hc σ E fl hE h
    cases hc with
    | block hc =>
      simp only [AStmt.erase, execS] at h
      rw [execCs_single]
      simp only [execC]
      refine (ih _ hc σ E fl hE h).bind fun cf hcf => ?_
      have := flow_leave (sameSs_grows hss) hcf
      rw [forall₂_length hE.vars] at this
      exact this
  case nil =>
    intro ρ cs hc σ E fl hE h
    cases hc
    simp only [eraseStmts, execSs] at h
    cases h
    simp only [execCs]
    exact hE
  case cons =>
    intro ρ ρ' ρ'' s ss hs hss ih ihs cs hc σ E fl hE h
    cases hc with
    | cons hc hcs =>
      simp only [eraseStmts, execSs] at h
      obtain ⟨fl', h1, h⟩ := Res.bind_eq_ok.mp h
      rw [execCs_append]
      refine (ih _ hc σ E fl' hE h1).bind fun cf hcf => ?_
      have hg : ∃ δ, ρ' = δ ++ ρ := sameSs_grows (.cons hs .nil)
      cases fl' with
      | normal τ =>
        cases cf with
        | normal E' =>
          obtain ⟨δ, rfl⟩ := hg
          exact (ihs _ hcs τ E' fl hcf h).mono fun _ h => flow_outer h
        | _ => exact hcf.elim
      | _ =>
        cases h
        obtain ⟨q1, q2⟩ := flow_then (ρ'' := ρ'') (by simp) hcf
        cases cf with
        | normal E' => exact absurd rfl (q2 E')
        | _ => exact q1

end Bms.C
