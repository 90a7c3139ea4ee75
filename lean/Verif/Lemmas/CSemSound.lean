import Verif.Lemmas.CSemStmt

/-! Values of programs that compute the same in C are values of their types. -/

namespace Bms.C
open Spec (Frame Meaning Flow Res WF evalE evalArgs execS execSs whileLoop)

/-- Every variable has a value of its type. -/
def FrameWF (σ : Frame) : Prop := ∀ k v, σ k = some v → WF v

theorem FrameWF.set {σ : Frame} (h : FrameWF σ) {k : Key} {v : CVal} (hv : WF v) : FrameWF (σ.set k v) := by
  intro j u hu
  simp only [Frame.set] at hu
  by_cases hj : j = k
  · rw [if_pos hj] at hu; cases hu; exact hv
  · rw [if_neg hj] at hu; exact h j u hu

theorem FrameWF.unset {σ : Frame} (h : FrameWF σ) {k : Key} : FrameWF (σ.unset k) := by
  intro j u hu
  simp only [Frame.unset] at hu
  by_cases hj : j = k
  · rw [if_pos hj] at hu; cases hu
  · rw [if_neg hj] at hu; exact h j u hu

theorem readVar_wf {σ : Frame} (h : FrameWF σ) {k : Key} {v : CVal} (hv : Spec.readVar σ k = .ok v) : WF v := by
  unfold Spec.readVar at hv
  cases hk : σ k with
  | none => rw [hk] at hv; cases hv
  | some u => rw [hk] at hv; cases hv; exact h k _ hk

theorem evalE_binary_wf {M : Meaning} {σ : Frame} {cv : Option Value} {op : ExprType} {l r : Expr} {v : CVal}
    (hl : ∀ v, evalE M l σ = .ok v → WF v) (hr : ∀ v, evalE M r σ = .ok v → WF v)
    (h : evalE M (.binary cv op l r) σ = .ok v) : WF v := by
  simp only [evalE] at h
  by_cases h1 : op = .logical_and
  · rw [if_pos h1] at h
    obtain ⟨b, -, h⟩ := Res.bind_eq_ok.mp h
    cases b with
    | true =>
      obtain ⟨b, -, h⟩ := Res.bind_eq_ok.mp h
      cases h
      exact ofBool_wf _
    | false => cases h; exact ofBool_wf false
  · rw [if_neg h1] at h
    by_cases h2 : op = .logical_or
    · rw [if_pos h2] at h
      obtain ⟨b, -, h⟩ := Res.bind_eq_ok.mp h
      cases b with
      | true => cases h; exact ofBool_wf true
      | false =>
        obtain ⟨b, -, h⟩ := Res.bind_eq_ok.mp h
        cases h
        exact ofBool_wf _
    · rw [if_neg h2] at h
      obtain ⟨x, hx, h⟩ := Res.bind_eq_ok.mp h
      obtain ⟨y, hy, h⟩ := Res.bind_eq_ok.mp h
      exact C11_binary_wf (hl x hx) (hr y hy) (Res.ofOutcome_eq_ok.mp h)

theorem evalE_prefix_wf {M : Meaning} {σ : Frame} {cv : Option Value} {op : ExprType} {e : Expr} {v : CVal}
    (he : ∀ v, evalE M e σ = .ok v → WF v) (h : evalE M (.prefix cv op e) σ = .ok v) : WF v := by
  simp only [evalE] at h
  obtain ⟨x, hx, h⟩ := Res.bind_eq_ok.mp h
  exact C11_unary_wf (he x hx) (Res.ofOutcome_eq_ok.mp h)

/-- The value of an expression is a value of its type. -/
theorem sameE_wf {A : Around} {M : Meaning} {F : List Char → Option Fun} {ρ : Visible} {σ : Frame}
    (hM : Matches A M F) (hσ : FrameWF σ) {e : AExpr} {t : CType} {f : Bool} (h : SameE A ρ e t f) :
    ∀ v, evalE M e.erase σ = .ok v → WF v := by
  refine SameE.rec
    (motive_1 := fun e t f _ => ∀ v, evalE M e.erase σ = .ok v → WF v)
    (motive_2 := fun es ts _ => ∀ vs, (∀ t ∈ ts, t.WF) → evalArgs M ts (eraseAll es) σ = .ok vs →
      vs.map CVal.type = ts ∧ (∀ v ∈ vs, WF v))
    ?true_ ?false_ ?number ?constant ?var ?param ?conversion ?calculation ?shift ?comparison ?logical ?plus ?minus
    ?not_ ?complement ?ite ?call ?nil ?cons h
  case true_ =>
    intro k v hv
    simp only [AExpr.erase, eraseLit, evalE, Spec.litValue] at hv
    cases hv
    exact ofBool_wf true
  case false_ =>
    intro k v hv
    simp only [AExpr.erase, eraseLit, evalE, Spec.litValue] at hv
    cases hv
    exact ofBool_wf false
  case number =>
    intro k text n hp h0 hlt v hv
    simp only [AExpr.erase, eraseLit, evalE, Spec.litValue, hp, Option.map_some] at hv
    cases hv
    exact ⟨trivial, by show -2 ^ 127 ≤ n ∧ n < 2 ^ 127; omega⟩
  case constant =>
    intro k cv x n g t v hcs hw hwf h0 hlt u hu
    simp only [AExpr.erase, evalE, hM.consts, constOf_known hcs] at hu
    cases hu
    exact hwf
  case var =>
    intro k cv x n g t hcs hl hv u hu
    simp only [AExpr.erase, evalE, hM.consts, constOf_none hcs] at hu
    exact readVar_wf hσ hu
  case param =>
    intro k cv x n g t hl hv u hu
    simp only [AExpr.erase, evalE] at hu
    exact readVar_wf hσ hu
  case conversion =>
    intro k cv e s f t ct he ht hw ih u hu
    simp only [AExpr.erase, evalE, typeOf_erase ht] at hu
    obtain ⟨v, h1, h2⟩ := Res.bind_eq_ok.mp hu
    exact (C08_conversion_keeps_value (ih _ h1) (typeOf_wf ht) (Res.ofOutcome_eq_ok.mp h2)).2.2
  case calculation =>
    intro k cv op l r s f s' f' t hop hl hr hcm hstr hfirm ihl ihr u hu
    simp only [AExpr.erase] at hu
    exact evalE_binary_wf ihl ihr hu
  case shift =>
    intro k cv op l r w s f hop hl hr hstr ihl ihr u hu
    simp only [AExpr.erase] at hu
    exact evalE_binary_wf ihl ihr hu
  case comparison =>
    intro k cv op l r s f s' f' t hop hl hr hcm ihl ihr u hu
    simp only [AExpr.erase] at hu
    exact evalE_binary_wf ihl ihr hu
  case logical =>
    intro k cv op l r f f' hop hl hr ihl ihr u hu
    simp only [AExpr.erase] at hu
    exact evalE_binary_wf ihl ihr hu
  case plus =>
    intro k cv e t f he ht ih u hu
    simp only [AExpr.erase] at hu
    exact evalE_prefix_wf ih hu
  case minus =>
    intro k cv e t f he ht hs hf ih u hu
    simp only [AExpr.erase] at hu
    exact evalE_prefix_wf ih hu
  case not_ =>
    intro k cv e f he ih u hu
    simp only [AExpr.erase] at hu
    exact evalE_prefix_wf ih hu
  case complement =>
    intro k cv e w he ih u hu
    simp only [AExpr.erase] at hu
    exact evalE_prefix_wf ih hu
  case ite =>
    intro k v l c r s f s' f' g t hl hc hr hcm hvt ht ihl ihc ihr u hu
    simp only [AExpr.erase, evalE] at hu
    obtain ⟨b, -, hu⟩ := Res.bind_eq_ok.mp hu
    obtain ⟨x, hx, hu⟩ := Res.bind_eq_ok.mp hu
    have hxw : WF x := by
      cases b with
      | true => exact ihl _ hx
      | false => exact ihr _ hx
    exact (C08_conversion_keeps_value hxw (hvt ▸ ht) (Res.ofOutcome_eq_ok.mp hu)).2.2
  case call =>
    intro k cv st x n args ts t hfn hl hw has ih u hu
    obtain ⟨p1, p2, fn, p3, p4, p5, p6⟩ := hM.fns n x ts t hfn
    simp only [AExpr.erase, evalE, p1] at hu
    obtain ⟨vs, h1, h2⟩ := Res.bind_eq_ok.mp hu
    obtain ⟨q1, q2⟩ := ih vs p2 h1
    exact (p6 vs u q1 q2 h2).1
  case nil =>
    intro vs _ h
    simp only [eraseAll, evalArgs] at h
    cases h
    exact ⟨rfl, nofun⟩
  case cons =>
    intro e es s f t ts he hw hes ihe ihes vs hts h
    simp only [eraseAll, evalArgs] at h
    obtain ⟨v, h1, h⟩ := Res.bind_eq_ok.mp h
    obtain ⟨u, h2, h⟩ := Res.bind_eq_ok.mp h
    obtain ⟨us, h3, h⟩ := Res.bind_eq_ok.mp h
    cases h
    obtain ⟨k1, -, k3⟩ := C08_conversion_keeps_value (ihe _ h1) (hts t (.head _)) (Res.ofOutcome_eq_ok.mp h2)
    obtain ⟨g1, g2⟩ := ihes us (fun s hs => hts s (.tail _ hs)) h3
    refine ⟨by rw [List.map_cons, k1, g1], ?_⟩
    intro w hw
    rcases List.mem_cons.mp hw with rfl | hw
    · exact k3
    · exact g2 w hw

/-- What a statement ends with. -/
def FlowWF (ret : CType) : Flow → Prop
  | .normal σ | .break_ σ | .continue_ σ => FrameWF σ
  | .return_ v => WF v ∧ v.type = ret

theorem loop_wf {ret : CType} {cond : Frame → Res Bool} {body : Frame → Res Flow}
    (hb : ∀ σ fl, FrameWF σ → body σ = .ok fl → FlowWF ret fl) :
    ∀ n σ fl, FrameWF σ → whileLoop cond body n σ = .ok fl → FlowWF ret fl := by
  intro n
  induction n with
  | zero => intro σ fl _ h; cases h
  | succ n ih =>
    intro σ fl hσ h
    simp only [whileLoop] at h
    obtain ⟨b, h1, h⟩ := Res.bind_eq_ok.mp h
    cases b with
    | false => cases h; exact hσ
    | true =>
      simp only [if_true] at h
      obtain ⟨fl', h2, h⟩ := Res.bind_eq_ok.mp h
      have := hb σ fl' hσ h2
      cases fl' with
      | normal τ => exact ih τ fl this h
      | continue_ τ => exact ih τ fl this h
      | break_ τ => cases h; exact this
      | return_ v => cases h; exact this

theorem sameSs_wf {A : Around} {M : Meaning} {F : List Char → Option Fun} {ret : CType} (fuel : Nat)
    (hM : Matches A M F) (hrw : ret.WF) {ρ ρ' : Visible} {ss : List AStmt}
    (h : SameSs A ret ρ ss ρ') :
    ∀ σ fl, FrameWF σ → execSs M ret fuel (eraseStmts ss) σ = .ok fl → FlowWF ret fl := by
  refine SameSs.rec
    (motive_1 := fun ρ s ρ' _ => ∀ σ fl, FrameWF σ → execS M ret fuel s.erase σ = .ok fl → FlowWF ret fl)
    (motive_2 := fun ρ ss ρ' _ => ∀ σ fl, FrameWF σ → execSs M ret fuel (eraseStmts ss) σ = .ok fl → FlowWF ret fl)
    ?const_ ?declare ?let_ ?staticAssert ?ifThen ?ifElse ?while_ ?break_ ?continue_ ?returnVoid ?return_ ?assign
    ?call ?assert ?block ?nil ?cons h
  case const_ =>
    intro ρ k cv x t e σ fl hσ h
    simp only [AStmt.erase, execS] at h
    cases h
    exact hσ
  case declare =>
    intro ρ k t v x ty hw hv hk σ fl hσ h
    simp only [AStmt.erase, Option.map_none, execS] at h
    cases h
    exact hσ.unset
  case let_ =>
    intro ρ k t v x ty e s f hw hv hk he σ fl hσ h
    simp only [AStmt.erase, Option.map_some, execS] at h
    obtain ⟨u, h1, h⟩ := Res.bind_eq_ok.mp h
    obtain ⟨u', h2, h⟩ := Res.bind_eq_ok.mp h
    cases h
    exact hσ.set (C08_conversion_keeps_value (sameE_wf hM hσ he _ h1) (hM.vars _ _ hv) (Res.ofOutcome_eq_ok.mp h2)).2.2
  case staticAssert =>
    intro ρ k cv e σ fl hσ h
    simp only [AStmt.erase, execS] at h
    cases h
    exact hσ
  case ifThen =>
    intro ρ k cv c b f hc hb ihb σ fl hσ h
    simp only [AStmt.erase, execS] at h
    obtain ⟨b', h1, h⟩ := Res.bind_eq_ok.mp h
    cases b' with
    | true => exact ihb σ fl hσ h
    | false => cases h; exact hσ
  case ifElse =>
    intro ρ k cv c b e f hc hb he ihb ihe σ fl hσ h
    simp only [AStmt.erase, execS] at h
    obtain ⟨b', h1, h⟩ := Res.bind_eq_ok.mp h
    cases b' with
    | true => exact ihb σ fl hσ h
    | false => exact ihe σ fl hσ h
  case while_ =>
    intro ρ k cv c b f hc hb ihb σ fl hσ h
    simp only [AStmt.erase, execS] at h
    exact loop_wf ihb _ σ fl hσ h
  case break_ =>
    intro ρ k cv σ fl hσ h
    simp only [AStmt.erase, Option.map_none, execS] at h
    cases h
    exact hσ
  case continue_ =>
    intro ρ k cv σ fl hσ h
    simp only [AStmt.erase, Option.map_none, execS] at h
    cases h
    exact hσ
  case returnVoid =>
    intro ρ k cv hr σ fl hσ h
    simp only [AStmt.erase, Option.map_none, execS] at h
    cases h
    exact ⟨⟨trivial, rfl⟩, hr.symm⟩
  case return_ =>
    intro ρ k cv e s f he hw σ fl hσ h
    simp only [AStmt.erase, Option.map_some, execS] at h
    obtain ⟨u, h1, h⟩ := Res.bind_eq_ok.mp h
    obtain ⟨u', h2, h⟩ := Res.bind_eq_ok.mp h
    cases h
    obtain ⟨k1, -, k3⟩ := C08_conversion_keeps_value (sameE_wf hM hσ he _ h1) hrw (Res.ofOutcome_eq_ok.mp h2)
    exact ⟨k3, k1⟩
  case assign =>
    intro ρ k v x n e s f hcs hl hv he σ fl hσ h
    simp only [AStmt.erase, execS] at h
    obtain ⟨u, h1, h⟩ := Res.bind_eq_ok.mp h
    obtain ⟨u', h2, h⟩ := Res.bind_eq_ok.mp h
    cases h
    exact hσ.set (C08_conversion_keeps_value (sameE_wf hM hσ he _ h1) (hM.vars _ _ hv) (Res.ofOutcome_eq_ok.mp h2)).2.2
  case call =>
    intro ρ k cv st x n args ts t hfn hl has σ fl hσ h
    simp only [AStmt.erase, execS] at h
    obtain ⟨u, h1, h⟩ := Res.bind_eq_ok.mp h
    cases h
    exact hσ
  case assert =>
    intro ρ k cv st e f ha hl he σ fl hσ h
    simp only [AStmt.erase, execS] at h
    obtain ⟨u, h1, h⟩ := Res.bind_eq_ok.mp h
    cases h
    exact hσ
  case block =>
    intro ρ ρ' k cv ss hss ih σ fl hσ h
    simp only [AStmt.erase, execS] at h
    exact ih σ fl hσ h
  case nil =>
    intro ρ σ fl hσ h
    simp only [eraseStmts, execSs] at h
    cases h
    exact hσ
  case cons =>
    intro ρ ρ' ρ'' s ss hs hss ihs ihss σ fl hσ h
    simp only [eraseStmts, execSs] at h
    obtain ⟨fl', h1, h⟩ := Res.bind_eq_ok.mp h
    have := ihs σ fl' hσ h1
    cases fl' with
    | normal τ => exact ihss τ fl this h
    | break_ τ => cases h; exact this
    | continue_ τ => cases h; exact this
    | return_ v => cases h; exact this

end Bms.C
