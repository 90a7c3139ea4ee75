import Verif.Lemmas.AnalyzePure
import Verif.Props.Compile

/-!
# Values of constant expressions and widths
-/

namespace Bms

open Spec

/-- If the machine finishes a call, the reference semantics has the same outcome from some fuel on. -/
theorem callN_stable {P : Prog} (hP : P.Typed) (hH : P.Homogeneous) (hE : P.Ends) (hF : P.Fresh)
    {addr : Key → Option Nat} {vm : Vm} (hL : Loaded P addr vm.instructions)
    (hlen : vm.instructions.length ≤ 2 ^ 62) {k : Key} {f : FnDef} (hf : P.fns k = some f) {a : Nat}
    (ha : addr k = some a) {vs : List CVal}
    (hvs : List.Forall₂ (fun (v : CVal) t => v.type = t ∧ WF v) vs (f.params.map Prod.snd)) {m : Nat}
    {v : CVal} (hm : constantCall vm a vs m = some (.ok v)) :
    ∃ n, ∀ n', n ≤ n' → P.callN n' k vs = .ok v := by
  refine ⟨m + 2, fun n hn => ?_⟩
  obtain ⟨h1, h2, h3, h4⟩ := constant_call hP hH hE hL hlen hf ha hvs n
  cases ho : (P.callN n k vs).outcome with
  | some o' =>
    obtain ⟨m', hm'⟩ := h1 o' ho fun _ => hF
    have e1 := constantCall_mono h4 hm (Nat.le_max_left m m')
    have e2 := constantCall_mono h4 hm' (Nat.le_max_right m m')
    rw [e1] at e2
    cases e2
    cases hr : P.callN n k vs with
    | ok a => rw [hr] at ho; cases ho; rfl
    | _ => rw [hr] at ho; cases ho
  | none =>
    cases hr : P.callN n k vs with
    | timeout =>
      have := constantCall_mono h4 hm (show m ≤ n - 2 by omega)
      rw [h2 hr] at this
      cases this
    | stuck => exact absurd hr h3
    | _ => rw [hr] at ho; cases ho

/-- Arguments of a constant call have the values that are passed. -/
theorem passArgs_eval {M : Meaning} {σ : Frame} {s s' : ASt} {k : Key} :
    ∀ {args : List AExpr} {ps : List AParam} {cs : List CVal},
    (∀ a ∈ args, ∃ v, Sound M σ a.erase v) → (∀ p ∈ ps, ∃ t, SigT p.type t) → ps.length = args.length →
    Ana.passArgs k .constant args ps s = .ok cs s' →
    evalArgs M (ps.map fun p => typeOf p.type) (args.map AExpr.erase) σ = .ok cs ∧
      List.Forall₂ (fun (v : CVal) t => v.type = t ∧ WF v) cs (ps.map fun p => typeOf p.type) := by
  intro args
  induction args with
  | nil =>
    intro ps cs _ _ hl h
    have : ps = [] := by simpa using hl
    subst this
    simp only [Ana.passArgs, AM.pure_ok] at h
    obtain ⟨rfl, rfl⟩ := h
    exact ⟨by simp [evalArgs], .nil⟩
  | cons a as ih =>
    intro ps cs ha hp hl h
    cases ps with
    | nil => simp at hl
    | cons p ps =>
      simp only [Ana.passArgs, AM.bind_ok, AM.get_ok, AM.value_ok, AM.ite_fail_ok] at h
      obtain ⟨o, _, ⟨ho, rfl⟩, t, _, ⟨rfl, rfl⟩, v, _, ⟨hv, rfl⟩, hc, h⟩ := h
      obtain ⟨t', ht⟩ := hp p (by simp)
      have := ht.concrete ho
      subst this
      obtain ⟨v', hs⟩ := ha a (by simp)
      have hv' := hs.cv
      rw [AExpr.erase_cv, hv] at hv'
      cases hv'
      cases hev : evalConversionV v t with
      | ok w =>
        simp only [hev, if_true, AM.bind_ok, AM.get_ok, AM.pure_ok] at h
        obtain ⟨c, _, ⟨hcc, rfl⟩, cs', s1, h1, rfl, rfl⟩ := h
        obtain ⟨i1, i2⟩ := ih (fun b hb => ha b (List.mem_cons_of_mem _ hb))
          (fun q hq => hp q (List.mem_cons_of_mem _ hq)) (by simpa using hl) h1
        have hwc : ∃ x, w.val = some x ∧ c = ⟨w.type, x⟩ := by
          unfold Value.concrete at hcc
          cases hx : w.val with
          | none => simp [hx] at hcc
          | some x => simp only [hx, Outcome.ok.injEq] at hcc; exact ⟨x, rfl, hcc.symm⟩
        obtain ⟨x, hx, rfl⟩ := hwc
        obtain ⟨y, hy, hcv⟩ := evalConversionV_known hev hx
        have hwt : w.type = t := (valueConvertTo_known hev).1
        constructor
        · simp only [List.map_cons, evalArgs, hs.known y hy, Res.ok_bind, ht.typeOf, hcv, Res.ofOutcome, i1]
        · refine .cons ⟨by simp only [ht.typeOf]; exact hwt, ?_⟩ i2
          exact (hs.vok.conversion ht.2.2 (.inl hev)).2 x hx
      | err e => simp [hev, AM.fail_ok] at h
      | throws => simp [hev, AM.throws_ok] at h
      | ub => simp [hev, AM.ub_ok] at h

/-! ## Parts that are not evaluated -/

theorem Sound.same {M : Meaning} {σ : Frame} {e e' : Expr} {w : Value} (h : Sound M σ e w)
    (hcv : e'.cv = e.cv) (he : evalE M e' σ = evalE M e σ) : Sound M σ e' w :=
  ⟨hcv.trans h.cv, h.wf, fun v hv => h.ok v (he ▸ hv), fun x hx => he.trans (h.known x hx)⟩

/-- A conditional expression, one of whose branches is only known to have a value. -/
theorem Sound.iteChosen {M : Meaning} {σ : Frame} {l c r : Expr} {vl vc vr w : Value} {t : CType} {b : Bool}
    (hl : if b then Sound M σ l vl else VOk vl) (hsc : Sound M σ c vc)
    (hr : if b then VOk vr else Sound M σ r vr) (hb : vc.asBool (ε := AErr) = .ok b)
    (hck : checkIf vl.type vc.type vr.type = .ok t) (hf : Folds (evalIfV vl vc vr) t w) :
    Sound M σ (.ite (some w) l c r) w := by
  have hcv : evalE M c σ >>= asBool = .ok b := by
    obtain ⟨ct, co⟩ := vc
    cases co with
    | none => simp [Value.asBool] at hb
    | some x =>
      rw [hsc.known x rfl]
      simp only [Res.ok_bind, asBool]
      have ht : ct = .bool := (checkIf_ok hck).1
      subst ht
      simp only [Value.asBool, if_true, Outcome.ok.injEq] at hb
      simp [hb]
  cases b with
  | true =>
    simp only [if_true] at hl hr
    refine (Sound.ite hl hsc (hr.sound (M := M) (σ := σ)) hck hf).same rfl ?_
    simp only [evalE]
    rw [hcv]
    simp [Res.ok_bind]
  | false =>
    simp only [Bool.false_eq_true, if_false] at hl hr
    refine (Sound.ite (hl.sound (M := M) (σ := σ)) hsc hr hck hf).same rfl ?_
    simp only [evalE]
    rw [hcv]
    simp [Res.ok_bind]

/-- `&&` and `||` where the left operand decides. -/
theorem Sound.shortCircuit {M : Meaning} {σ : Frame} {l r : Expr} {vl vr w : Value} {op : ExprType}
    {t : CType} (hsl : Sound M σ l vl) (hr : VOk vr) (hop : op = .logical_and ∨ op = .logical_or)
    (ht : vl.type = .bool) (hb : vl.asBool (ε := AErr) = .ok (decide (op = .logical_or)))
    (hck : checkBinary vl.type op vr.type = .ok t) (hf : Folds (evalBinaryV vl op vr) t w) :
    Sound M σ (.binary (some w) op l r) w := by
  have hcv : evalE M l σ >>= asBool = .ok (decide (op = .logical_or)) := by
    obtain ⟨ct, co⟩ := vl
    cases co with
    | none => simp [Value.asBool] at hb
    | some x =>
      rw [hsl.known x rfl]
      simp only [Res.ok_bind, asBool]
      simp only at ht
      subst ht
      simp only [Value.asBool, if_true, Outcome.ok.injEq] at hb
      simp [← hb]
  refine (Sound.binary hsl (hr.sound (M := M) (σ := σ)) hck hf).same rfl ?_
  rcases hop with rfl | rfl
  · simp only [evalE, if_true]
    rw [hcv]
    simp [Res.ok_bind]
  · simp only [evalE, if_neg (show ¬ ExprType.logical_or = .logical_and by decide), if_true]
    rw [hcv]
    simp [Res.ok_bind]

/-! ## Programs of states -/

theorem Grows.progConst {s F : ASt} (h : Grows s F) {k : Key} {v : CVal}
    (hk : (progOf s).consts k = some v) : (progOf F).consts k = some v := by
  simp only [progOf] at hk ⊢
  cases hd : s.decl k with
  | none => rw [hd] at hk; cases hk
  | some d =>
    obtain ⟨kd, cv⟩ := d
    cases cv with
    | none => rw [hd] at hk; cases kd <;> simp [declConst] at hk
    | some w => rw [h.declSome k kd w hd, ← hd]; exact hk

theorem Grows.progFn {s F : ASt} (h : Grows s F) {k : Key} {d : FnDef}
    (hk : (progOf s).fns k = some d) : (progOf F).fns k = some d := by
  simp only [progOf] at hk ⊢
  cases hf : s.fns k with
  | none => rw [hf] at hk; cases hk
  | some f =>
    rw [hf] at hk
    obtain ⟨f', hf', hle⟩ := h.fns k f hf
    simp only [Option.bind_some] at hk
    split at hk
    · rename_i hc
      cases hk
      have hl : f'.level = .forConst := by
        have := hle.level
        rw [Level.eq_forConst]
        have h3 := Level.eq_forConst.1 hc.2
        exact Nat.le_trans h3 this
      simp only [hf', Option.bind_some]
      rw [if_pos ⟨hle.generic.trans hc.1, hl⟩]
      obtain ⟨h1, h2⟩ := hle.sig (by rw [hc.2]; decide)
      simp only [fnDef, h1, h2, hle.body (by rw [hc.2]; decide)]
    · cases hk

/-- In all states that analysis may end in, the expression is sound with this value, from some fuel
on. -/
def SoundIn (P : Prog) (e : Expr) (v : Value) : Prop :=
  ∃ n, ∀ m, n ≤ m → Sound (P.meaning (P.callN m)) Frame.empty e v

theorem SoundIn.hasValue {P : Prog} {e : AExpr} {v : Value} (h : SoundIn P e.erase v) {x : Int}
    (hx : v.val = some x) : HasValue P e ⟨v.type, x⟩ := by
  obtain ⟨n, h⟩ := h
  exact ⟨n, fun m hm => (h m hm).known x hx⟩

theorem SoundIn.map {P : Prog} {e e' : Expr} {v w : Value} (h : SoundIn P e v)
    (hf : ∀ M, Sound M Frame.empty e v → Sound M Frame.empty e' w) : SoundIn P e' w := by
  obtain ⟨n, h⟩ := h
  exact ⟨n, fun m hm => hf _ (h m hm)⟩

theorem SoundIn.map₂ {P : Prog} {e f e' : Expr} {v u w : Value} (h : SoundIn P e v) (h' : SoundIn P f u)
    (hf : ∀ M, Sound M Frame.empty e v → Sound M Frame.empty f u → Sound M Frame.empty e' w) :
    SoundIn P e' w := by
  obtain ⟨n, h⟩ := h
  obtain ⟨n', h'⟩ := h'
  refine ⟨max n n', fun m hm => hf _ (h m ?_) (h' m ?_)⟩
  · exact Nat.le_trans (Nat.le_max_left _ _) hm
  · exact Nat.le_trans (Nat.le_max_right _ _) hm

theorem Finally.and {s : ASt} {p q : Prog → Prop} (h : Finally s p) (h' : Finally s q) :
    Finally s fun P => p P ∧ q P := fun F hF hg => ⟨h F hF hg, h' F hF hg⟩

theorem Finally.imp {s : ASt} {p q : Prog → Prop} (h : Finally s p) (h' : ∀ P, p P → q P) :
    Finally s q := fun F hF hg => h' _ (h F hF hg)

/-! ## Situations -/

/-- All declarations have values of their types. -/
def DeclsOk (s : ASt) : Prop := ∀ x d, s.decl x = some d → DeclOk d

/-- Where expressions with references `R` are analyzed: the invariant holds, or there are no calls
(`C`). -/
def VPre (N : Nat) (level : Level) (ctx : ECtx) (s : ASt) (R : List Lookup) (C : Prop) : Prop :=
  Inv N s ∧ Mode level ctx s R ∨ C ∧ DeclsOk s

theorem VPre.declsOk {N : Nat} {level : Level} {ctx : ECtx} {s : ASt} {R : List Lookup} {C : Prop}
    (h : VPre N level ctx s R C) : DeclsOk s := h.elim (fun h => h.1.declOk) fun h => h.2

theorem VPre.sub {N : Nat} {level : Level} {ctx : ECtx} {s : ASt} {R R' : List Lookup} {C C' : Prop}
    (h : VPre N level ctx s R C) (hR : ∀ r ∈ R', r ∈ R) (hC : C → C') : VPre N level ctx s R' C' :=
  h.imp (fun h => ⟨h.1, h.2.sub hR⟩) fun h => ⟨hC h.1, h.2⟩

theorem VPre.change {N : Nat} {level : Level} {ctx ctx' : ECtx} {s : ASt} {R : List Lookup} {C : Prop}
    (h : VPre N level ctx s R C) (hc : ctx = .normal → ctx' = .normal) : VPre N level ctx' s R C := by
  refine h.imp (fun h => ⟨h.1, ?_⟩) _root_.id
  cases ctx with
  | constant => exact h.2.constant _
  | normal => rw [hc rfl]; exact h.2

theorem VPre.type {N : Nat} {level : Level} {ctx : ECtx} {s : ASt} {R : List Lookup} {C C' : Prop}
    (h : VPre N level ctx s R C) (hC : C → C') : VPre N .forConst .constant s [] C' :=
  h.imp (fun h => ⟨h.1, .inl rfl⟩) fun h => ⟨hC h.1, h.2⟩

/-- What holds of a state after a part of what is analyzed has been. -/
theorem VPre.next {N : Nat} {level : Level} {ctx : ECtx} {s s' : ASt} {R : List Lookup} {C : Prop}
    (h : VPre N level ctx s R C) (hi : Inv N s → Mode level ctx s R → Inv N s' ∧ Ext [] s s')
    (hc : C → s' = s) : VPre N level ctx s' R C ∧ Grows s s' := by
  rcases h with ⟨h1, h2⟩ | ⟨h1, h2⟩
  · obtain ⟨h3, h4⟩ := hi h1 h2
    exact ⟨.inl ⟨h3, h2.ext h4⟩, h4.grows⟩
  · have := hc h1
    subst this
    exact ⟨.inr ⟨h1, h2⟩, .refl _⟩

theorem declValue' {s : ASt} (h : DeclsOk s) {x : Key} {kd : DeclKind} {v : Value}
    (hx : s.decl x = some ⟨kd, some v⟩) : VOk v := by
  have := h _ _ hx
  cases kd <;> simp only [DeclOk] at this
  · obtain ⟨h1, h2⟩ := this
    exact ⟨h2, fun y hy => by rw [h1] at hy; cases hy⟩
  · exact this
  · obtain ⟨h1, h2⟩ := this
    exact ⟨h2, fun y hy => by rw [h1] at hy; cases hy⟩
  · exact this

/-- What is known of the value of an expression. -/
structure EVal (ctx : ECtx) (e' : AExpr) (s' : ASt) : Prop where
  vok : ∀ v, e'.cv = some v → VOk v
  widths : Finally s' fun P => WidthsE P e'
  sound : ctx = .constant → ∀ v, e'.cv = some v → Finally s' fun P => SoundIn P e'.erase v

theorem EVal.grow {ctx : ECtx} {e' : AExpr} {s s' : ASt} (h : EVal ctx e' s) (hg : Grows s s') :
    EVal ctx e' s' :=
  ⟨h.vok, h.widths.grow hg, fun hc v hv => (h.sound hc v hv).grow hg⟩

/-- What is known of the values of arguments. -/
structure EsVal (ctx : ECtx) (es' : List AExpr) (s' : ASt) : Prop where
  vok : ∀ a ∈ es', ∃ v, a.cv = some v ∧ VOk v
  widths : Finally s' fun P => WidthsEs P es'
  sound : ctx = .constant → Finally s' fun P => ∃ n, ∀ m, n ≤ m → ∀ a ∈ es',
    ∃ v, Sound (P.meaning (P.callN m)) Frame.empty a.erase v

theorem idValue_vals {s s' : ASt} (h : DeclsOk s) {k : Key} {ref : Option Lookup} {ctx : ECtx}
    {cv : Option Value} (hv : Ana.idValue k ref ctx s = .ok cv s') {name : Name} {g : Bool} :
    EVal ctx (.id k cv name ref g) s := by
  refine (fun (a : (∀ v, cv = some v → VOk v) ∧ (ctx = .constant → ∀ v, cv = some v →
    Finally s fun P => SoundIn P (.id cv ref) v)) => ⟨a.1, fun _ _ _ => trivial, a.2⟩) ?_
  unfold Ana.idValue at hv
  cases ref with
  | none => simp [AM.throws_ok] at hv
  | some r =>
    cases r with
    | builtin f => simp [AM.throws_ok] at hv
    | param p =>
      simp only [AM.ite_fail_ok, AM.bind_ok, AM.read_ok] at hv
      obtain ⟨hc, _, _, ⟨rfl, rfl⟩, hv⟩ := hv
      cases hp : s.decl p with
      | none => simp [hp, AM.throws_ok] at hv
      | some d =>
        obtain ⟨kd, o⟩ := d
        simp only [hp, AM.pure_ok] at hv
        obtain ⟨rfl, rfl⟩ := hv
        refine ⟨fun v hv => ?_, fun hc' => absurd hc' hc⟩
        subst hv; exact declValue' h hp
    | node j =>
      simp only [AM.bind_ok, AM.read_ok] at hv
      obtain ⟨_, _, ⟨rfl, rfl⟩, hv⟩ := hv
      cases hfj : s.fns j with
      | some f => simp [hfj, AM.fail_ok] at hv
      | none =>
        simp only [hfj] at hv
        have key : ∀ kd v, s.decl j = some ⟨kd, some v⟩ → cv = some v → (ctx = .constant → kd = .const_ ∨ kd = .width) →
            ((∀ v, cv = some v → VOk v) ∧ (ctx = .constant → ∀ v, cv = some v →
              Finally s fun P => SoundIn P (.id cv (some (.node j))) v)) := by
          intro kd v hd hcv hkd
          subst hcv
          refine ⟨fun w hw => ?_, fun hc w hw F hF hg => ⟨0, fun m _ => ?_⟩⟩
          · cases hw
            exact declValue' h hd
          · cases hw
            have hvok := declValue' h hd
            have hdF := hg.declSome j kd v hd
            obtain ⟨t, o⟩ := v
            cases o with
            | none =>
              have hn : (progOf F).consts j = none := by
                rcases hkd hc with rfl | rfl <;> simp [progOf, hdF, declConst]
              refine ⟨rfl, hvok.1, fun u hu => ?_, fun x hx => by cases hx⟩
              simp [evalE, Prog.meaning, hn, readVar, Frame.empty] at hu
            | some x =>
              have hn : (progOf F).consts j = some ⟨t, x⟩ := by
                rcases hkd hc with rfl | rfl <;> simp [progOf, hdF, declConst]
              have he : ∀ cv, evalE ((progOf F).meaning ((progOf F).callN m)) (.id cv (some (.node j)))
                  Frame.empty = .ok ⟨t, x⟩ := fun cv => by simp [evalE, Prog.meaning, hn]
              refine ⟨rfl, hvok.1, fun u hu => ?_, fun y hy => ?_⟩
              · rw [he] at hu
                cases hu
                exact ⟨rfl, hvok.2 x rfl⟩
              · cases hy
                exact he _
        cases hd : s.decl j with
        | none => simp [hd, AM.throws_ok] at hv
        | some d =>
          obtain ⟨kd, o⟩ := d
          cases kd <;> cases o <;>
            simp only [hd, AM.ite_fail_ok, AM.fail_ok, AM.throws_ok, AM.pure_ok, and_false] at hv
          · exact key _ _ hd hv.2.1.symm fun e => absurd e hv.1
          · exact key _ _ hd hv.1.symm fun _ => .inl rfl
          · exact key _ _ hd hv.2.1.symm fun _ => .inr rfl

/-- `rightContext` in constant expressions. -/
theorem rightContext_vals {s s' : ASt} {k : Key} {op : ExprType} {left : Option Value} {ctx : ECtx}
    (h : Ana.rightContext k op left .constant s = .ok ctx s') :
    ctx = .constant ∨ (op = .logical_and ∨ op = .logical_or) ∧ ∃ v, left = some v ∧ v.type = .bool ∧
      v.asBool (ε := AErr) = .ok (decide (op = .logical_or)) := by
  unfold Ana.rightContext at h
  split at h
  · rename_i hc
    simp only [AM.bind_ok, AM.deref_ok, AM.ite_fail_ok, AM.get_ok, AM.pure_ok] at h
    obtain ⟨v, _, ⟨hv, rfl⟩, ht, b, _, ⟨hb, rfl⟩, hctx, rfl⟩ := h
    by_cases hbb : b = decide (op = .logical_or)
    · right
      refine ⟨?_, v, hv, by simpa using ht, by rw [hb, hbb]⟩
      have := hc.2
      cases op <;> simp [Gen.isShortCircuit] at this ⊢
    · left
      rw [← hctx, if_neg hbb]
  · simp only [AM.pure_ok] at h
    exact .inl h.1.symm

theorem sound_literal {M : Meaning} {σ : Frame} {l : Lit} {v : CVal} (h : litValue l = some v) :
    Sound M σ (.literal l (some (Value.known v))) (Value.known v) := by
  have he : evalE M (.literal l (some (Value.known v))) σ = .ok v := by simp only [evalE, h]
  have hw := litValue_wf h
  refine ⟨rfl, hw.1, fun u hu => ?_, fun x hx => ?_⟩
  · rw [he] at hu; cases hu; exact ⟨rfl, hw⟩
  · rw [he]; cases hx; rfl

section

variable {N n : Nat} {af : Key → Level → AM Unit} (haf : AfOk N af)

include haf

theorem expr_next {e : AExpr} {s s' : ASt} {level : Level} {ctx ctx' : ECtx} {e' : AExpr} {R : List Lookup}
    {C : Prop} (h : VPre N level ctx s R C) (hr : RawE e) (hR : ∀ r ∈ refsE e, r ∈ R) (hC : C → CallFree e)
    (hctx : ctx = .normal → ctx' = .normal)
    (hx : Ana.expr n af e level ctx' s = .ok e' s') : VPre N level ctx s' R C ∧ Grows s s' :=
  h.next (fun h1 h2 => by
    have : Mode level ctx' s R := by
      cases ctx with
      | constant => exact h2.constant _
      | normal => rw [hctx rfl]; exact h2
    have a := expr_raw_ok haf e h1 hr (this.sub hR) hx
    exact ⟨a.inv, a.ext⟩) fun h => expr_state e (hC h) hx

theorem type_next {ty : AType} {s s' : ASt} {level : Level} {ctx : ECtx} {ty' : AType} {R : List Lookup}
    {C : Prop} (h : VPre N level ctx s R C) (hr : RawT ty) (hC : C → CallFreeT ty)
    (hx : Ana.type n af ty s = .ok ty' s') : VPre N level ctx s' R C ∧ Grows s s' :=
  h.next (fun h1 _ => by
    have a := type_raw_ok haf ty h1 hr hx
    exact ⟨a.inv, a.ext⟩) fun h => type_state ty (hC h) hx

mutual

/-- Expressions that have not been analyzed before. -/
theorem expr_vals : (e : AExpr) → {s s' : ASt} → {level : Level} → {ctx : ECtx} → {e' : AExpr} →
    VPre N level ctx s (refsE e) (CallFree e) → RawE e → Ana.expr n af e level ctx s = .ok e' s' →
    EVal ctx e' s'
  | .literal k cv lit, s, s', level, ctx, e', h, hr, hx => by
    simp only [RawE] at hr
    subst hr
    rw [Ana.expr] at hx
    obtain ⟨rfl, l, v, rfl, hl, rfl⟩ := literal_ok hx
    refine ⟨fun w hw => ?_, fun _ _ _ => trivial, fun _ w hw F _ _ => ⟨0, fun m _ => ?_⟩⟩
    · simp only [AExpr.cv, Option.some.injEq] at hw
      subst hw
      exact .known (litValue_wf hl)
    · simp only [AExpr.cv, Option.some.injEq] at hw
      subst hw
      simp only [AExpr.erase, eraseLit]
      exact sound_literal hl
  | .id k cv name ref g, s, s', level, ctx, e', h, hr, hx => by
    simp only [RawE] at hr
    subst hr
    rw [Ana.expr] at hx
    simp only [AM.bind_ok, AM.pure_ok] at hx
    obtain ⟨cv, s1, hv, rfl, rfl⟩ := hx
    have := idValue_state hv
    subst this
    exact idValue_vals h.declsOk hv
  | .conversion k cv e ty, s, s', level, ctx, e', h, hr, hx => by
    simp only [RawE] at hr
    simp only [Ana.expr, AM.bind_ok, AM.value_ok, AM.get_ok, AM.ite_fail_ok, AM.pure_ok] at hx
    obtain ⟨e1, s1, h1, ty1, s2, h2, v, _, ⟨hv, rfl⟩, o, _, ⟨ho, rfl⟩, t, _, ⟨rfl, rfl⟩, hc, w, _, hf,
      rfl, rfl⟩ := hx
    obtain ⟨hf', rfl⟩ := AM.foldResult_ok hf
    have hR : ∀ r ∈ refsE e, r ∈ refsE (.conversion k cv e ty) := fun r hr => by simp [refsE, hr]
    have hC : CallFree (.conversion k cv e ty) → CallFree e ∧ CallFreeT ty := fun h => by
      simpa only [CallFree] using h
    obtain ⟨n1, g1⟩ := expr_next haf h hr.2.1 hR (fun h => (hC h).1) _root_.id h1
    obtain ⟨n2, g2⟩ := type_next haf n1 hr.2.2 (fun h => (hC h).2) h2
    have a := (expr_vals e (h.sub hR fun h => (hC h).1) hr.2.1 h1).grow g2
    have b := type_vals ty (n1.type fun h => (hC h).2) hr.2.2 h2
    obtain ⟨t', ht⟩ := type_sig (rawT_cv hr.2.2) h2
    have := ht.concrete ho
    subst this
    refine ⟨fun u hu => ?_, a.widths.and b, fun hc u hu => ?_⟩ <;>
      simp only [AExpr.cv, Option.some.injEq] at hu <;> subst hu
    · exact (a.vok v hv).conversion ht.2.2 hf'
    · simp only [AExpr.erase, ht.2.1]
      exact (a.sound hc v hv).imp fun P h => h.map fun M h => h.conversion ht.2.2 hf'
  | .ite k cv l c r, s, s', level, ctx, e', h, hr, hx => by
    simp only [RawE] at hr
    simp only [Ana.expr, AM.bind_ok, AM.deref_ok, AM.ite_fail_ok, AM.checked_ok] at hx
    obtain ⟨c1, s1, h1, vc, _, ⟨hvc, rfl⟩, hb, hx⟩ := hx
    obtain ⟨chosen, hchosen, hconst, l1, s3, h2, r1, s4, h3, vl, vr, t, hvl, hvr, ht, hx⟩ : ∃ chosen : Option Bool,
        (ctx = .normal → chosen = none) ∧
        (ctx = .constant → ∃ b, chosen = some b ∧ vc.asBool (ε := AErr) = .ok b) ∧ ∃ l1 s3,
        Ana.expr n af l level (if chosen = some false then .normal else ctx) s1 = .ok l1 s3 ∧ ∃ r1 s4,
        Ana.expr n af r level (if chosen = some true then .normal else ctx) s3 = .ok r1 s4 ∧
        ∃ vl vr t, l1.cv = some vl ∧ r1.cv = some vr ∧ checkIf vl.type vc.type vr.type = .ok t ∧
        (match evalIfV vl vc vr with
          | .ok w => pure (.ite k (some w) l1 c1 r1)
          | .err _ =>
            if ctx = .constant then AM.throws
            else pure (.ite k (some (Value.unknownOf t)) l1 c1 r1)
          | .throws => AM.throws
          | .ub => AM.ub : AM AExpr) s4 = .ok e' s' := by
      by_cases hcc : ctx = .constant
      · simp only [if_pos hcc, AM.bind_ok, AM.deref_ok, AM.assert_ok, AM.get_ok, AM.checked_ok,
          AM.pure_ok] at hx
        obtain ⟨_, _, ⟨_, rfl⟩, b, _, ⟨hbb, rfl⟩, _, _, ⟨rfl, rfl⟩, l1, s3, h2, r1, s4, h3, vl, _, ⟨hvl, rfl⟩,
          vr, _, ⟨hvr, rfl⟩, t, _, ⟨ht, rfl⟩, hx⟩ := hx
        refine ⟨some b, fun e => (by rw [hcc] at e; cases e), fun _ => ⟨b, rfl, hbb⟩, l1, s3, h2, r1, s4, h3,
          vl, vr, t, hvl, hvr, ht, ?_⟩
        simp only [if_pos hcc]
        exact hx
      · simp only [if_neg hcc, AM.bind_ok, AM.deref_ok, AM.assert_ok, AM.get_ok, AM.checked_ok,
          AM.pure_ok] at hx
        obtain ⟨_, _, ⟨rfl, rfl⟩, l1, s3, h2, r1, s4, h3, vl, _, ⟨hvl, rfl⟩,
          vr, _, ⟨hvr, rfl⟩, t, _, ⟨ht, rfl⟩, hx⟩ := hx
        refine ⟨none, fun _ => rfl, fun e => absurd e hcc, l1, s3, h2, r1, s4, h3, vl, vr, t, hvl, hvr, ht, ?_⟩
        simp only [if_neg hcc]
        exact hx
    have hRc : ∀ x ∈ refsE c, x ∈ refsE (.ite k cv l c r) := fun r hr => by simp [refsE, hr]
    have hRl : ∀ x ∈ refsE l, x ∈ refsE (.ite k cv l c r) := fun r hr => by simp [refsE, hr]
    have hRr : ∀ x ∈ refsE r, x ∈ refsE (.ite k cv l c r) := fun r hr => by simp [refsE, hr]
    have hC : CallFree (.ite k cv l c r) → CallFree l ∧ CallFree c ∧ CallFree r := fun h => by
      simpa only [CallFree] using h
    have hn1 : ctx = .normal → (if chosen = some false then ECtx.normal else ctx) = .normal := fun e => by
      simp [hchosen e, e]
    have hn2 : ctx = .normal → (if chosen = some true then ECtx.normal else ctx) = .normal := fun e => by
      simp [hchosen e, e]
    obtain ⟨n1, g1⟩ := expr_next haf h hr.2.2.1 hRc (fun h => (hC h).2.1) _root_.id h1
    obtain ⟨n2, g2⟩ := expr_next haf n1 hr.2.1 hRl (fun h => (hC h).1) hn1 h2
    obtain ⟨n3, g3⟩ := expr_next haf n2 hr.2.2.2 hRr (fun h => (hC h).2.2) hn2 h3
    have a := (expr_vals c (h.sub hRc fun h => (hC h).2.1) hr.2.2.1 h1).grow (g2.trans g3)
    have b := (expr_vals l ((n1.change hn1).sub hRl fun h => (hC h).1) hr.2.1 h2).grow g3
    have d := expr_vals r ((n2.change hn2).sub hRr fun h => (hC h).2.2) hr.2.2.2 h3
    have hfin : ∃ w, Folds (evalIfV vl vc vr) t w ∧ e' = .ite k (some w) l1 c1 r1 ∧ s4 = s' := by
      cases hev : evalIfV vl vc vr with
      | ok w =>
        simp only [hev, AM.pure_ok] at hx
        exact ⟨w, .inl rfl, hx.1.symm, hx.2⟩
      | err e =>
        simp only [hev] at hx
        split at hx
        · simp [AM.throws_ok] at hx
        · simp only [AM.pure_ok] at hx
          exact ⟨_, .inr ⟨⟨e, rfl⟩, rfl⟩, hx.1.symm, hx.2⟩
      | throws => simp [hev, AM.throws_ok] at hx
      | ub => simp [hev, AM.ub_ok] at hx
    obtain ⟨w, hf, rfl, rfl⟩ := hfin
    refine ⟨fun u hu => ?_, b.widths.and (a.widths.and d.widths), fun hc u hu => ?_⟩ <;>
      simp only [AExpr.cv, Option.some.injEq] at hu <;> subst hu
    · exact (b.vok vl hvl).ite (a.vok vc hvc) (d.vok vr hvr) ht hf
    · simp only [AExpr.erase]
      obtain ⟨bb, rfl, hbb⟩ := hconst hc
      cases bb with
      | true =>
        have b' := b.sound (by simp [hc]) vl hvl
        refine ((a.sound hc vc hvc).and b').imp fun P h => h.1.map₂ h.2 fun M ha hb =>
          Sound.iteChosen (b := true) (by simpa using hb) ha (by simpa using d.vok vr hvr) hbb ht hf
      | false =>
        have d' := d.sound (by simp [hc]) vr hvr
        refine ((a.sound hc vc hvc).and d').imp fun P h => h.1.map₂ h.2 fun M ha hb =>
          Sound.iteChosen (b := false) (by simpa using b.vok vl hvl) ha (by simpa using hb) hbb ht hf
  | .binary k cv op l r, s, s', level, ctx, e', h, hr, hx => by
    simp only [RawE] at hr
    simp only [Ana.expr, AM.bind_ok, AM.assert_ok, AM.deref_ok, AM.checked_ok, AM.pure_ok] at hx
    obtain ⟨l1, s1, h1, _, _, ⟨_, rfl⟩, ctx', s2, hctx, r1, s3, h2, _, _, ⟨_, rfl⟩, vl, _, ⟨hvl, rfl⟩, vr, _,
      ⟨hvr, rfl⟩, t, _, ⟨ht, rfl⟩, w, _, hf, rfl, rfl⟩ := hx
    obtain ⟨rfl, hctx'⟩ := rightContext_ok hctx
    obtain ⟨hf', rfl⟩ := AM.foldResult_ok hf
    have hRl : ∀ x ∈ refsE l, x ∈ refsE (.binary k cv op l r) := fun r hr => by simp [refsE, hr]
    have hRr : ∀ x ∈ refsE r, x ∈ refsE (.binary k cv op l r) := fun r hr => by simp [refsE, hr]
    have hC : CallFree (.binary k cv op l r) → CallFree l ∧ CallFree r := fun h => by
      simpa only [CallFree] using h
    obtain ⟨n1, g1⟩ := expr_next haf h hr.2.1 hRl (fun h => (hC h).1) _root_.id h1
    obtain ⟨n2, g2⟩ := expr_next haf n1 hr.2.2 hRr (fun h => (hC h).2) hctx' h2
    have a := (expr_vals l (h.sub hRl fun h => (hC h).1) hr.2.1 h1).grow g2
    have b := expr_vals r ((n1.change hctx').sub hRr fun h => (hC h).2) hr.2.2 h2
    refine ⟨fun u hu => ?_, a.widths.and b.widths, fun hc u hu => ?_⟩ <;>
      simp only [AExpr.cv, Option.some.injEq] at hu <;> subst hu
    · exact (a.vok vl hvl).binary (b.vok vr hvr) ht hf'
    · simp only [AExpr.erase]
      subst hc
      rcases rightContext_vals hctx with rfl | ⟨hop, v, hv, hvt, hvb⟩
      · exact ((a.sound rfl vl hvl).and (b.sound rfl vr hvr)).imp fun P h => h.1.map₂ h.2 fun M ha hb =>
          Sound.binary ha hb ht hf'
      · rw [hvl] at hv
        cases hv
        exact (a.sound rfl vl hvl).imp fun P h => h.map fun M ha =>
          Sound.shortCircuit ha (b.vok vr hvr) hop hvt hvb ht hf'
  | .prefix k cv op e, s, s', level, ctx, e', h, hr, hx => by
    simp only [RawE] at hr
    simp only [Ana.expr, AM.bind_ok, AM.value_ok, AM.checked_ok, AM.pure_ok] at hx
    obtain ⟨e1, s1, h1, v, _, ⟨hv, rfl⟩, t, _, ⟨ht, rfl⟩, w, _, hf, rfl, rfl⟩ := hx
    obtain ⟨hf', rfl⟩ := AM.foldResult_ok hf
    have a := expr_vals e (h.sub (fun r hr => by simpa [refsE] using hr)
      fun h => by simpa only [CallFree] using h) hr.2 h1
    refine ⟨fun u hu => ?_, a.widths, fun hc u hu => ?_⟩ <;>
      simp only [AExpr.cv, Option.some.injEq] at hu <;> subst hu
    · exact (a.vok v hv).pre ht hf'
    · simp only [AExpr.erase]
      exact (a.sound hc v hv).imp fun P h => h.map fun M h => h.pre ht hf'
  | .call k cv st name ref args, s, s', level, ctx, e', h, hr, hx => by
    simp only [RawE] at hr
    obtain ⟨-, rfl, hr⟩ := hr
    have hsub : ∀ r ∈ refsEs args, r ∈ refsE (.call k cv false name ref args) := fun r hr => by
      simp [refsE, hr]
    obtain ⟨hi, hm⟩ : Inv N s ∧ Mode level ctx s (refsE (.call k cv false name ref args)) := by
      rcases h with h | ⟨h, -⟩
      · exact h
      · simp only [CallFree] at h
    cases ref with
    | none => simp [Ana.expr, AM.throws_ok] at hx
    | some r =>
      cases r with
      | param p => simp [Ana.expr, AM.bind_ok, AM.ub_ok] at hx
      | builtin f =>
        simp only [Ana.expr, AM.bind_ok, AM.checked_ok, AM.lift_ok, AM.pure_ok] at hx
        obtain ⟨args1, s1, h1, vs, s2, h2, _, _, ⟨_, rfl⟩, w, _, ⟨hev, rfl⟩, rfl, rfl⟩ := hx
        have a := exprs_vals args hi (hm.sub hsub) hr h1
        obtain ⟨rfl, hvs⟩ := values_ok h2
        refine ⟨fun u hu => ?_, a.widths, fun hc u hu => ?_⟩ <;>
          simp only [AExpr.cv, Option.some.injEq] at hu <;> subst hu
        · refine VOk.builtin (fun v hv => ?_) hev
          have : some v ∈ args1.map AExpr.cv := by rw [hvs]; exact List.mem_map_of_mem hv
          obtain ⟨a', ha', he⟩ := List.mem_map.1 this
          obtain ⟨v', h3, h4⟩ := a.vok a' ha'
          rw [he] at h3
          cases h3
          exact h4
        · refine (a.sound hc).imp fun P ⟨m0, h⟩ => ⟨m0, fun m hm => ?_⟩
          simp only [AExpr.erase]
          refine Sound.builtin (vs := vs) (fun x hx => ?_) ?_ hev false
          · rw [eraseAll_eq] at hx
            obtain ⟨y, hy, rfl⟩ := List.mem_map.1 hx
            exact h m hm y hy
          · rw [eraseAll_eq, List.map_map, ← hvs]
            exact List.map_congr_left fun b _ => AExpr.erase_cv b
      | node j0 =>
        simp only [Ana.expr, AM.bind_ok, AM.pure_ok] at hx
        obtain ⟨args1, s1, h1, ⟨j, w⟩, s2, h2, rfl, rfl⟩ := hx
        have a := exprs_raw_ok haf args hi hr (hm.sub hsub) h1
        have a' := exprs_vals args hi (hm.sub hsub) hr h1
        obtain ⟨b1, b2, b3, -, b4⟩ := callFunction_ok haf a.inv a.vok
          ((hm.sub (refs' := [.node j0]) fun r hr => by
            rw [List.mem_singleton.1 hr]; simp [refsE]).ext a.ext) h2
        refine ⟨fun u hu => ?_, a'.widths.grow b2.grows, fun hc u hu => ?_⟩ <;>
          simp only [AExpr.cv, Option.some.injEq] at hu <;> subst hu
        · exact b3
        · intro F hF hg
          obtain ⟨f, ad, cs, v, c1, c2, c3, c4, c5, c6, c7, rfl⟩ := b4 hc
          subst hc
          obtain ⟨m0, hargs⟩ := a'.sound rfl F hF (b2.grows.trans hg)
          have hsig := ((b1.fn j f c1).plain c2).sigParams (by rw [c3]; decide)
          have hfs : (progOf s2).fns j = some (fnDef f) := by simp [progOf, c1, c2, c3]
          have hfF := hg.progFn hfs
          obtain ⟨e1, e2⟩ := passArgs_eval (fun x hx => hargs m0 (Nat.le_refl _) x hx) hsig c4 c6
          have hpar : (fnDef f).params.map Prod.snd = f.params.map fun p => typeOf p.type := by
            simp [fnDef, Function.comp_def]
          obtain ⟨code, hcode⟩ := hg.code
          obtain ⟨n0, hcall⟩ := callN_stable hF.typed hF.homogeneous hF.ends hF.fresh
            (addr := addrOf s2) (vm := { Vm.initial with instructions := s2.code })
            (b1.loaded (progOf F) fun i d hd => hg.progFn hd)
            (by
              have := hF.code
              rw [hcode, List.length_append] at this
              show s2.code.length ≤ 2 ^ 62
              omega) hfF (a := ad) (by simp [addrOf, c1, c2, c3, c5]) (vs := cs) (by rw [hpar]; exact e2) c7
          refine ⟨max m0 n0, fun m hm => ?_⟩
          have hm1 : m0 ≤ m := Nat.le_trans (Nat.le_max_left _ _) hm
          have hm2 : n0 ≤ m := Nat.le_trans (Nat.le_max_right _ _) hm
          obtain ⟨e3, -⟩ := passArgs_eval (fun x hx => hargs m hm1 x hx) hsig c4 c6
          have he : evalE ((progOf F).meaning ((progOf F).callN m))
              (.call (some (Value.known v)) false (some (.node j)) (eraseAll args1)) Frame.empty = .ok v := by
            have hmp : ((progOf F).meaning ((progOf F).callN m)).params j =
                some (f.params.map fun p => typeOf p.type) := by
              simp [Prog.meaning, hfF, hpar]
            have hmc : ((progOf F).meaning ((progOf F).callN m)).call j cs = .ok v := hcall m hm2
            rw [evalE]
            simp only [hmp]
            rw [eraseAll_eq, e3, Res.ok_bind, hmc]
          simp only [AExpr.erase]
          refine ⟨rfl, b3.1, fun u hu => ?_, fun x hx => ?_⟩
          · rw [he] at hu
            cases hu
            exact ⟨rfl, b3.2 _ rfl⟩
          · rw [he]
            cases hx
            rfl

/-- Types that have not been analyzed before. -/
theorem type_vals : (ty : AType) → {s s' : ASt} → {ty' : AType} →
    VPre N .forConst .constant s [] (CallFreeT ty) → RawT ty →
    Ana.type n af ty s = .ok ty' s' → Finally s' fun P => WidthsT P ty'
  | .base k cv b, s, s', ty', h, hr, hx => by
    simp only [RawT] at hr
    subst hr
    simp only [Ana.type, AM.pure_ok] at hx
    obtain ⟨rfl, rfl⟩ := hx
    exact fun _ _ _ => trivial
  | .uint k cv c w, s, s', ty', h, hr, hx => by
    simp only [RawT] at hr
    obtain ⟨rfl, -, hr⟩ := hr
    simp only [Ana.type, AM.bind_ok, AM.value_ok, AM.ite_fail_ok, AM.get_ok, AM.pure_ok] at hx
    obtain ⟨w1, s1, h1, v, _, ⟨hv, rfl⟩, hint, x, _, ⟨hx', rfl⟩, hrange, t, _, ⟨ht, rfl⟩, rfl, rfl⟩ := hx
    have a := expr_vals w (h.elim (fun h => .inl ⟨h.1, .inl rfl⟩)
      (fun h => .inr ⟨by simpa only [CallFreeT] using h.1, h.2⟩)) hr h1
    refine (a.widths.and (a.sound rfl v hv)).imp fun P h => ⟨h.1, ?_⟩
    have hval : v.val = some x := by
      unfold Value.asInt at hx'
      cases hvv : v.val with
      | none => simp [hvv] at hx'
      | some y =>
        simp only [hvv] at hx'
        split at hx'
        · simp only [Outcome.ok.injEq] at hx'; rw [hx']
        · cases hx'
    refine ⟨⟨v.type, x⟩, by simpa using hint, rfl, ?_, .inl (h.2.hasValue hval)⟩
    show 0 ≤ x
    omega

/-- Arguments that have not been analyzed before. -/
theorem exprs_vals : (es : List AExpr) → {s s' : ASt} → {level : Level} → {ctx : ECtx} →
    {es' : List AExpr} → Inv N s → Mode level ctx s (refsEs es) → RawEs es →
    Ana.exprs n af es level ctx s = .ok es' s' → EsVal ctx es' s'
  | [], s, s', level, ctx, es', h, _, _, hx => by
    simp only [Ana.exprs, AM.pure_ok] at hx
    obtain ⟨rfl, rfl⟩ := hx
    exact ⟨by simp, fun _ _ _ => trivial, fun _ _ _ _ => ⟨0, by simp⟩⟩
  | e :: es, s, s', level, ctx, es', h, hm, hr, hx => by
    simp only [RawEs] at hr
    simp only [Ana.exprs, AM.bind_ok, AM.value_ok, AM.pure_ok] at hx
    obtain ⟨e1, s1, h1, v, _, ⟨hv, rfl⟩, es1, s2, h2, rfl, rfl⟩ := hx
    have hm1 : Mode level ctx s (refsE e) := hm.sub fun r hr => by simp [refsEs, hr]
    have a := expr_raw_ok haf e h hr.1 hm1 h1
    have hm2 : Mode level ctx s1 (refsEs es) := (hm.sub fun r hr => by simp [refsEs, hr]).ext a.ext
    have b := exprs_raw_ok haf es a.inv hr.2 hm2 h2
    have a' := (expr_vals e (.inl ⟨h, hm1⟩) hr.1 h1).grow b.ext.grows
    have b' := exprs_vals es a.inv hm2 hr.2 h2
    refine ⟨fun x hx => ?_, a'.widths.and b'.widths, fun hc => ?_⟩
    · rcases List.mem_cons.1 hx with rfl | hx
      · exact ⟨v, hv, a.vok v hv⟩
      · exact b.vok x hx
    · refine ((a'.sound hc v hv).and (b'.sound hc)).imp fun P h => ?_
      obtain ⟨⟨n1, h1⟩, n2, h2⟩ := h
      refine ⟨max n1 n2, fun m hm x hx => ?_⟩
      rcases List.mem_cons.1 hx with rfl | hx
      · exact ⟨v, h1 m (Nat.le_trans (Nat.le_max_left _ _) hm)⟩
      · exact h2 m (Nat.le_trans (Nat.le_max_right _ _) hm) x hx

end

end

end Bms
