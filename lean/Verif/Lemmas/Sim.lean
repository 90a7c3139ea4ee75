import Verif.Lemmas.Codegen
import Verif.Lemmas.Source
import Verif.Props.Vm

/-!
# Generated code follows the reference semantics: expressions
-/

namespace Bms

open Spec Gen

/-! ## Executions -/

/-- One instruction of the program takes `c` to `c'`. A jump to directly behind the program counts as
a step here; it is one of the machine if it is followed by another step. -/
def Step (prog : List Instr) (c c' : Config) : Prop :=
  ∃ i, prog[c.pc]? = some i ∧ Does (prog.length + 1) i c c' ∧ c'.pc ≠ c.pc

/-- `n` steps. -/
inductive StepsN (prog : List Instr) : Nat → Config → Config → Prop
  | refl (c : Config) : StepsN prog 0 c c
  | step {n : Nat} {c c' c'' : Config} : Step prog c c' → StepsN prog n c' c'' →
      StepsN prog (n + 1) c c''

theorem StepsN.trans {prog : List Instr} {m n : Nat} {c c' c'' : Config} (h : StepsN prog m c c')
    (h' : StepsN prog n c' c'') : StepsN prog (m + n) c c'' := by
  induction h with
  | refl c => simpa using h'
  | step hs _ ih =>
    have := StepsN.step hs (ih h')
    rwa [Nat.add_right_comm] at this

/-- The next instruction cannot be executed. -/
def FailsAt (prog : List Instr) (c : Config) (e : ExecErr) : Prop :=
  ∃ i, prog[c.pc]? = some i ∧ Fails prog.length i c e

/-- The operation of the next instruction has outcome `o`. -/
def EvaluatesAt (prog : List Instr) (c : Config) (o : Outcome EvalErr CVal) : Prop :=
  ∃ i, prog[c.pc]? = some i ∧ Evaluates i c o

/-- Execution from `c` has the result `r`; if it is a value, it ends in a configuration with `K`. At
least `T` steps are possible if `r` is `timeout`. -/
def Sim (prog : List Instr) (strict : Prop) (T : Nat) (c : Config) {α : Type} (r : Res α)
    (K : α → Config → Prop) : Prop :=
  match r with
  | .ok a => ∃ n c', StepsN prog n c c' ∧ K a c'
  | .fails e => (e = .load_uninitialized → strict) → ∃ n c', StepsN prog n c c' ∧ FailsAt prog c' e
  | .throws => ∃ n c', StepsN prog n c c' ∧ EvaluatesAt prog c' .throws
  | .ub => ∃ n c', StepsN prog n c c' ∧ EvaluatesAt prog c' .ub
  | .timeout => ∃ n c', StepsN prog n c c' ∧ T ≤ n
  | .stuck => True

section Sim

variable {prog : List Instr} {strict : Prop} {T : Nat} {α β : Type}

theorem Sim.done {c : Config} {a : α} {K : α → Config → Prop} (h : K a c) :
    Sim prog strict T c (.ok a) K := ⟨0, c, .refl c, h⟩

theorem Sim.after {m : Nat} {c c' : Config} {r : Res α} {K : α → Config → Prop}
    (h : StepsN prog m c c') (hs : Sim prog strict T c' r K) : Sim prog strict (m + T) c r K := by
  cases r with
  | ok a => obtain ⟨n, c'', h', hK⟩ := hs; exact ⟨_, _, h.trans h', hK⟩
  | fails e => intro he; obtain ⟨n, c'', h', hK⟩ := hs he; exact ⟨_, _, h.trans h', hK⟩
  | throws => obtain ⟨n, c'', h', hK⟩ := hs; exact ⟨_, _, h.trans h', hK⟩
  | ub => obtain ⟨n, c'', h', hK⟩ := hs; exact ⟨_, _, h.trans h', hK⟩
  | timeout => obtain ⟨n, c'', h', hK⟩ := hs; exact ⟨_, _, h.trans h', by omega⟩
  | stuck => trivial

theorem Sim.mono {T' : Nat} {c : Config} {r : Res α} {K K' : α → Config → Prop}
    (hs : Sim prog strict T c r K) (hT : T' ≤ T) (hK : ∀ a c', r = .ok a → K a c' → K' a c') :
    Sim prog strict T' c r K' := by
  cases r with
  | ok a => obtain ⟨n, c'', h', h⟩ := hs; exact ⟨_, _, h', hK a c'' rfl h⟩
  | fails e => exact hs
  | throws => exact hs
  | ub => exact hs
  | timeout => obtain ⟨n, c'', h', h⟩ := hs; exact ⟨_, _, h', by omega⟩
  | stuck => trivial

theorem Sim.step {c c' : Config} {r : Res α} {K : α → Config → Prop} (h : Step prog c c')
    (hs : Sim prog strict T c' r K) : Sim prog strict T c r K :=
  (Sim.after (.step h (.refl _)) hs).mono (by omega) fun _ _ _ h => h

theorem Sim.bind {c : Config} {r : Res α} {g : α → Res β} {K : α → Config → Prop}
    {K' : β → Config → Prop} (hs : Sim prog strict T c r K)
    (hg : ∀ a c', r = .ok a → K a c' → Sim prog strict T c' (g a) K') :
    Sim prog strict T c (r >>= g) K' := by
  cases r with
  | ok a =>
    obtain ⟨n, c', h, hK⟩ := hs
    exact (Sim.after h (hg a c' rfl hK)).mono (by omega) fun _ _ _ h => h
  | fails e => exact hs
  | throws => exact hs
  | ub => exact hs
  | timeout => exact hs
  | stuck => trivial

theorem Sim.ofOutcome {c : Config} {o : Outcome EvalErr CVal} {K : CVal → Config → Prop}
    (hok : ∀ v, o = .ok v → ∃ c', Step prog c c' ∧ K v c')
    (herr : ∀ e, o = .err e → FailsAt prog c (.evaluation e))
    (hev : o = .throws ∨ o = .ub → EvaluatesAt prog c o) :
    Sim prog strict T c (Res.ofOutcome o) K := by
  cases o with
  | ok v => obtain ⟨c', hs, hK⟩ := hok v rfl; exact .step hs (.done hK)
  | err e => intro _; exact ⟨0, c, .refl c, herr e rfl⟩
  | throws => exact ⟨0, c, .refl c, hev (.inl rfl)⟩
  | ub => exact ⟨0, c, .refl c, hev (.inr rfl)⟩

theorem Sim.convert {f : Frames} {s : List CVal} {x : CVal} {p : Nat} {t : CType}
    (hp : prog[p]? = some (.convert t)) :
    Sim prog strict T ⟨f, x :: s, p⟩ (Res.ofOutcome (evalConversion x t))
      fun v c' => c' = ⟨f, v :: s, p + 1⟩ :=
  .ofOutcome (fun v hv => ⟨_, ⟨_, hp, .convert hv, by simp⟩, rfl⟩)
    (fun e he => ⟨_, hp, .convert he⟩) fun _ => ⟨_, hp, .convert⟩

theorem Sim.unary {f : Frames} {s : List CVal} {x : CVal} {p : Nat} {op : ExprType}
    (hp : prog[p]? = some (.unary op)) :
    Sim prog strict T ⟨f, x :: s, p⟩ (Res.ofOutcome (evalUnary op x))
      fun v c' => c' = ⟨f, v :: s, p + 1⟩ :=
  .ofOutcome (fun v hv => ⟨_, ⟨_, hp, .unary hv, by simp⟩, rfl⟩)
    (fun e he => ⟨_, hp, .unary he⟩) fun _ => ⟨_, hp, .unary⟩

theorem Sim.binary {f : Frames} {s : List CVal} {x y : CVal} {p : Nat} {op : ExprType}
    (hp : prog[p]? = some (.binary op)) :
    Sim prog strict T ⟨f, y :: x :: s, p⟩ (Res.ofOutcome (evalBinary x op y))
      fun v c' => c' = ⟨f, v :: s, p + 1⟩ :=
  .ofOutcome (fun v hv => ⟨_, ⟨_, hp, .binary hv, by simp⟩, rfl⟩)
    (fun e he => ⟨_, hp, .binary he⟩) fun _ => ⟨_, hp, .binary⟩

theorem step_push {f : Frames} {s : List CVal} {v : CVal} {p : Nat} (hp : prog[p]? = some (.push v)) :
    Step prog ⟨f, s, p⟩ ⟨f, v :: s, p + 1⟩ := ⟨_, hp, .push, by simp⟩

theorem step_pop {f : Frames} {s : List CVal} {v : CVal} {p : Nat} (hp : prog[p]? = some .pop) :
    Step prog ⟨f, v :: s, p⟩ ⟨f, s, p + 1⟩ := ⟨_, hp, .pop, by simp⟩

theorem step_store {f : Frames} {s : List CVal} {v : CVal} {p : Nat} {k : Key}
    (hp : prog[p]? = some (.store k)) :
    Step prog ⟨f, v :: s, p⟩ ⟨⟨f.top.set k v, f.rest⟩, s, p + 1⟩ := ⟨_, hp, .store, by simp⟩

theorem step_jump {f : Frames} {s : List CVal} {p t : Nat} {o : Int}
    (hp : prog[p]? = some (.jump o)) (ht : (t : Int) = p + o + 1) (hl : t ≤ prog.length)
    (hne : t ≠ p) : Step prog ⟨f, s, p⟩ ⟨f, s, t⟩ := ⟨_, hp, .jump ht (by omega), hne⟩

theorem step_taken {f : Frames} {s : List CVal} {p t : Nat} {o : Int} {b : Bool}
    (hp : prog[p]? = some (.jumpIf o b)) (ht : (t : Int) = p + o + 1) (hl : t ≤ prog.length)
    (hne : t ≠ p) : Step prog ⟨f, CVal.ofBool b :: s, p⟩ ⟨f, s, t⟩ :=
  ⟨_, hp, .taken rfl ht (by omega), hne⟩

theorem step_notTaken {f : Frames} {s : List CVal} {p : Nat} {o : Int} {b : Bool}
    (hp : prog[p]? = some (.jumpIf o b)) (hl : (p : Int) + o + 1 ≤ prog.length) :
    Step prog ⟨f, CVal.ofBool (!b) :: s, p⟩ ⟨f, s, p + 1⟩ :=
  ⟨_, hp, .notTaken rfl (by push_cast; omega), by simp⟩

end Sim

/-! ## Where code is -/

/-- The code `c` is at position `p` of the program, with placeholders replaced by jumps to `brk` and
`cont`. -/
def Located (prog : List Instr) (p : Nat) (brk cont : Int) (c : List Instr) : Prop :=
  ∀ i ins, c[i]? = some ins → prog[p + i]? = some (match ins with
    | .break_ => .jump (brk - (p + i : Nat) - 1)
    | .continue_ => .jump (cont - (p + i : Nat) - 1)
    | ins => ins)

section Located

variable {prog : List Instr} {p : Nat} {brk cont : Int} {a b : List Instr}

theorem Located.left (h : Located prog p brk cont (a ++ b)) : Located prog p brk cont a := by
  intro i ins hi
  refine h i ins ?_
  rw [List.getElem?_append_left]
  · exact hi
  · exact (List.getElem?_eq_some_iff.1 hi).1

theorem Located.right (h : Located prog p brk cont (a ++ b)) :
    Located prog (p + a.length) brk cont b := by
  intro i ins hi
  have := h (a.length + i) ins (by rw [List.getElem?_append_right (by omega)]; simpa using hi)
  rw [← Nat.add_assoc] at this
  exact this

theorem Located.tail {i : Instr} (h : Located prog p brk cont (i :: b)) :
    Located prog (p + 1) brk cont b := Located.right (a := [i]) h

theorem Located.head {i : Instr} (h : Located prog p brk cont (i :: b))
    (hi : i ≠ .break_ ∧ i ≠ .continue_) : prog[p]? = some i := by
  have := h 0 i rfl
  rw [Nat.add_zero] at this
  rw [this]
  cases i <;> first | rfl | exact absurd rfl hi.1 | exact absurd rfl hi.2

theorem Located.le (h : Located prog p brk cont a) (ha : a ≠ []) : p + a.length ≤ prog.length := by
  have hl : 0 < a.length := List.length_pos_iff.2 ha
  have hlt : a.length - 1 < a.length := by omega
  have := h (a.length - 1) a[a.length - 1] (List.getElem?_eq_getElem hlt)
  have := (List.getElem?_eq_some_iff.1 this).1
  omega

end Located

/-! ## The setting -/

/-- The environment of code generation agrees with the context. -/
def EnvOk (Γ : Ctx) (env : FnEnv) : Prop :=
  ∀ k ts t, Γ.fns k = some (ts, t) →
    ∃ f, env k = some f ∧ f.params.map (Option.map Value.type) = ts.map some

/-- Call instructions at `base` or later do what calls mean. -/
def CallOk (prog : List Instr) (strict : Prop) (T : Nat) (Γ : Ctx) (M : Meaning) (env : FnEnv)
    (base : Nat) : Prop :=
  ∀ k ts t f a, Γ.fns k = some (ts, t) → env k = some f → f.analyzed = true →
    f.address = some a → ∀ vs, List.Forall₂ (fun (v : CVal) t => v.type = t ∧ WF v) vs ts →
    ∀ (fr : Frames) s p, base ≤ p → prog[p]? = some (.call a) →
      Sim prog strict T ⟨fr, vs.reverse ++ s, p⟩ (M.call k vs) fun v c' => c' = ⟨fr, v :: s, p + 1⟩

/-- Everything that surrounds the code of an expression. -/
structure Setting (prog : List Instr) (strict : Prop) (T : Nat) (Γ : Ctx) (M : Meaning)
    (env : FnEnv) (base : Nat) : Prop where
  ctx : Γ.WF
  agrees : Agrees Γ M
  envOk : EnvOk Γ env
  calls : CallOk prog strict T Γ M env base

/-- The variables of the machine are those of the reference semantics; variables that have no value
may have one in the machine, unless `strict`. -/
def Matches (strict : Prop) (σ top : Frame) : Prop :=
  (∀ k v, σ k = some v → top k = some v) ∧ (strict → top = σ)

theorem Matches.set {strict : Prop} {σ top : Frame} (h : Matches strict σ top) (k : Key) (v : CVal) :
    Matches strict (σ.set k v) (top.set k v) := by
  refine ⟨fun j u hu => ?_, fun hs => by rw [h.2 hs]⟩
  unfold Frame.set at hu ⊢
  split at hu
  · rename_i hj; rw [if_pos hj]; exact hu
  · rename_i hj; rw [if_neg hj]; exact h.1 j u hu

/-! ## Expressions -/

theorem foldedC_ok {w : Value} {rest : Outcome GenErr (List Instr)} {c : List Instr}
    (h : foldedC (some w) rest = .ok c) :
    (∃ x, w.val = some x ∧ c = [.push ⟨w.type, x⟩]) ∨ (w.val = none ∧ rest = .ok c) := by
  obtain ⟨t, v⟩ := w
  cases v with
  | some x => cases h; exact .inl ⟨x, rfl, rfl⟩
  | none => exact .inr ⟨rfl, h⟩

section Expr

variable {prog : List Instr} {strict : Prop} {T : Nat} {Γ : Ctx} {M : Meaning} {env : FnEnv}
  {base : Nat}

theorem sim_readVar {fr : Frames} {σ : Frame} (hm : Matches strict σ fr.top) {s : List CVal}
    {p : Nat} {k : Key} (hp : prog[p]? = some (.load k)) :
    Sim prog strict T ⟨fr, s, p⟩ (readVar σ k) fun v c' => c' = ⟨fr, v :: s, p + 1⟩ := by
  unfold readVar
  cases hk : σ k with
  | some v => exact .step ⟨_, hp, .load (hm.1 k v hk), by simp⟩ (.done rfl)
  | none =>
    intro hs
    have := hm.2 (hs rfl)
    exact ⟨0, _, .refl _, _, hp, .uninitialized (by rw [this]; exact hk)⟩

theorem sim_condition {fr : Frames} {s : List CVal} {p p' : Nat} {r : Res CVal} {w : Value}
    (h : Sim prog strict T ⟨fr, s, p⟩ r fun v c' => c' = ⟨fr, v :: s, p'⟩)
    (hr : ∀ v, r = .ok v → v.type = w.type ∧ WF v) :
    Sim prog strict T ⟨fr, s, p⟩ (r >>= asBool) fun b c' => c' = ⟨fr, CVal.ofBool b :: s, p'⟩ := by
  refine h.bind fun v c' hv hc => ?_
  cases hb : asBool v with
  | ok b => exact .done (by rw [hc, asBool_ok hb (hr v hv).2])
  | stuck => trivial
  | _ => unfold asBool at hb; split at hb <;> cases hb

/-- The conversion of a value, which is left out if it has the type already. -/
theorem sim_convert {fr : Frames} {s : List CVal} {p : Nat} {v : CVal} {t : CType} {u : CType}
    {brk cont : Int} (hv : v.type = u)
    (hloc : Located prog p brk cont (if u ≠ t then [.convert t] else [])) :
    Sim prog strict T ⟨fr, v :: s, p⟩ (Res.ofOutcome (evalConversion v t)) fun v c' =>
      c' = ⟨fr, v :: s, p + (if u ≠ t then [Instr.convert t] else []).length⟩ := by
  by_cases h : u = t
  · subst hv h
    rw [if_neg (by simp)]
    rw [evalConversion, convertTo_same]
    exact .done rfl
  · rw [if_pos h] at hloc ⊢
    exact .convert (hloc.head ⟨by simp, by simp⟩)

theorem sim_args {brk cont : Int} {σ : Frame} {fr : Frames} {ref : Option Lookup}
    (args : List Expr)
    (ih : ∀ a ∈ args, ∀ (s : List CVal) (p : Nat) (c : List Instr), exprC env a = .ok c →
      Located prog p brk cont c → base ≤ p →
      Sim prog strict T ⟨fr, s, p⟩ (evalE M a σ) fun v c' => c' = ⟨fr, v :: s, p + c.length⟩)
    (hty : ∀ a ∈ args, ∃ w, Sound M σ a w) :
    ∀ (i : Nat) (ts : List CType), (∀ j t, ts[j]? = some t → paramType env ref (i + j) = .ok t) →
    ∀ (s : List CVal) (p : Nat) (c : List Instr), argsC env ref i args = .ok c →
      Located prog p brk cont c → base ≤ p →
      Sim prog strict T ⟨fr, s, p⟩ (evalArgs M ts args σ) fun vs c' =>
        c' = ⟨fr, vs.reverse ++ s, p + c.length⟩ := by
  induction args with
  | nil =>
    intro i ts _ s p c hc hloc hb
    cases ts with
    | nil => cases hc; exact .done rfl
    | cons t ts => trivial
  | cons a args iha =>
    intro i ts hts s p c hc hloc hb
    cases ts with
    | nil => trivial
    | cons t ts =>
      simp only [argsC] at hc
      obtain ⟨ca, hca, hc⟩ := Outcome.bind_eq_ok.1 hc
      obtain ⟨cv, hcv, hc⟩ := Outcome.bind_eq_ok.1 hc
      obtain ⟨cr, hcr, hc⟩ := Outcome.bind_eq_ok.1 hc
      cases hc
      obtain ⟨w, hw⟩ := hty a List.mem_cons_self
      unfold convertArgC at hcv
      rw [hw.cv, show paramType env ref i = .ok t from hts 0 t rfl] at hcv
      cases hcv
      simp only [evalArgs]
      refine (ih a List.mem_cons_self s p ca hca hloc.left hb).bind fun v c' hv hc' => ?_
      subst hc'
      refine (sim_convert (hw.ok v hv).1 hloc.right.left).bind fun u c' hu hc' => ?_
      subst hc'
      refine (iha (fun a ha => ih a (List.mem_cons_of_mem _ ha))
        (fun a ha => hty a (List.mem_cons_of_mem _ ha)) (i + 1) ts (fun j t h => ?_) _ _ cr hcr
        hloc.right.right (by omega)).bind fun vs c' hvs hc' => ?_
      · have := hts (j + 1) t (by simpa using h)
        rwa [show i + (j + 1) = i + 1 + j by omega] at this
      · subst hc'
        refine .done ?_
        simp [Nat.add_assoc]

theorem HomogeneousAll_mem {es : List Expr} (h : HomogeneousAll es) : ∀ e ∈ es, Homogeneous e := by
  induction es with
  | nil => intro e he; cases he
  | cons a es ih =>
    intro e he
    cases he with
    | head => exact h.1
    | tail _ he => exact ih h.2 e he

theorem sim_builtin {fr : Frames} {s : List CVal} {p : Nat} {f : Builtin} {vs : List CVal}
    (hp : prog[p]? = some (.builtin f))
    (hvs : List.Forall₂ (fun (v : CVal) t => v.type = t ∧ WF v) vs f.paramTypes) :
    Sim prog strict T ⟨fr, vs.reverse ++ s, p⟩ (Res.ofOutcome (evalBuiltin f vs))
      fun v c' => c' = ⟨fr, v :: s, p + 1⟩ := by
  cases f
  match vs, hvs with
  | [v], .cons h1 .nil =>
    have hv := wf_bool h1.2 h1.1
    rw [hv]
    cases decide (v.int ≠ 0)
    · intro _
      exact ⟨0, _, .refl _, _, hp, .assertFalse rfl⟩
    · exact .step ⟨_, hp, .assert rfl, by simp⟩ (.done rfl)

/-- A call, given what happens to its arguments. -/
theorem sim_call (S : Setting prog strict T Γ M env base) {σ : Frame} (hσ : FrameOk Γ σ)
    {fr : Frames} {brk cont : Int} {cv : Option Value} {ref : Option Lookup} {args : List Expr}
    {st : Bool}
    (ih : ∀ a ∈ args, ∀ (s : List CVal) (p : Nat) (c : List Instr), exprC env a = .ok c →
      Located prog p brk cont c → base ≤ p →
      Sim prog strict T ⟨fr, s, p⟩ (evalE M a σ) fun v c' => c' = ⟨fr, v :: s, p + c.length⟩)
    (ht : Typed Γ (.call cv false ref args)) {s : List CVal} {p : Nat} {as ci : List Instr}
    (has : argsC env ref 0 args = .ok as) (hci : callInstrC env ref = .ok ci)
    (hloc : Located prog p brk cont (as ++ ci)) (hb : base ≤ p) :
    Sim prog strict T ⟨fr, s, p⟩ (evalE M (.call cv st ref args) σ) fun v c' =>
      c' = ⟨fr, v :: s, p + as.length + ci.length⟩ := by
  cases ht with
  | call hk hta hargs =>
    rename_i k ts t
    obtain ⟨f, hf, hfp⟩ := S.envOk k ts t hk
    have hci' : f.analyzed = true ∧ ∃ a, f.address = some a ∧ ci = [.call a] := by
      unfold callInstrC at hci
      simp only [hf] at hci
      split at hci
      · rename_i h1 h2; cases hci; exact ⟨h1, _, h2, rfl⟩
      · cases hci
    obtain ⟨han, a, ha, rfl⟩ := hci'
    simp only [evalE, S.agrees.params, hk, Option.map_some]
    have hty : ∀ a ∈ args, ∃ w, Sound M σ a w := fun a ha =>
      typed_sound S.ctx S.agrees hσ (hta a ha)
    refine (sim_args args ih hty 0 ts (fun j t hj => ?_) s p as has hloc.left hb).bind
      fun vs c' hvs hc' => ?_
    · have : (f.params.map (Option.map Value.type))[j]? = (ts.map some)[j]? := by rw [hfp]
      simp only [List.getElem?_map, hj, Option.map_some, Option.map_eq_some_iff] at this
      obtain ⟨a, h1, v, h2, rfl⟩ := this
      unfold paramType
      simp only [hf, Nat.zero_add, h1, h2]
    · subst hc'
      exact S.calls k ts t f a hk hf han ha vs
        (evalArgs_ok hty (S.ctx.fns _ _ _ hk).2 hvs) fr s _ (by omega)
        (hloc.right.head ⟨by simp, by simp⟩)
  | builtin hta hcv hev =>
    rename_i f vs w
    simp only [callInstrC] at hci
    cases hci
    simp only [evalE]
    have hty : ∀ a ∈ args, ∃ w, Sound M σ a w := fun a ha =>
      typed_sound S.ctx S.agrees hσ (hta a ha)
    refine (sim_args args ih hty 0 f.paramTypes (fun j t hj => ?_) s p as has hloc.left hb).bind
      fun vs c' hvs hc' => ?_
    · unfold paramType
      simp only [Nat.zero_add, hj]
    · subst hc'
      refine sim_builtin (hloc.right.head ⟨by simp, by simp⟩) (evalArgs_ok hty ?_ hvs)
      cases f
      intro t ht; simp [Builtin.paramTypes] at ht; subst ht; trivial

/-- The code of an expression pushes the value of the expression. -/
theorem sim_expr (S : Setting prog strict T Γ M env base) {brk cont : Int} {σ : Frame}
    (hσ : FrameOk Γ σ) {fr : Frames} (hm : Matches strict σ fr.top) (e : Expr) :
    Typed Γ e → Homogeneous e → ∀ (s : List CVal) (p : Nat) (c : List Instr), exprC env e = .ok c →
      Located prog p brk cont c → base ≤ p →
      Sim prog strict T ⟨fr, s, p⟩ (evalE M e σ) fun v c' => c' = ⟨fr, v :: s, p + c.length⟩ := by
  induction e using Expr.ind with
  | literal l cv =>
    intro ht hu s p c hc hloc hb
    cases ht with
    | literal h =>
      simp only [exprC] at hc
      cases hc
      simp only [evalE, h]
      exact .step (step_push (hloc.head ⟨by simp, by simp⟩)) (.done rfl)
  | id cv ref =>
    intro ht hu s p c hc hloc hb
    cases ht with
    | var hk hv =>
      cases hc
      simp only [evalE, S.agrees.consts, hk]
      exact sim_readVar hm (hloc.head ⟨by simp, by simp⟩)
    | param hv =>
      cases hc
      simp only [evalE]
      exact sim_readVar hm (hloc.head ⟨by simp, by simp⟩)
    | const_ hk =>
      cases hc
      simp only [evalE, S.agrees.consts, hk]
      exact .step (step_push (hloc.head ⟨by simp, by simp⟩)) (.done rfl)
    | width hw =>
      cases hc
      simp only [evalE, Value.known]
      exact .step (step_push (hloc.head ⟨by simp, by simp⟩)) (.done rfl)
  | conversion cv e ct ih =>
    intro ht hu s p c hc hloc hb
    obtain ⟨w, hs⟩ := typed_sound S.ctx S.agrees hσ ht
    obtain rfl : cv = some w := hs.cv
    simp only [exprC] at hc
    rcases foldedC_ok hc with ⟨x, hx, rfl⟩ | ⟨hx, hc⟩
    · rw [hs.known x hx]
      exact .step (step_push (hloc.head ⟨by simp, by simp⟩)) (.done rfl)
    · cases ht with
      | conversion he hcv htw hconv hf =>
        obtain ⟨ce, hce, hc⟩ := Outcome.bind_eq_ok.1 hc
        cases hc
        simp only [evalE]
        refine (ih he hu s p ce hce hloc.left hb).bind fun v c' hv hc' => ?_
        subst hc'
        refine (Sim.convert (hloc.right.head ⟨by simp, by simp⟩)).mono (Nat.le_refl _)
          fun a c' _ h => ?_
        rw [h]; simp [Nat.add_assoc]
  | ite cv l c r ihl ihc ihr =>
    intro ht hu s p code hc hloc hb
    obtain ⟨w, hs⟩ := typed_sound S.ctx S.agrees hσ ht
    obtain rfl : cv = some w := hs.cv
    simp only [exprC] at hc
    rcases foldedC_ok hc with ⟨x, hx, rfl⟩ | ⟨hx, hc⟩
    · rw [hs.known x hx]
      exact .step (step_push (hloc.head ⟨by simp, by simp⟩)) (.done rfl)
    · cases ht with
      | ite hl hcd hr hcl hcc hcr hck hf =>
        obtain ⟨cc, hcc', hc⟩ := Outcome.bind_eq_ok.1 hc
        obtain ⟨cl, hcl', hc⟩ := Outcome.bind_eq_ok.1 hc
        obtain ⟨cr, hcr', hc⟩ := Outcome.bind_eq_ok.1 hc
        cases hc
        simp only [Homogeneous, hcl, hcr, Option.map_some, Option.some.injEq] at hu
        obtain ⟨hul, hur, hu1, hu2, hu3⟩ := hu
        obtain ⟨wl, hsl⟩ := typed_sound S.ctx S.agrees hσ hl
        obtain ⟨wc, hsc⟩ := typed_sound S.ctx S.agrees hσ hcd
        obtain ⟨wr, hsr⟩ := typed_sound S.ctx S.agrees hσ hr
        have h1 := hsl.cv
        rw [hcl] at h1
        cases h1
        have h1 := hsr.cv
        rw [hcr] at h1
        cases h1
        simp only [evalE]
        have hle := hloc.le (by simp [iteCode])
        simp only [iteCode, List.length_append, List.length_cons] at hle
        refine (sim_condition (ihc hcd hu2 s p cc hcc' hloc.left hb) fun v hv => hsc.ok v hv).bind
          fun b c' _ hc' => ?_
        subst hc'
        have hj := hloc.right.head ⟨by simp, by simp⟩
        cases b
        · refine .step (step_taken (t := p + cc.length + 1 + (cl.length + 1)) hj
            (by push_cast; omega) (by omega) (by omega)) ?_
          simp only [Bool.false_eq_true, if_false]
          refine (ihr hr hu3 s _ cr hcr' ?_ (by omega)).bind fun v c' hv hc' => ?_
          · have := hloc.right.tail.right.tail
            rwa [Nat.add_assoc (p + cc.length + 1)] at this
          · subst hc'
            rw [evalConversion, ← hur, ← (hsr.ok v hv).1, convertTo_same]
            exact .done (by simp [iteCode]; omega)
        · refine .step (step_notTaken (b := false) hj (by push_cast; omega)) ?_
          simp only [if_true]
          refine (ihl hl hu1 s _ cl hcl' hloc.right.tail.left (by omega)).bind
            fun v c' hv hc' => ?_
          subst hc'
          refine .step (step_jump (t := p + cc.length + 1 + cl.length + 1 + cr.length)
            (hloc.right.tail.right.head ⟨by simp, by simp⟩) (by push_cast; omega) (by omega)
            (by omega)) ?_
          rw [evalConversion, ← hul, ← (hsl.ok v hv).1, convertTo_same]
          exact .done (by simp [iteCode]; omega)
  | binary cv op l r ihl ihr =>
    intro ht hu s p code hc hloc hb
    obtain ⟨w, hs⟩ := typed_sound S.ctx S.agrees hσ ht
    obtain rfl : cv = some w := hs.cv
    simp only [exprC] at hc
    rcases foldedC_ok hc with ⟨x, hx, rfl⟩ | ⟨hx, hc⟩
    · rw [hs.known x hx]
      exact .step (step_push (hloc.head ⟨by simp, by simp⟩)) (.done rfl)
    · cases ht with
      | binary hl hr hcl hcr hck hf =>
        obtain ⟨cl, hcl', hc⟩ := Outcome.bind_eq_ok.1 hc
        obtain ⟨cr, hcr', hc⟩ := Outcome.bind_eq_ok.1 hc
        cases hc
        obtain ⟨wl, hsl⟩ := typed_sound S.ctx S.agrees hσ hl
        obtain ⟨wr, hsr⟩ := typed_sound S.ctx S.agrees hσ hr
        by_cases hop : op = .logical_and ∨ op = .logical_or
        · have hsc : isShortCircuit op = true := by rcases hop with rfl | rfl <;> rfl
          rw [if_pos hsc] at hloc ⊢
          have hle := hloc.le (by simp [shortCode])
          simp only [shortCode, List.length_append, List.length_cons, List.length_nil] at hle
          have hcond : Sim prog strict T ⟨fr, s, p⟩ (evalE M l σ >>= asBool) fun b c' =>
              c' = ⟨fr, CVal.ofBool b :: s, p + cl.length⟩ :=
            sim_condition (ihl hl hu.1 s p cl hcl' hloc.left hb) fun v hv => hsl.ok v hv
          have hj := hloc.right.head ⟨by simp, by simp⟩
          -- the left operand decides
          have hshort : Sim prog strict T
              ⟨fr, CVal.ofBool (op = .logical_or) :: s, p + cl.length⟩
              (.ok (CVal.ofBool (op = .logical_or))) fun v c' =>
              c' = ⟨fr, v :: s, p + (shortCode op cl cr).length⟩ := by
            refine .step (step_taken (t := p + cl.length + 1 + (cr.length + 1)) hj
              (by push_cast; omega) (by omega) (by omega)) ?_
            have := hloc.right.tail.right.tail
            rw [Nat.add_assoc (p + cl.length + 1)] at this
            refine .step (step_push (this.head ⟨by simp, by simp⟩)) (.done ?_)
            simp [shortCode]; omega
          -- it does not
          have hlong : Sim prog strict T
              ⟨fr, CVal.ofBool (!decide (op = .logical_or)) :: s, p + cl.length⟩
              (evalE M r σ >>= asBool >>= fun b => Res.ok (CVal.ofBool b)) fun v c' =>
              c' = ⟨fr, v :: s, p + (shortCode op cl cr).length⟩ := by
            refine .step (step_notTaken hj (by push_cast; omega)) ?_
            refine (sim_condition (ihr hr hu.2 s _ cr hcr' hloc.right.tail.left (by omega))
              fun v hv => hsr.ok v hv).bind fun b c' _ hc' => ?_
            subst hc'
            refine .step (step_jump (t := p + cl.length + 1 + cr.length + 2)
              (hloc.right.tail.right.head ⟨by simp, by simp⟩) (by push_cast; omega) (by omega)
              (by omega)) (.done ?_)
            simp [shortCode]; omega
          unfold evalE
          rcases hop with rfl | rfl
          · rw [if_pos rfl]
            refine hcond.bind fun b c' _ hc' => ?_
            subst hc'
            cases b
            · exact hshort
            · exact hlong
          · rw [if_neg (by decide), if_pos rfl]
            refine hcond.bind fun b c' _ hc' => ?_
            subst hc'
            cases b
            · exact hlong
            · exact hshort
        · have hsc : isShortCircuit op = false := by
            unfold isShortCircuit
            simp only [Bool.or_eq_false_iff, decide_eq_false_iff_not]
            exact ⟨fun h => hop (.inl h), fun h => hop (.inr h)⟩
          rw [if_neg (by simp [hsc])] at hloc ⊢
          rw [evalE_binary hop]
          refine (ihl hl hu.1 s p cl hcl' hloc.left hb).bind fun v c' hv hc' => ?_
          subst hc'
          refine (ihr hr hu.2 _ _ cr hcr' hloc.right.left (by omega)).bind fun u c' hu' hc' => ?_
          subst hc'
          refine (Sim.binary (hloc.right.right.head ⟨by simp, by simp⟩)).mono (Nat.le_refl _)
            fun a c' _ h => ?_
          rw [h]; simp [Nat.add_assoc]
  | pre cv op e ih =>
    intro ht hu s p c hc hloc hb
    obtain ⟨w, hs⟩ := typed_sound S.ctx S.agrees hσ ht
    obtain rfl : cv = some w := hs.cv
    simp only [exprC] at hc
    rcases foldedC_ok hc with ⟨x, hx, rfl⟩ | ⟨hx, hc⟩
    · rw [hs.known x hx]
      exact .step (step_push (hloc.head ⟨by simp, by simp⟩)) (.done rfl)
    · cases ht with
      | pre he hcv hck hf =>
        obtain ⟨ce, hce, hc⟩ := Outcome.bind_eq_ok.1 hc
        cases hc
        simp only [evalE]
        refine (ih he hu s p ce hce hloc.left hb).bind fun v c' hv hc' => ?_
        subst hc'
        refine (Sim.unary (hloc.right.head ⟨by simp, by simp⟩)).mono (Nat.le_refl _)
          fun a c' _ h => ?_
        rw [h]; simp [Nat.add_assoc]
  | call cv st ref args ih =>
    intro ht hu s p c hc hloc hb
    obtain ⟨w, hs⟩ := typed_sound S.ctx S.agrees hσ ht
    obtain rfl : cv = some w := hs.cv
    obtain rfl : st = false := by cases ht <;> rfl
    have hta : ∀ a ∈ args, Typed Γ a := by cases ht <;> assumption
    obtain ⟨t, v⟩ := w
    simp only [exprC] at hc
    cases v with
    | some x =>
      cases hc
      rw [hs.known x rfl]
      exact .step (step_push (hloc.head ⟨by simp, by simp⟩)) (.done rfl)
    | none =>
      simp only at hc
      obtain ⟨as, has, hc⟩ := Outcome.bind_eq_ok.1 hc
      obtain ⟨ci, hci, hc⟩ := Outcome.bind_eq_ok.1 hc
      simp only [Bool.false_eq_true, if_false, List.append_nil] at hc
      cases hc
      refine (sim_call S hσ (fun a ha => ih a ha (hta a ha) (HomogeneousAll_mem hu a ha)) ht has hci
        hloc hb).mono (Nat.le_refl _) fun a c' _ h => ?_
      rw [h]; simp [Nat.add_assoc]

end Expr

end Bms
