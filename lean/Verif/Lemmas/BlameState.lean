import Verif.Lemmas.Blame
import Verif.Lemmas.BlameNames
import Verif.Lemmas.AnalyzeProgram

/-!
# States of analysis in which errors can be blamed on the program
-/

namespace Bms

open Spec

/-! ## Analyses that only report certain errors -/

/-- The analysis only reports errors with `E`; if it succeeds, it does so in a state with `P`. -/
def Bl {α : Type} (E : AErr → Prop) (P : α → ASt → Prop) (x : AM α) (s : ASt) : Prop :=
  match x s with
  | .ok a s => P a s
  | .err e => E e
  | _ => True

namespace Bl

variable {α β : Type} {E : AErr → Prop} {P : α → ASt → Prop} {Q : β → ASt → Prop} {s : ASt}

theorem bind {x : AM α} {f : α → AM β} (hx : Bl E P x s) (hf : ∀ a s', P a s' → Bl E Q (f a) s') : Bl E Q (x >>= f) s := by
  show Bl E Q (AM.bind x f) s
  unfold Bl at hx ⊢
  unfold AM.bind
  cases hr : x s with
  | ok a s' =>
    simp only [hr] at hx ⊢
    exact hf a s' hx
  | err e => simpa only [hr] using hx
  | _ => trivial

theorem mono {E' : AErr → Prop} {P' : α → ASt → Prop} {x : AM α} (h : Bl E P x s) (he : ∀ e, E e → E' e)
    (hp : ∀ a s', P a s' → P' a s') : Bl E' P' x s := by
  unfold Bl at h ⊢
  cases hr : x s with
  | ok a s' => simp only [hr] at h ⊢; exact hp a s' h
  | err e => simp only [hr] at h ⊢; exact he e h
  | _ => trivial

theorem pure {a : α} (h : P a s) : Bl E P (Pure.pure a : AM α) s := h
theorem throws : Bl E P (AM.throws : AM α) s := trivial
theorem ub : Bl E P (AM.ub : AM α) s := trivial
theorem timeout : Bl E P (AM.timeout : AM α) s := trivial
theorem fail {code : ACode} {k : Key} (h : E ⟨code, k⟩) : Bl E P (AM.fail code k : AM α) s := h

theorem ite {c : Prop} [Decidable c] {x y : AM α} (hx : c → Bl E P x s) (hy : ¬ c → Bl E P y s) :
    Bl E P (if c then x else y) s := by
  split
  · next h => exact hx h
  · next h => exact hy h

theorem pure_bind {a : α} {f : α → AM β} (h : Bl E Q (f a) s) : Bl E Q (Pure.pure a >>= f) s := h
theorem read_bind {f : ASt → AM β} (h : Bl E Q (f s) s) : Bl E Q (AM.read >>= f) s := h
theorem modify_bind {g : ASt → ASt} {f : Unit → AM β} (h : Bl E Q (f ()) (g s)) : Bl E Q (AM.modify g >>= f) s := h
theorem modify {P : Unit → ASt → Prop} {f : ASt → ASt} (h : P () (f s)) : Bl E P (AM.modify f) s := h

theorem value_bind {o : Option α} {f : α → AM β} (h : ∀ a, o = some a → Bl E Q (f a) s) : Bl E Q (AM.value o >>= f) s := by
  cases o with
  | none => trivial
  | some a => exact h a rfl

theorem deref_bind {o : Option α} {f : α → AM β} (h : ∀ a, o = some a → Bl E Q (f a) s) : Bl E Q (AM.deref o >>= f) s := by
  cases o with
  | none => trivial
  | some a => exact h a rfl

theorem assert_bind {b : Bool} {f : Unit → AM β} (h : b = true → Bl E Q (f ()) s) : Bl E Q (AM.assert b >>= f) s := by
  cases b with
  | true => exact h rfl
  | false => trivial

theorem get_bind {o : Outcome AErr α} {f : α → AM β} (ho : ∀ e, o ≠ .err e) (h : ∀ a, o = .ok a → Bl E Q (f a) s) :
    Bl E Q (AM.get o >>= f) s := by
  cases o with
  | ok a => exact h a rfl
  | err e => exact (ho e rfl).elim
  | _ => trivial

theorem lift_bind {ε : Type} {g : ε → AErr} {o : Outcome ε α} {f : α → AM β} (ho : ∀ e, o = .err e → E (g e))
    (h : ∀ a, o = .ok a → Bl E Q (f a) s) : Bl E Q (AM.lift g o >>= f) s := by
  cases o with
  | ok a => exact h a rfl
  | err e => exact ho e rfl
  | _ => trivial

theorem checked_bind {o : Outcome CheckErr α} {k : Key} {f : α → AM β} (ho : ∀ e, o = .err e → E ⟨.check e, k⟩)
    (h : ∀ a, o = .ok a → Bl E Q (f a) s) : Bl E Q (Ana.checked k o >>= f) s := lift_bind ho h

theorem fold_bind {o : Outcome EvalErr Value} {t : CType} {b : Bool} {k : Key} {f : Value → AM β}
    (ho : ∀ e, b = true → o = .err e → E ⟨.evaluation e, k⟩) (h : ∀ v, Folds o t v → Bl E Q (f v) s) :
    Bl E Q (Bms.foldResult o t b k >>= f) s := by
  cases o with
  | ok a => exact h a (.inl rfl)
  | err e =>
    cases b with
    | false => exact h _ (.inr ⟨⟨e, rfl⟩, rfl⟩)
    | true => exact ho e rfl rfl
  | _ => trivial

end Bl

/-! ## Functions that report no errors -/

theorem asBool_noErr (v : Value) (e : AErr) : v.asBool (ε := AErr) ≠ .err e := by
  unfold Value.asBool
  (repeat' split) <;> intro h <;> cases h

theorem asInt_noErr (v : Value) (e : AErr) : v.asInt (ε := AErr) ≠ .err e := by
  unfold Value.asInt
  (repeat' split) <;> intro h <;> cases h

theorem concrete_noErr (v : Value) (e : AErr) : v.concrete (ε := AErr) ≠ .err e := by
  unfold Value.concrete
  (repeat' split) <;> intro h <;> cases h

theorem mkUint_noErr (x : Int) (e : AErr) : CType.mkUint (ε := AErr) x ≠ .err e := by
  unfold CType.mkUint Outcome.assert
  intro h
  (repeat' split at h) <;> cases h

theorem concreteType_noErr (t : AType) (e : AErr) : t.concreteType (ε := AErr) ≠ .err e := by
  intro h
  cases t with
  | base => cases h
  | uint k cv c w =>
    cases c with
    | none => cases h
    | some x =>
      simp only [AType.concreteType] at h
      cases hm : (CType.mkUint (ε := AErr) x) with
      | err e' => exact mkUint_noErr _ _ hm
      | _ => rw [hm] at h; cases h

/-! ## States -/

/-- There is a function with this key. -/
def Live (s : ASt) (j : Key) : Prop := s.fns j ≠ none

/-- No function goes away. -/
def Lives (s s' : ASt) : Prop := ∀ j, Live s j → Live s' j

theorem Lives.refl (s : ASt) : Lives s s := fun _ h => h
theorem Lives.trans {a b c : ASt} (h1 : Lives a b) (h2 : Lives b c) : Lives a c := fun j h => h2 j (h1 j h)

/-- What is known about a declaration that is, or is a copy of, the one with key `j`. -/
def DeclBl (ds : List ADecl) (j : Key) : Decl → Prop
  | ⟨.let_, cv⟩ => IsLet ds j ∧ ∀ v, cv = some v → VarType ds j v.type
  | ⟨.const_, cv⟩ => IsConst ds j ∧ ∀ v, cv = some v → VarType ds j v.type
  | ⟨.param, cv⟩ => ∀ v, cv = some v → VarType ds j v.type
  | ⟨.width, cv⟩ => ∀ v, cv = some v → VarType ds j v.type ∧ v.isKnown = true

/-- What is known about a function. -/
structure FnBl (ds : List ADecl) (N : Nat) (L : Key → Prop) (j : Key) (f f0 : AFn) : Prop where
  mem : .function f0 ∈ ds
  key : f.k = j
  sim : SimF ds N L f0 f
  generic : f.generic = true ↔ j < N ∧ f0.generic = true
  unchanged : f.generic = true → ∃ is, f = { f0 with instances := is }

/-- What is known about a state. -/
structure BInv (ds : List ADecl) (N : Nat) (s : ASt) : Prop where
  next : N ≤ s.next ∧ s.next % N = 0
  fns : ∀ j f, s.fns j = some f → ∃ f0, FnBl ds N (Live s) j f f0
  all : ∀ f, .function f ∈ ds → Live s f.k
  decls : ∀ j d, s.decl j = some d → DeclBl ds (j % N) d

/-- The program is as it is before analysis, and names refer to nodes of it. -/
structure BGiven (ds : List ADecl) (N : Nat) : Prop where
  raw : RawProgram ds N
  low : ∀ d ∈ ds, Names.LowD N d

section

variable {ds : List ADecl} {N : Nat} {s s' : ASt}

theorem FnBl.mono {L L' : Key → Prop} (h : ∀ j, L j → L' j) {j : Key} {f f0 : AFn} (hf : FnBl ds N L j f f0) : FnBl ds N L' j f f0 :=
  ⟨hf.mem, hf.key, hf.sim.mono h, hf.generic, hf.unchanged⟩

/-- Functions have different keys. -/
theorem BGiven.unique (hg : BGiven ds N) {f g : AFn} (hf : .function f ∈ ds) (hgm : .function g ∈ ds) (h : f.k = g.k) : f = g := by
  have := nodeKeys_unique hg.raw.nodup hf hgm (x := f.k) (by simp [nodeKeys, Inst.keys]) (by simp [nodeKeys, Inst.keys, h])
  cases this
  rfl

theorem BGiven.lt (hg : BGiven ds N) {d : ADecl} (hd : d ∈ ds) {k : Key} (hk : k ∈ nodeKeys d) : k < N :=
  (hg.raw.keys k (List.mem_flatMap.2 ⟨d, hd, hk⟩)).1

theorem BInv.congr (h : BInv ds N s) (h1 : s'.decl = s.decl) (h2 : s'.fns = s.fns) (h3 : s'.next = s.next) : BInv ds N s' := by
  have hl : Live s' = Live s := by unfold Live; rw [h2]
  exact ⟨h3 ▸ h.next, by rw [h2, hl]; exact h.fns, by rw [hl]; exact h.all, by rw [h1]; exact h.decls⟩

theorem BInv.setDecl (h : BInv ds N s) {k : Key} {d : Decl} (hd : DeclBl ds (k % N) d) : BInv ds N (s.setDecl k d) := by
  refine ⟨h.next, h.fns, h.all, fun j d' hj => ?_⟩
  simp only [ASt.setDecl] at hj
  split at hj
  · next he => cases hj; rw [he]; exact hd
  · exact h.decls j d' hj

theorem lives_setFn {k : Key} {f : AFn} : Lives s (s.setFn k f) := by
  intro j hj
  unfold Live ASt.setFn at *
  simp only
  split
  · simp
  · exact hj

theorem BInv.setFn (h : BInv ds N s) {k : Key} {f f0 : AFn} (hf : FnBl ds N (Live (s.setFn k f)) k f f0) :
    BInv ds N (s.setFn k f) := by
  refine ⟨h.next, fun j g hj => ?_, fun f hf => lives_setFn _ (h.all f hf), h.decls⟩
  have hj' := hj
  simp only [ASt.setFn] at hj'
  split at hj'
  · next he => cases hj'; rw [he]; exact ⟨f0, hf⟩
  · obtain ⟨g0, hg⟩ := h.fns j g hj'
    exact ⟨g0, hg.mono lives_setFn⟩

theorem FnBl.mod {L : Key → Prop} {j : Key} {f f0 : AFn} (h : FnBl ds N L j f f0) : j % N = f0.k := by
  rw [← h.key]; exact h.sim.k

theorem BInv.isFn (h : BInv ds N s) {j : Key} {f : AFn} (hf : s.fns j = some f) : IsFn ds (j % N) := by
  obtain ⟨f0, hf⟩ := h.fns j f hf
  exact ⟨f0, hf.mem, hf.mod.symm⟩

end

end Bms
