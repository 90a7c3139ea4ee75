import Verif.Lemmas.AnalyzeState

/-!
# Steps of analysis keep the invariant
-/

namespace Bms

open Spec

/-! ## Analyses that succeed -/

namespace AM

instance : LawfulMonad AM := LawfulMonad.mk'
  (id_map := fun x => by
    funext s
    show AM.bind x _ s = _
    unfold AM.bind
    cases x s <;> rfl)
  (pure_bind := fun _ _ => rfl)
  (bind_assoc := fun x f g => by
    funext s
    show AM.bind (AM.bind x f) g s = AM.bind x (fun a => AM.bind (f a) g) s
    unfold AM.bind
    cases x s <;> rfl)

variable {α β : Type} {s s' : ASt}

theorem bind_ok {x : AM α} {f : α → AM β} {b : β} :
    (x >>= f) s = .ok b s' ↔ ∃ a s1, x s = .ok a s1 ∧ f a s1 = .ok b s' := by
  show AM.bind x f s = _ ↔ _
  unfold AM.bind
  cases h : x s <;> simp

theorem pure_ok {a b : α} : (pure a : AM α) s = .ok b s' ↔ a = b ∧ s = s' := by
  show ARes.ok a s = .ok b s' ↔ _
  simp

theorem read_ok {a : ASt} : AM.read s = .ok a s' ↔ s = a ∧ s = s' := by
  simp [AM.read]

theorem modify_ok {f : ASt → ASt} {u : Unit} : AM.modify f s = .ok u s' ↔ f s = s' := by
  simp [AM.modify]

theorem value_ok {o : Option α} {a : α} : AM.value o s = .ok a s' ↔ o = some a ∧ s = s' := by
  cases o <;> simp [AM.value]

theorem deref_ok {o : Option α} {a : α} : AM.deref o s = .ok a s' ↔ o = some a ∧ s = s' := by
  cases o <;> simp [AM.deref]

theorem assert_ok {b : Bool} {u : Unit} : AM.assert b s = .ok u s' ↔ b = true ∧ s = s' := by
  cases b <;> simp [AM.assert]

theorem fail_ok {c : ACode} {k : Key} {a : α} : (AM.fail c k : AM α) s = .ok a s' ↔ False := by
  simp [AM.fail]

theorem throws_ok {a : α} : (AM.throws : AM α) s = .ok a s' ↔ False := by simp [AM.throws]

theorem ub_ok {a : α} : (AM.ub : AM α) s = .ok a s' ↔ False := by simp [AM.ub]

theorem timeout_ok {a : α} : (AM.timeout : AM α) s = .ok a s' ↔ False := by simp [AM.timeout]

theorem lift_ok {ε : Type} {f : ε → AErr} {o : Outcome ε α} {a : α} :
    AM.lift f o s = .ok a s' ↔ o = .ok a ∧ s = s' := by
  cases o <;> simp [AM.lift]

theorem get_ok {o : Outcome AErr α} {a : α} : AM.get o s = .ok a s' ↔ o = .ok a ∧ s = s' := by
  simp only [AM.get, lift_ok]

theorem checked_ok {o : Outcome CheckErr α} {k : Key} {a : α} :
    Ana.checked k o s = .ok a s' ↔ o = .ok a ∧ s = s' := by
  simp only [Ana.checked, lift_ok]

theorem foldResult_ok {o : Outcome EvalErr Value} {t : CType} {r : Bool} {k : Key} {w : Value}
    (h : foldResult o t r k s = .ok w s') : Folds o t w ∧ s = s' := by
  unfold foldResult at h
  cases o with
  | ok v => simp only [pure_ok] at h; obtain ⟨rfl, rfl⟩ := h; exact ⟨.inl rfl, rfl⟩
  | err e =>
    cases r with
    | true => simp [fail_ok] at h
    | false =>
      simp only [Bool.false_eq_true, if_false, pure_ok] at h
      obtain ⟨rfl, rfl⟩ := h
      exact ⟨.inr ⟨⟨e, rfl⟩, rfl⟩, rfl⟩
  | throws => simp [throws_ok] at h
  | ub => simp [ub_ok] at h

theorem ite_fail_ok {p : Prop} [Decidable p] {c : ACode} {k : Key} {x : AM α} {a : α} :
    (if p then AM.fail c k else x) s = .ok a s' ↔ ¬ p ∧ x s = .ok a s' := by
  by_cases h : p <;> simp [h, fail_ok]

end AM

/-! ## Other functions -/

theorem FnInv.grow {N : Nat} {s s' : ASt} {j : Key} {f : AFn} (h : FnInv N s (j ∈ s.stack) j f)
    (hnext : s.next ≤ s'.next) (hg : Grows s s') (hdecl : ∀ x ∈ owned f, s'.decl x = s.decl x)
    (hstack : j ∈ s'.stack ↔ j ∈ s.stack)
    (hnew : ∀ i g, s'.fns i = some g → s.fns i = none → s.next ≤ i)
    (hparam : ∀ x, IsParam s x → IsParam s' x) : FnInv N s' (j ∈ s'.stack) j f where
  key := ⟨h.key.1, Nat.lt_of_lt_of_le h.key.2 hnext⟩
  ownedLt x hx := Nat.lt_of_lt_of_le (h.ownedLt x hx) hnext
  ownedNodup := h.ownedNodup
  paramDecl p hp := by
    rw [hdecl p.k (List.mem_append_left _ (List.mem_map_of_mem hp))]
    exact h.paramDecl p hp
  bodyDecl d hd := by
    rw [hdecl d.1 (List.mem_append_right _ (List.mem_map_of_mem hd))]
    exact h.bodyDecl d hd
  plain hf := by
    have p := h.plain hf
    exact {
      params := p.params
      ret := p.ret
      sigParams := p.sigParams
      sigRet := p.sigRet
      cv := fun hl => by rw [hstack]; exact p.cv hl
      cvNone := p.cvNone
      reqs := p.reqs
      raw := fun hl hon => by
        obtain ⟨h1, h2⟩ := p.raw hl (fun h => hon (hstack.2 h))
        refine ⟨h1, fun x hx kd v => ?_⟩
        rw [hdecl x (List.mem_append_right _ hx)]
        exact h2 x hx kd v
      typed := fun hl => ⟨(p.typed hl).1.mono (hg.ctx (by decide) (Nat.le_refl _)), (p.typed hl).2⟩
      typedConst := fun hl =>
        ⟨(p.typedConst hl).1.mono (hg.ctx (by decide) (Nat.le_refl _)), (p.typedConst hl).2⟩
      noSelf := p.noSelf
      instRefs := fun hl hk i hi => by
        obtain ⟨h1, h2⟩ := p.instRefs hl hk i hi
        refine ⟨Nat.lt_of_lt_of_le h1 hnext, fun g hg' => ?_⟩
        cases hs : s.fns i with
        | none => exact absurd (hnew i g hg' hs) (Nat.not_le.2 h1)
        | some g' => exact h2 g' hs
      paramRefs := fun hl i hi => hparam i (p.paramRefs hl i hi)
      valsParams := fun q hq hs => (p.valsParams q hq hs).grow hg
      valsRet := fun hs => (p.valsRet hs).grow hg
      valsReqs := fun e he hs => (p.valsReqs e he hs).grow hg
      valsBody := fun hl => (p.valsBody hl).grow hg }
  gen hf := by
    have p := h.gen hf
    exact { p with
      unset := fun x hx kd v => by
        rw [hdecl x (List.mem_append_right _ hx)]
        exact p.unset x hx kd v
      keys := ⟨p.keys.1, fun x hx =>
        ⟨Nat.lt_of_lt_of_le (p.keys.2 x hx).1 hnext, (p.keys.2 x hx).2⟩⟩
      instances := fun i hi => by
        obtain ⟨h1, g, h2, h3, h4⟩ := p.instances i hi
        obtain ⟨g', h5, h6⟩ := hg.fns _ _ h2
        exact ⟨h1, g', h5, h6.generic.trans h3, h6.params.trans h4⟩ }

/-- Change of one function and its declarations. -/
theorem Inv.update {N : Nat} {s s' : ASt} (h : Inv N s) {k : Key} {f f' : AFn}
    (hf : s.fns k = some f) (hf' : s'.fns k = some f') (hle : FnLe f f')
    (hfns : ∀ j, j ≠ k → s'.fns j = s.fns j) (hdecl : ∀ x, x ∉ owned f → s'.decl x = s.decl x)
    (hnext : s'.next = s.next)
    (hsome : ∀ x kd v, s.decl x = some ⟨kd, some v⟩ → s'.decl x = some ⟨kd, some v⟩)
    (hkind : ∀ x ∈ owned f, ∀ d, s.decl x = some d → ∃ d', s'.decl x = some d' ∧ d'.kind = d.kind)
    (hnone : ∀ x ∈ owned f, s.decl x = none → s'.decl x = none)
    (hok : ∀ x ∈ owned f, ∀ d, s'.decl x = some d → DeclOk d)
    (hstack : ∀ j, j ≠ k → (j ∈ s'.stack ↔ j ∈ s.stack)) (hgen : k ∈ s'.stack → f.generic = false)
    (hcode : OperandsOk s'.code) (hcode' : ∃ c, s'.code = s.code ++ c) (hload : LoadedInv s')
    (hfn : Grows s s' → (∀ x, IsParam s x → IsParam s' x) → FnInv N s' (k ∈ s'.stack) k f') :
    Inv N s' ∧ Grows s s' := by
  have hg : Grows s s' := by
    refine ⟨hsome, fun j g hj => ?_, hcode'⟩
    by_cases hjk : j = k
    · subst hjk
      rw [hf] at hj
      cases hj
      exact ⟨f', hf', hle⟩
    · exact ⟨g, (hfns j hjk).trans hj, .refl g⟩
  have hparam : ∀ x, IsParam s x → IsParam s' x := by
    rintro x ⟨cv, hx⟩
    by_cases ho : x ∈ owned f
    · obtain ⟨⟨kd, cv'⟩, h1, h2⟩ := hkind x ho _ hx
      simp only at h2
      subst h2
      exact ⟨cv', h1⟩
    · exact ⟨cv, (hdecl x ho).trans hx⟩
  have hback : ∀ j, j ≠ k → ∀ g, s'.fns j = some g → s.fns j = some g :=
    fun j hjk g hj => (hfns j hjk) ▸ hj
  refine ⟨⟨hnext ▸ h.next, fun x d hx => ?_, fun x d hx => ?_, fun j g hj => ?_, ?_, fun j hj => ?_,
    hcode, hload⟩, hg⟩
  · rw [hnext]
    cases hd : s.decl x with
    | some d0 => exact h.declKey x d0 hd
    | none =>
      exfalso
      by_cases ho : x ∈ owned f
      · rw [hnone x ho hd] at hx; cases hx
      · rw [hdecl x ho, hd] at hx; cases hx
  · by_cases ho : x ∈ owned f
    · exact hok x ho d hx
    · rw [hdecl x ho] at hx; exact h.declOk x d hx
  · by_cases hjk : j = k
    · subst hjk
      rw [hf'] at hj
      cases hj
      exact hfn hg hparam
    · have hj0 := hback j hjk g hj
      refine (h.fn j g hj0).grow (Nat.le_of_eq hnext.symm) hg (fun x hx => hdecl x fun ho => ?_)
        (hstack j hjk) (fun i g' hi hn => ?_) hparam
      · exact h.disjoint k j f g hf hj0 (fun e => hjk e.symm) x ho hx
      · by_cases hik : i = k
        · subst hik; rw [hf] at hn; cases hn
        · rw [hfns i hik, hn] at hi; cases hi
  · intro i j g g' hi hj hij x hx
    by_cases hik : i = k
    · subst hik
      rw [hf'] at hi
      cases hi
      have hj0 := hback j (fun e => hij e.symm) g' hj
      rw [hle.owned] at hx
      exact h.disjoint i j f g' hf hj0 hij x hx
    · have hi0 := hback i hik g hi
      by_cases hjk : j = k
      · subst hjk
        rw [hf'] at hj
        cases hj
        rw [hle.owned]
        exact h.disjoint i j g f hi0 hf hij x hx
      · exact h.disjoint i j g g' hi0 (hback j hjk g' hj) hij x hx
  · by_cases hjk : j = k
    · subst hjk
      exact ⟨f', hf', hle.generic.trans (hgen hj)⟩
    · obtain ⟨g, h1, h2⟩ := h.stackFns j ((hstack j hjk).1 hj)
      exact ⟨g, (hfns j hjk).trans h1, h2⟩

/-- The same change, as an extension, if the function is not on the stack in the end. -/
theorem Ext.update {s s' : ASt} {k : Key} {f f' : AFn} (hf : s.fns k = some f)
    (hf' : s'.fns k = some f') (hle : FnLe f f') (hfns : ∀ j, j ≠ k → s'.fns j = s.fns j)
    (hdecl : ∀ x, x ∉ owned f → s'.decl x = s.decl x) (hnext : s'.next = s.next)
    (hsome : ∀ x kd v, s.decl x = some ⟨kd, some v⟩ → s'.decl x = some ⟨kd, some v⟩)
    (hkind : ∀ x ∈ owned f, ∀ d, s.decl x = some d → ∃ d', s'.decl x = some d' ∧ d'.kind = d.kind)
    (hstack : s'.stack = s.stack) (hon : k ∉ s.stack)
    (hdisj : ∀ j g, s.fns j = some g → j ≠ k → ∀ x ∈ owned g, x ∉ owned f)
    (hcode : ∃ c, s'.code = s.code ++ c) : Ext [] s s' where
  stack := hstack
  next := Nat.le_of_eq hnext.symm
  declSome := hsome
  declKind x d hx := by
    by_cases ho : x ∈ owned f
    · exact hkind x ho d hx
    · exact ⟨d, (hdecl x ho).trans hx, rfl⟩
  fns j g hj := by
    by_cases hjk : j = k
    · subst hjk
      rw [hf] at hj
      cases hj
      exact ⟨f', hf', hle⟩
    · exact ⟨g, (hfns j hjk).trans hj, .refl g⟩
  newFns j g hj hn := by
    by_cases hjk : j = k
    · subst hjk; rw [hf] at hn; cases hn
    · rw [hfns j hjk, hn] at hj; cases hj
  onStack j hj := hfns j fun e => hon (e ▸ hj)
  onStackDecl j hj g hg x hx _ := hdecl x (hdisj j g hg (fun e => hon (e ▸ hj)) x hx)
  unowned x _ hx := hdecl x (hx k f hf)
  code := hcode

end Bms
