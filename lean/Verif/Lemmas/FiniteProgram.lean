import Verif.Lemmas.FiniteFn
import Verif.Lemmas.VmRank

/-!
# Analysis of calls and programs ends
-/

namespace Bms

open Spec

section

variable {ds : List ADecl} {N : Nat} {st : List Key} {K : Key → Prop} {s : ASt}

/-- The call of a function in the machine ends. -/
theorem callEnds (hsmall : 4 * (ds.flatMap nodeKeys).length < 2 ^ 63) (hi : Good ds N s) {j : Key} {a : Nat} (ha : addressAt s j = some a)
    (cs : List CVal) : ∃ M r, ∀ n, M ≤ n → constantCall { Vm.initial with instructions := s.code } a cs n = some r := by
  obtain ⟨alive, E, B, h1, -, h3⟩ := hi.ranked
  exact constantCall_rank h1 (Nat.lt_of_le_of_lt (Nat.le_trans hi.size (codeSize_le s ds)) hsmall) (h3 j a ha) cs

/-- What comes after the analysis of the callee. -/
theorem afterCallee (hsmall : 4 * (ds.flatMap nodeKeys).length < 2 ^ 63) {inner : Level} {ctx : ECtx} {k j : Key} {as : List AExpr} {s1 : ASt}
    (hi : Good ds N s1) (hk : Keep K s s1) :
    Settles (fun _ s' => Good ds N s' ∧ Keep K s s') (fun n => do
        let s ← AM.read
        let f ← AM.value (s.fns j)
        AM.assert (inner.rank ≤ f.level.rank)
        let r ← AM.deref f.cv
        if ctx = .constant then do
          let a ← AM.value f.address
          AM.assert (a < s.code.length)
          let cs ← Ana.passArgs k ctx as f.params
          match constantCall { Vm.initial with instructions := s.code } a cs n with
          | none => AM.timeout
          | some (.ok v) => pure (j, Value.known v)
          | some (.err e) => AM.fail (.execution e) k
          | some .throws => AM.throws
          | some .ub => AM.ub
        else do
          let _ ← Ana.passArgs k ctx as f.params
          pure (j, Value.unknownOf r.type)) s1 := by
  have hP : Good ds N s1 ∧ Keep K s s1 := ⟨hi, hk⟩
  refine .read_bind (.value_bind fun f hf => .assert_bind fun _ => .deref_bind fun r _ => .ite (fun _ => ?_) fun _ => ?_)
  · refine .value_bind fun a ha => .assert_bind fun _ => (Settles.still (passArgs_ends as f.params)).bind fun cs s2 h2 => ?_
    obtain ⟨rfl, -⟩ := h2
    obtain ⟨M, r, hr⟩ := callEnds hsmall hi (j := j) (a := a) (by unfold addressAt; rw [hf]; exact ha) cs
    cases r with
    | ok v => exact ⟨M, .ok (j, Value.known v) s2, by simp, fun n hn => by simp only [hr n hn]; rfl, fun _ _ e => by cases e; exact hP⟩
    | err x => exact ⟨M, .err ⟨.execution x, k⟩, by simp, fun n hn => by simp only [hr n hn]; rfl, fun _ _ e => by cases e⟩
    | throws => exact ⟨M, .throws, by simp, fun n hn => by simp only [hr n hn]; rfl, fun _ _ e => by cases e⟩
    | ub => exact ⟨M, .ub, by simp, fun n hn => by simp only [hr n hn]; rfl, fun _ _ e => by cases e⟩
  · refine (Settles.still (passArgs_ends as f.params)).bind fun cs s2 h2 => ?_
    obtain ⟨rfl, -⟩ := h2
    exact .pure hP

/-- Analysis of functions in `L` for constant expressions ends. -/
def ConstEnds (ds : List ADecl) (N : Nat) (L : Key → Prop) (st : List Key) : Prop :=
  ∀ x s, L (x % N) → x ∉ st → BInv ds N s → Good ds N s → s.stack = st →
    Settles (fun _ s' => Good ds N s' ∧ Keep (· ∈ st) s s') (fun n => Ana.function n x .forConst) s

theorem callF_const (hg : BGiven ds N) (hsmall : 4 * (ds.flatMap nodeKeys).length < 2 ^ 63) {L : Key → Prop} (hce : CallsEnding ds L)
    (hT : ConstEnds ds N L st) : CallsEnd ds N st (· ∈ st) L .forConst := by
  intro ctx k j c as0 as s hctx hA hl ha h hi hst
  unfold Ana.callFunction
  refine .read_bind ?_
  cases hfn : s.fns j with
  | none => exact .fail
  | some f =>
    obtain ⟨f0, hf⟩ := h.fns j f hfn
    simp only
    refine .ite (fun hn => .fail) fun _ => ?_
    have hgen : f.generic = false := by
      cases hx : f.generic with
      | false => rfl
      | true =>
        have := (hf.generic.1 hx).2
        rw [hf.mod] at hA
        rw [hce.plain _ hf.mem hA] at this
        cases this
    have hcal : Ana.callee f as = pure j := by
      unfold Ana.callee
      rw [hgen, hf.key]
      rfl
    simp only [hcal, pure_bind, or_true, if_true, true_and]
    refine .read_bind (.value_bind fun f1 hf1 => .assert_bind fun _ => .ite (fun _ => .fail) fun hin => ?_)
    refine (hT j s hA (by rw [← hst]; exact hin) h hi hst).bind fun _ s1 h1 => ?_
    exact afterCallee hsmall h1.1 h1.2

/-- Analysis of functions in `L` ends, whatever is being analyzed. -/
theorem constEnds (hg : BGiven ds N) (hsmall : 4 * (ds.flatMap nodeKeys).length < 2 ^ 63) {L : Key → Prop} (hce : CallsEnding ds L) :
    (m : Nat) → (st : List Key) → ((fnsOf ds).map fun f => if f.k ∈ st then 0 else 1).sum ≤ m → ConstEnds ds N L st := by
  intro m
  induction m with
  | zero =>
    intro st hm x s hL hx h hi hst
    have : CallsEnd ds N (x :: st) (· ∈ x :: st) (fun _ => False) .forConst := .none
    cases hfn : s.fns x with
    | none =>
      refine .of_succ ?_
      simp only [Ana.function]
      exact .assert_bind fun _ => .read_bind (.value_bind fun f hf => by rw [hfn] at hf; cases hf)
    | some f =>
      exfalso
      obtain ⟨f0, hf⟩ := h.fns x f hfn
      have hxk : x = f0.k := by
        rw [← hf.mod]
        refine (low_self ?_).symm
        by_cases hk : x < N
        · exact hk
        · have := (hi.fns x f hfn).inst (Nat.le_of_not_lt hk) f0 hf.mem hf.mod.symm
          rw [hf.mod] at hL
          rw [hce.plain _ hf.mem hL] at this
          cases this
      have := sum_more (g := fun _ => 0) (g' := fun f : AFn => if f.k ∈ st then 0 else 1) (d := 1) (fnsOf ds) (fun _ _ => Nat.zero_le _)
        ((mem_fnsOf ds).2 hf.mem) (by rw [← hxk, if_neg hx]; exact Nat.le_refl _)
      omega
  | succ m ih =>
    intro st hm x s hL hx h hi hst
    cases hfn : s.fns x with
    | none =>
      refine .of_succ ?_
      simp only [Ana.function]
      exact .assert_bind fun _ => .read_bind (.value_bind fun f hf => by rw [hfn] at hf; cases hf)
    | some f =>
      obtain ⟨f0, hf⟩ := h.fns x f hfn
      have hL0 := hL
      rw [hf.mod] at hL0
      have hpl := hce.plain _ hf.mem hL0
      have hxk : x = f0.k := by
        rw [← hf.mod]
        refine (low_self ?_).symm
        by_cases hk : x < N
        · exact hk
        · have := (hi.fns x f hfn).inst (Nat.le_of_not_lt hk) f0 hf.mem hf.mod.symm
          rw [hpl] at this
          cases this
      have hdec := sum_more (g := fun f : AFn => if f.k ∈ x :: st then 0 else 1) (g' := fun f : AFn => if f.k ∈ st then 0 else 1) (d := 1)
        (fnsOf ds) (fun g _ => by
          by_cases hgm : g.k ∈ st
          · rw [if_pos hgm, if_pos (by simp [hgm])]; exact Nat.le_refl _
          · rw [if_neg hgm]; split <;> omega)
        ((mem_fnsOf ds).2 hf.mem) (by
          rw [if_pos (by simp [hxk]), ← hxk, if_neg hx]
          exact Nat.le_refl _)
      have hC := callF_const hg hsmall hce (ih (x :: st) (by omega))
      refine plainF hg hce hC (fun _ => ⟨hC, fun g0 hg0 hgk j hj => ?_⟩) (fun _ => ⟨hL, hx⟩) (fun f' hf' => ?_) h hi hst
      · have : g0 = f0 := hg.unique hg0 hf.mem (by rw [hgk, hf.mod])
        subst this
        exact hce.calls _ hg0 hL0 j hj
      · rw [hfn] at hf'
        cases hf'
        cases hx : f.generic with
        | false => rfl
        | true =>
          have := (hf.generic.1 hx).2
          rw [hpl] at this
          cases this

theorem callsConst (hg : BGiven ds N) (hsmall : 4 * (ds.flatMap nodeKeys).length < 2 ^ 63) {L : Key → Prop} (hce : CallsEnding ds L)
    (st : List Key) : CallsEnd ds N st (· ∈ st) L .forConst :=
  callF_const hg hsmall hce (constEnds hg hsmall hce _ st (Nat.le_refl _))

theorem instance_new {base : Nat} {f : AFn} {w : List Nat} {i : AInstance} {g : AFn} (h : Inst.function base f w = .ok (i, some g)) :
    g.address = none ∧ g.instances = [] ∧ g.k = f.k + base ∧ i.key = g.k := by
  unfold Inst.function at h
  obtain ⟨_, -, h⟩ := Outcome.bind_eq_ok.1 h
  obtain ⟨o, -, h⟩ := Outcome.bind_eq_ok.1 h
  cases o with
  | some x => cases h
  | none =>
    simp only at h
    obtain ⟨g1, hg1, h⟩ := Outcome.bind_eq_ok.1 h
    obtain ⟨⟨ws, ps⟩, -, h⟩ := Outcome.bind_eq_ok.1 h
    simp only [Outcome.ok.injEq, Prod.mk.injEq, Option.some.injEq] at h
    obtain ⟨rfl, rfl⟩ := h
    unfold Inst.copy at hg1
    by_cases hc : Inst.copyable f
    · rw [if_neg (by simp [hc])] at hg1
      obtain ⟨a, -, hg1⟩ := Outcome.bind_eq_ok.1 hg1
      obtain ⟨b, -, hg1⟩ := Outcome.bind_eq_ok.1 hg1
      obtain ⟨c, -, hg1⟩ := Outcome.bind_eq_ok.1 hg1
      obtain ⟨d, -, hg1⟩ := Outcome.bind_eq_ok.1 hg1
      cases hg1
      exact ⟨rfl, rfl, rfl, rfl⟩
    · rw [if_pos (by simp [hc])] at hg1
      cases hg1

/-- The called function, possibly a new instance. -/
theorem calleeF (hg : BGiven ds N) (h : BInv ds N s) (hi : Good ds N s) {j : Key} {f f0 : AFn} (hfn : s.fns j = some f)
    (hf : FnBl ds N (Live s) j f f0) {as : List AExpr} :
    Settles (fun _ s' => Good ds N s' ∧ Keep K s s') (fun _ => Ana.callee f as) s := by
  unfold Ana.callee
  refine .ite (fun hgen => ?_) fun _ => .pure ⟨hi, .refl _⟩
  refine .assert_bind fun _ => (Settles.still (deduce_ends as f.params)).bind fun ws s' hs => ?_
  obtain ⟨rfl, -⟩ := hs
  refine .read_bind (.get_bind fun r hr => ?_)
  obtain ⟨i, o⟩ := r
  cases o with
  | none => exact .pure ⟨hi, .refl _⟩
  | some g =>
    obtain ⟨h1, h2, h3, h4⟩ := instance_new hr
    have hlt := (hf.generic.1 hgen).1
    have hgen0 := (hf.generic.1 hgen).2
    have hkj : f.k = j := hf.key
    have hnext := h.next.1
    have hgk : @Eq Nat g.k (@HAdd.hAdd Nat Nat Nat _ f.k s'.next) := h3
    have hfl : @LT.lt Nat _ f.k N := by rw [hkj]; exact hlt
    have hge : @LE.le Nat _ s'.next g.k := by rw [hgk]; exact Nat.le_add_left _ _
    have hnew : s'.fns g.k = none := by
      cases hx : s'.fns g.k with
      | none => rfl
      | some g' => exact absurd (hi.fns _ _ hx).fresh (Nat.not_lt.2 hge)
    have hne : f.k ≠ g.k := fun e => by
      rw [e] at hfl
      exact absurd (Nat.lt_of_lt_of_le hfl hnext) (Nat.not_lt.2 hge)
    have hfr : @LT.lt Nat _ g.k (s'.next + s'.next) := by
      rw [hgk]
      exact Nat.add_lt_add_right (Nat.lt_of_lt_of_le hfl hnext) _
    refine .modify_bind (.modify_bind ?_)
    generalize hs1 : ({ Ana.addFunction g s' with next := s'.next + s'.next } : ASt) = s1
    have hfns : s1.fns = fun j => if j = g.k then some g else s'.fns j := by rw [← hs1]; rfl
    have hnx : s1.next = s'.next + s'.next := by rw [← hs1]
    have hcode : s1.code = s'.code := by rw [← hs1]; rfl
    have hstk : s1.stack = s'.stack := by rw [← hs1]; rfl
    have ha1 : ∀ x, addressAt s1 x = addressAt s' x := by
      intro x
      unfold addressAt
      rw [hfns]
      by_cases hx : x = g.k
      · simp only [if_pos hx, hx, hnew]
        exact h1
      · simp only [if_neg hx]
    have g1 : Good ds N s1 := by
      refine hi.same hcode ha1 fun x f' hx => ?_
      rw [hfns] at hx
      simp only at hx
      by_cases hxg : x = g.k
      · rw [if_pos hxg] at hx
        cases hx
        refine ⟨fun hx => absurd h1 hx, fun _ f1 hf1 hk1 => ?_, by rw [h2]; simp, by rw [hnx, hxg]; exact hfr⟩
        have : f1 = f0 := by
          refine hg.unique hf1 hf.mem ?_
          rw [hk1, hxg, h3, Nat.add_mod, h.next.2, Nat.add_zero, Nat.mod_mod]
          exact hf.sim.k
        rw [this]
        exact hgen0
      · rw [if_neg hxg] at hx
        have h0 := hi.fns x f' hx
        exact ⟨h0.level, h0.inst, h0.instances, by rw [hnx]; exact Nat.lt_of_lt_of_le h0.fresh (Nat.le_add_left _ _)⟩
    have hf1 : s1.fns f.k = some f := by
      rw [hfns]
      simp only [if_neg hne]
      rw [hkj]
      exact hfn
    have g2 : Good ds N (s1.setFn f.k { f with instances := f.instances ++ [i] }) := by
      refine g1.setFn hf1 rfl (g1.fns _ _ hf1).level fun i' hi' => ?_
      simp only [List.mem_append, List.mem_singleton] at hi'
      rcases hi' with hi' | rfl
      · exact (g1.fns _ _ hf1).instances i' hi'
      · rw [h4]
        exact Nat.le_trans hnext hge
    refine .pure ⟨g2, hstk, fun x _ => ?_⟩
    rw [addressAt_setFn (f' := { f with instances := f.instances ++ [i] }) hf1 rfl x]
    exact ha1 x

/-- Analysis of functions that are not generic at a level ends. -/
def LevelEnds (ds : List ADecl) (N : Nat) (level : Level) (st : List Key) : Prop :=
  ∀ x s, (∀ f, s.fns x = some f → f.generic = false) → BInv ds N s → Good ds N s → s.stack = st →
    Settles (fun _ s' => Good ds N s' ∧ Keep (· ∈ st) s s') (fun n => Ana.function n x level) s

theorem callF_full (hg : BGiven ds N) (hsmall : 4 * (ds.flatMap nodeKeys).length < 2 ^ 63) (hT : LevelEnds ds N .shallow st) :
    CallsEnd ds N st (· ∈ st) (fun _ => True) .full := by
  intro ctx k j c as0 as s hctx hA hl ha h hi hst
  have hcn : ¬ ctx = .constant := fun hc => by cases hctx hc
  unfold Ana.callFunction
  refine .read_bind ?_
  cases hfn : s.fns j with
  | none => exact .fail
  | some f =>
    obtain ⟨f0, hf⟩ := h.fns j f hfn
    simp only
    refine .ite (fun hn => .fail) fun _ => ?_
    refine ((calleeF (K := (· ∈ st)) hg h hi hfn hf).with_ (E := fun _ => True) fun _ => callee_bl hg h hfn hf ha
      fun _ _ _ _ _ _ _ _ _ _ => trivial).bind fun j' s1 h1 => ?_
    obtain ⟨⟨i1, l1, -⟩, g1, k1⟩ := h1
    refine .read_bind (.value_bind fun f1 hf1 => .assert_bind fun hgen => ?_)
    have hgen : f1.generic = false := by simpa using hgen
    have hin : (if ctx = .constant ∨ Level.full = .forConst then Level.forConst else .shallow) = .shallow := by
      rw [if_neg]
      rintro (hc | hc)
      · exact hcn hc
      · cases hc
    simp only [hin]
    refine .ite (fun hx => by cases hx.1) fun _ => ?_
    refine (hT j' s1 (fun f' hf' => by rw [hf1] at hf'; cases hf'; exact hgen) i1 g1 (k1.1.trans hst)).bind fun _ s2 h2 => ?_
    exact afterCallee hsmall h2.1 (k1.trans h2.2)

theorem shallowEnds (hg : BGiven ds N) (hsmall : 4 * (ds.flatMap nodeKeys).length < 2 ^ 63) {L : Key → Prop} (hce : CallsEnding ds L)
    (st : List Key) : LevelEnds ds N .shallow st := by
  intro x s hgen h hi hst
  exact plainF (A := fun _ => True) hg hce (callsConst hg hsmall hce _) (fun hx => absurd hx (by decide)) (fun hx => by cases hx) hgen h hi hst

theorem fullEnds (hg : BGiven ds N) (hsmall : 4 * (ds.flatMap nodeKeys).length < 2 ^ 63) {L : Key → Prop} (hce : CallsEnding ds L)
    (st : List Key) : LevelEnds ds N .full st := by
  intro x s hgen h hi hst
  exact plainF (A := fun _ => True) hg hce (callsConst hg hsmall hce _)
    (fun _ => ⟨callF_full hg hsmall (shallowEnds hg hsmall hce _), fun _ _ _ _ _ => trivial⟩) (fun hx => by cases hx) hgen h hi hst

theorem forMF {α : Type} {x : Nat → α → AM Unit} (hb : ∀ n a s, BInv ds N s →
      Bl (ErrAt ds N fun _ _ => False) (fun _ s' => BInv ds N s' ∧ Lives s s') (x n a) s) : (l : List α) → {s : ASt} → BInv ds N s → Good ds N s →
    s.stack = st → (∀ a ∈ l, ∀ s, BInv ds N s → Good ds N s → s.stack = st →
      Settles (fun _ s' => Good ds N s' ∧ Keep (· ∈ st) s s') (fun n => x n a) s) →
    Settles (fun _ s' => Good ds N s' ∧ Keep (· ∈ st) s s') (fun n => l.forM (x n)) s
  | [], s, _, hi, _, _ => .pure ⟨hi, .refl _⟩
  | a :: l, s, h, hi, hst, hx => by
    show Settles _ (fun n => x n a >>= fun _ => l.forM (x n)) s
    refine ((hx a (by simp) s h hi hst).with_ fun n => hb n a s h).bind fun _ s1 h1 => ?_
    exact (forMF hb l h1.1.1 h1.2.1 (h1.2.2.1.trans hst) fun b hbm => hx b (by simp [hbm])).mono fun _ _ h2 => ⟨h2.1, h1.2.2.trans h2.2⟩

theorem functionF (hg : BGiven ds N) (hsmall : 4 * (ds.flatMap nodeKeys).length < 2 ^ 63) {L : Key → Prop} (hce : CallsEnding ds L)
    {k : Key} (h : BInv ds N s) (hi : Good ds N s) (hst : s.stack = st) :
    Settles (fun _ s' => Good ds N s' ∧ Keep (· ∈ st) s s') (fun n => Ana.function n k .full) s := by
  by_cases hgen : ∀ f, s.fns k = some f → f.generic = false
  · exact fullEnds hg hsmall hce st k s hgen h hi hst
  · refine .of_succ ?_
    simp only [Ana.function]
    refine .assert_bind fun _ => .read_bind (.value_bind fun f hf => ?_)
    refine .ite (fun _ => .pure ⟨hi, .refl _⟩) fun _ => ?_
    have hgf : f.generic = true := by
      cases hx : f.generic with
      | true => rfl
      | false => exact absurd (fun f' hf' => by rw [hf] at hf'; cases hf'; exact hx) hgen
    refine .ite (fun _ => ?_) fun hx => absurd hgf hx
    refine forMF (fun n i s hs => functionA_bl hg n i.key .full s hs) f.instances h hi hst fun i him s' h' hi' hst' => ?_
    refine fullEnds hg hsmall hce st i.key s' (fun g hg' => ?_) h' hi' hst'
    obtain ⟨g0, hg0⟩ := h'.fns _ _ hg'
    cases hx : g.generic with
    | false => rfl
    | true =>
      have h1 := (hg0.generic.1 hx).1
      exact absurd h1 (Nat.not_lt.2 ((hi.fns k f hf).instances i him))

theorem declF (hg : BGiven ds N) (hsmall : 4 * (ds.flatMap nodeKeys).length < 2 ^ 63) {L : Key → Prop} (hce : CallsEnding ds L)
    {d : ADecl} (hd : d ∈ ds) (h : BInv ds N s) (hi : Good ds N s) (hst : s.stack = []) :
    Settles (fun _ s' => Good ds N s' ∧ s'.stack = []) (fun n => Ana.decl n d) s := by
  have hL : ∀ j, IsFn ds j → Live s j := fun j ⟨f, hf, hj⟩ => hj ▸ h.all f hf
  have hraw := hg.raw.raw d hd
  have hlow := hg.low d hd
  have hkeys := fun k hk => hg.lt (k := k) hd hk
  have hC := callsConst hg hsmall hce []
  have hcd := hce.called d hd
  cases d with
  | const_ k cv name ty e =>
    obtain ⟨rfl, h1, h2⟩ := hraw
    simp only [nodeKeys, List.mem_cons, List.mem_append] at hkeys
    simp only [constCallsD, List.mem_append] at hcd
    simp only [Ana.decl]
    refine (constF hg hC (simO_self fun t ht => ?_) (simE_self hL true e h2 (fun k h => hkeys k (.inr (.inr h))) hlow.2)
      (fun j hj => hcd j (.inl hj)) (fun j hj => hcd j (.inr hj)) h hi hst).bind fun r s1 h1 => ?_
    · subst ht
      exact simT_self hL t (h1 t rfl) (fun k h => hkeys k (.inr (.inl h))) hlow.1
    · exact .modify ⟨h1.1.setDecl, h1.2.1.trans hst⟩
  | staticAssert k cv e =>
    obtain ⟨rfl, h1⟩ := hraw
    simp only [nodeKeys, List.mem_cons] at hkeys
    simp only [constCallsD] at hcd
    simp only [Ana.decl]
    exact (staticAssertF hg hC (simE_self hL true e h1 (fun k h => hkeys k (.inr h)) hlow) hcd h hi hst).bind
      fun r s1 h1 => .pure ⟨h1.1, h1.2.1.trans hst⟩
  | function f =>
    simp only [Ana.decl]
    exact (functionF hg hsmall hce h hi hst).mono fun _ _ h => ⟨h.1, h.2.1.trans hst⟩

theorem programF (hg : BGiven ds N) (hsmall : 4 * (ds.flatMap nodeKeys).length < 2 ^ 63) {L : Key → Prop} (hce : CallsEnding ds L) :
    (l : List ADecl) → (∀ d ∈ l, d ∈ ds) → {s : ASt} → BInv ds N s → Good ds N s → s.stack = [] →
    Settles (fun _ s' => Good ds N s' ∧ s'.stack = []) (fun n => Ana.decls n l) s
  | [], _, s, _, hi, hst => .pure ⟨hi, hst⟩
  | d :: l, hl, s, h, hi, hst => by
    simp only [Ana.decls]
    refine ((declF hg hsmall hce (hl d (by simp)) h hi hst).with_ fun n => declA_bl (n := n) hg (hl d (by simp)) h).bind fun _ s1 h1 => ?_
    exact programF hg hsmall hce l (fun d hd => hl d (by simp [hd])) h1.1 h1.2.1 h1.2.2

theorem initial_good (hg : BGiven ds N) (ha : ∀ f, .function f ∈ ds → f.address = none) :
    Good ds N (Ana.initial ds N) ∧ (Ana.initial ds N).stack = [] := by
  have hini : Ana.initial ds N = ds.foldl initStep
      { decl := fun _ => none, fns := fun _ => none, code := [], stack := [], next := N } := rfl
  obtain ⟨-, b2, b3, b4, -, b6⟩ := initFold ds
    { decl := fun _ => none, fns := fun _ => none, code := [], stack := [], next := N } hg.raw.raw hg.raw.nodup
  rw [← hini] at b2 b3 b4 b6
  have hadr : ∀ j, addressAt (Ana.initial ds N) j = none := by
    intro j
    unfold addressAt
    cases hf : (Ana.initial ds N).fns j with
    | none => rfl
    | some f =>
      rcases b6 j f hf with ⟨hf, -⟩ | hx
      · exact ha f hf
      · cases hx
  refine ⟨⟨⟨fun _ => False, fun _ => 0, 0, ⟨fun _ h => h.elim, fun _ _ h => h.elim⟩, fun _ h => h.elim, fun j a h => ?_⟩, ?_, fun j f hf => ?_⟩, b3⟩
  · rw [hadr] at h
    cases h
  · rw [b2]
    exact Nat.zero_le _
  · rcases b6 j f hf with ⟨hf', hk⟩ | hx
    · have hlt := hg.lt hf' (k := f.k) (by simp [nodeKeys, Inst.keys])
      have hraw : RawFn f := hg.raw.raw _ hf'
      refine ⟨fun h => absurd (ha f hf') h, fun hle => ?_, by rw [hraw.instances]; simp, by rw [b4, ← hk]; exact hlt⟩
      rw [← hk] at hle
      exact absurd hlt (Nat.not_lt.2 hle)
    · cases hx

end

end Bms
