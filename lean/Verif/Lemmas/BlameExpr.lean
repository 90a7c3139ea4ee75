import Verif.Lemmas.BlameCopy

/-!
# Errors in expressions
-/

namespace Bms

open Spec

section

variable {ds : List ADecl} {N : Nat} {L : Key → Prop} {s : ASt}

/-! ## New functions -/

/-- All declarations are as they should be. -/
def DeclsBl (ds : List ADecl) (N : Nat) (decl : Key → Option Decl) : Prop := ∀ j d, decl j = some d → DeclBl ds (j % N) d

theorem DeclsBl.add {decl : Key → Option Decl} (h : DeclsBl ds N decl) {k : Key} {d : Decl} (hd : DeclBl ds (k % N) d) :
    DeclsBl ds N (fun j => if j = k then some d else decl j) := by
  intro j d' hj
  simp only at hj
  split at hj
  · next he => cases hj; rw [he]; exact hd
  · exact h j d' hj

theorem declareParams_bl {f0 : AFn} (hf : .function f0 ∈ ds) : (ps0 ps : List AParam) → List.Forall₂ (SimP ds N L) ps0 ps →
    (∀ p ∈ ps0, p ∈ f0.params) → (∀ p ∈ ps, WidthKnown p) → {decl : Key → Option Decl} → DeclsBl ds N decl →
    DeclsBl ds N (Ana.declareParams ps decl)
  | _, [], .nil, _, _, decl, h => h
  | p0 :: ps0, p :: ps, .cons hp hps, hm, hw, decl, h => by
    have hp0 := hm p0 (by simp)
    have h1 : DeclsBl ds N (fun j => if j = p.k then some ⟨.param, p.type.cv⟩ else decl j) := by
      refine h.add ?_
      intro v hv
      rw [hp.1]
      exact (varType_follows ds).param f0 hf p0 hp0 _ (hp.2.stands hv)
    unfold Ana.declareParams
    rw [List.foldl_cons]
    refine declareParams_bl hf ps0 ps hps (fun p hp => hm p (by simp [hp])) (fun p hp => hw p (by simp [hp])) ?_
    simp only
    split
    · next k cv c ki cvi name ref he =>
      refine h1.add ?_
      intro v hv
      subst hv
      have hk := hw p (by simp) _ _ _ _ _ _ _ he
      refine ⟨?_, hk.1⟩
      rw [hk.2]
      have ht := hp.2
      rw [he] at ht
      revert ht
      cases hp0t : p0.type with
      | base => intro ht; cases ht
      | uint k0 cv0 n0 w0 =>
        intro ht
        cases ht with
        | uint h1 h2 h3 =>
          cases h1 with
          | @id _ k1 _ cv1 _ _ r0 _ _ h4 h5 h6 =>
            rw [h4]
            exact (varType_follows ds).width f0 hf p0 hp0 k1 (by simp [widthOf, hp0t])
    · exact h1

mutual

theorem declareStmt_bl : (s0 : AStmt) → (s : AStmt) → SimS ds N L s0 s → (∀ b ∈ boundS s0, ∃ d ∈ ds, b ∈ boundD d) →
    {decl : Key → Option Decl} → DeclsBl ds N decl → DeclsBl ds N (Ana.declareStmt s decl)
  | .const_ k0 _ _ ty e, _, .const_ h1 _ _ h4, hb, decl, h => by
    obtain ⟨d, hd, hbd⟩ := hb ⟨false, k0, ty, some e⟩ (by simp [boundS])
    refine h.add ?_
    rw [h1]
    exact ⟨⟨d, hd, _, hbd, rfl, rfl⟩, h4⟩
  | .let_ k0 _ _ ty e, _, .let_ h1 _ _ h4, hb, decl, h => by
    obtain ⟨d, hd, hbd⟩ := hb ⟨true, k0, ty, e⟩ (by simp [boundS])
    refine h.add ?_
    rw [h1]
    exact ⟨⟨d, hd, _, hbd, rfl, rfl⟩, h4⟩
  | .staticAssert .., _, .staticAssert .., _, decl, h => h
  | .ifThen _ _ _ t, _, .ifThen _ _ h3, hb, decl, h => declareStmt_bl t _ h3 (by simpa only [boundS] using hb) h
  | .ifElse _ _ _ t e, _, .ifElse _ _ h3 h4, hb, decl, h => by
    simp only [boundS, List.mem_append] at hb
    exact declareStmt_bl e _ h4 (fun b h => hb b (.inr h)) (declareStmt_bl t _ h3 (fun b h => hb b (.inl h)) h)
  | .while_ _ _ _ t, _, .while_ _ _ h3, hb, decl, h => declareStmt_bl t _ h3 (by simpa only [boundS] using hb) h
  | .control .., _, .control .., _, decl, h => h
  | .assign .., _, .assign .., _, decl, h => h
  | .block _ _ ss, _, .block h1, hb, decl, h => declareStmts_bl ss _ h1 (by simpa only [boundS] using hb) h
  | .call .., _, .call .., _, decl, h => h

theorem declareStmts_bl : (ss0 : List AStmt) → (ss : List AStmt) → SimSs ds N L ss0 ss →
    (∀ b ∈ boundSs ss0, ∃ d ∈ ds, b ∈ boundD d) →
    {decl : Key → Option Decl} → DeclsBl ds N decl → DeclsBl ds N (Ana.declareStmts ss decl)
  | [], _, .nil, _, decl, h => h
  | s :: ss, _, .cons h1 h2, hb, decl, h => by
    simp only [boundSs, List.mem_append] at hb
    exact declareStmts_bl ss _ h2 (fun b h => hb b (.inr h)) (declareStmt_bl s _ h1 (fun b h => hb b (.inl h)) h)

end

theorem lives_add {f : AFn} : Lives s (Ana.addFunction f s) := by
  intro j hj
  unfold Live Ana.addFunction at *
  simp only
  split
  · simp
  · exact hj

theorem live_add {f : AFn} : Live (Ana.addFunction f s) f.k := by
  unfold Live Ana.addFunction
  simp

/-- Declarations of a new function are as they should be. -/
theorem addFunction_decls {f f0 : AFn} (hf : .function f0 ∈ ds) (hs : SimF ds N L f0 f) (hw : ∀ p ∈ f.params, WidthKnown p)
    (h : DeclsBl ds N s.decl) : DeclsBl ds N (Ana.addFunction f s).decl :=
  declareStmts_bl f0.body f.body hs.body (fun b hb => ⟨_, hf, hb⟩)
    (declareParams_bl hf f0.params f.params hs.params (fun _ h => h) hw h)

/-! ## Calls -/

/-- An error at the node, or elsewhere in the program. -/
def ErrAt (ds : List ADecl) (N : Nat) (E : ACode → Key → Prop) (e : AErr) : Prop :=
  E e.code (e.fail % N) ∨ Breaks ds e.code (e.fail % N)

theorem ErrAt.mono {E E' : ACode → Key → Prop} (h : ∀ c k, E c k → E' c k) {e : AErr} (he : ErrAt ds N E e) : ErrAt ds N E' e :=
  he.imp (h _ _) id

theorem deduce_bl {E : AErr → Prop} {c : Bool} : (as0 as : List AExpr) → SimEs ds N L c as0 as → (ps0 ps : List AParam) →
    {L' : Key → Prop} → List.Forall₂ (SimP ds N L') ps0 ps →
    (∀ a0 p0 t k, (a0, p0) ∈ as0.zip ps0 → widthOf p0 ≠ none → Has ds c a0 t → t.isUint = false → k % N = a0.key →
      E ⟨.width_deduction_from_non_uint, k⟩) →
    Bl E (fun _ s' => s' = s) (Ana.deduce as ps) s
  | [], _, .nil, _, _, _, _, _ => by simp only [Ana.deduce]; exact .pure rfl
  | a0 :: as0, a :: as, .cons ha has, _, [], _, .nil, _ => by simp only [Ana.deduce]; exact .pure rfl
  | a0 :: as0, a :: as, .cons ha has, p0 :: ps0, p :: ps, _, .cons hp hps, hE => by
    have ih := deduce_bl (E := E) as0 as has ps0 ps hps fun a0 p0 t k h => hE a0 p0 t k (by simp [h])
    unfold Ana.deduce
    refine .assert_bind fun _ => ?_
    split
    · exact .throws
    · exact ih
    · next k cv ki cvi name ref he =>
      refine .value_bind fun v hv => .ite (fun hu => .fail ?_) fun _ => ih.bind fun ws s' hs => .pure hs
      refine hE a0 p0 v.type _ (by simp) ?_ (ha.has hv) (by simpa using hu) ha.key
      have ht := hp.2
      rw [he] at ht
      cases hp0t : p0.type with
      | base => rw [hp0t] at ht; cases ht
      | uint k0 cv0 n0 w0 =>
        rw [hp0t] at ht
        cases ht with
        | uint h1 => cases h1 with | id => simp [widthOf, hp0t]
    · exact ih

theorem Inst_noErr {P : AInstance × Option AFn → Prop} {o : Outcome AErr (AInstance × Option AFn)} (h : OBl P o) (e : AErr) : o ≠ .err e := by
  rintro rfl
  exact h

theorem callee_bl {E : AErr → Prop} (hg : BGiven ds N) (h : BInv ds N s) {j : Key} {f f0 : AFn} (hfn : s.fns j = some f)
    (hf : FnBl ds N (Live s) j f f0) {c : Bool} {as0 as : List AExpr} (ha : SimEs ds N L c as0 as)
    (hE : ∀ a0 p0 t k, f0.generic = true → (a0, p0) ∈ as0.zip f0.params → widthOf p0 ≠ none → Has ds c a0 t → t.isUint = false →
      k % N = a0.key → E ⟨.width_deduction_from_non_uint, k⟩) :
    Bl E (fun j' s' => BInv ds N s' ∧ Lives s s' ∧ j' % N = f0.k ∧ Live s' j') (Ana.callee f as) s := by
  unfold Ana.callee
  refine .ite (fun hgen => ?_) fun _ => ?_
  · obtain ⟨is, hfe⟩ := hf.unchanged hgen
    have hlt := (hf.generic.1 hgen).1
    have hgen0 := (hf.generic.1 hgen).2
    have hk : f0.k = j := by rw [← hf.mod, low_self hlt]
    refine .assert_bind fun _ => ?_
    refine (deduce_bl (E := E) as0 as ha f0.params f.params hf.sim.params fun a0 p0 t k => hE a0 p0 t k hgen0).bind fun ws s' hs => ?_
    subst hs
    refine .read_bind ?_
    let L' : Key → Prop := fun i => Live s' i ∨ i = f0.k + s'.next
    have hi := instance_sim (L := L') hg hf.mem is ws h.next.2 (.inr rfl)
    rw [← hfe] at hi
    refine .get_bind (Inst_noErr hi) fun r hr => ?_
    rw [hr] at hi
    obtain ⟨i, o⟩ := r
    cases o with
    | none =>
      refine .pure ⟨h, fun _ h => h, ?_⟩
      rcases hi with ⟨-, hi⟩ | ⟨g, hi, -⟩
      · have := hf.sim.instances i (by rw [hfe]; exact hi)
        exact this
      · cases hi
    | some g =>
      rcases hi with ⟨hi, -⟩ | ⟨g', hi, h1, h2, h3, h4, h5⟩
      · cases hi
      · cases hi
        simp only at h1
        refine .modify_bind (.modify_bind ?_)
        simp only
        generalize hs1 : ({ Ana.addFunction g s' with next := s'.next + s'.next } : ASt) = s1
        have hN : s1.next = s'.next + s'.next := by rw [← hs1]
        have hfns : s1.fns = (Ana.addFunction g s').fns := by rw [← hs1]
        have hdecl : s1.decl = (Ana.addFunction g s').decl := by rw [← hs1]
        have hl1 : Lives s' s1 := by
          intro j hj
          unfold Live
          rw [hfns]
          exact lives_add j hj
        have hlg : Live s1 g.k := by
          unfold Live
          rw [hfns]
          exact live_add
        have hL' : ∀ i, L' i → Live s1 i := by
          rintro i (hi | rfl)
          · exact hl1 i hi
          · rw [← h2]; exact hlg
        have hgs : SimF ds N (Live s1) f0 g := h5.mono hL'
        have hle : N ≤ g.k := by rw [h2]; have := h.next.1; omega
        have hinv : BInv ds N s1 := by
          refine ⟨⟨?_, ?_⟩, fun k f' hk' => ?_, fun f hf => hl1 _ (h.all f hf), ?_⟩
          · rw [hN]; have := h.next.1; omega
          · rw [hN, Nat.add_mod, h.next.2]; simp
          · rw [hfns] at hk'
            simp only [Ana.addFunction] at hk'
            split at hk'
            · next he =>
              cases hk'
              refine ⟨f0, hf.mem, he.symm, hgs, ?_, ?_⟩
              · rw [h3, he]
                constructor
                · intro hx; cases hx
                · intro hx; exact absurd hx.1 (Nat.not_lt.2 hle)
              · rw [h3]; intro hx; cases hx
            · obtain ⟨f1, hf1⟩ := h.fns k f' hk'
              exact ⟨f1, hf1.mono hl1⟩
          · rw [hdecl]
            exact addFunction_decls hf.mem hgs h4 h.decls
        have hfin : BInv ds N (s1.setFn f.k { f with instances := f.instances ++ [i] }) := by
          refine hinv.setFn (f0 := f0) ⟨hf.mem, rfl, ⟨hf.sim.k, ?_, ?_, ?_, ?_, hf.sim.cv, ?_⟩, ?_, ?_⟩
          · exact simPs_mono (fun j hj => lives_setFn _ (hl1 j hj)) hf.sim.params
          · exact SimT.mono (fun j hj => lives_setFn _ (hl1 j hj)) _ _ hf.sim.ret
          · exact hf.sim.reqs.sim_mono (SimE.mono (fun j hj => lives_setFn _ (hl1 j hj)))
          · exact SimSs.mono (fun j hj => lives_setFn _ (hl1 j hj)) _ _ hf.sim.body
          · intro i' hi'
            simp only [List.mem_append, List.mem_singleton] at hi'
            rcases hi' with hi' | rfl
            · obtain ⟨h6, h7⟩ := hf.sim.instances i' hi'
              exact ⟨h6, lives_setFn _ (hl1 _ h7)⟩
            · exact ⟨by rw [← h1]; exact hgs.k, by rw [← h1]; exact lives_setFn _ hlg⟩
          · rw [hf.key]; exact hf.generic
          · intro _
            exact ⟨is ++ [i], by rw [hfe]⟩
        refine .pure ⟨hfin, fun j hj => lives_setFn _ (hl1 j hj), ?_, ?_⟩
        · rw [← h1]; exact hgs.k
        · rw [← h1]; exact lives_setFn _ hlg
  · refine .pure ⟨h, fun _ h => h, hf.sim.k, ?_⟩
    unfold Live
    rw [hf.key, hfn]
    simp

theorem passArgs_bl {E : AErr → Prop} {c : Bool} {k : Key} {ctx : ECtx} : (as0 as : List AExpr) → SimEs ds N L c as0 as →
    (ps0 ps : List AParam) → {L' : Key → Prop} → List.Forall₂ (SimP ds N L') ps0 ps →
    (∀ a0 p0 t u, (a0, p0) ∈ as0.zip ps0 → Has ds c a0 t → Stands p0.type u → t.isConvertibleTo u = false →
      E ⟨.check .incompatible_types, k⟩) →
    (∀ a0 p0 v u x, ctx = .constant → (a0, p0) ∈ as0.zip ps0 → Has ds c a0 v.type → Stands p0.type u → evalConversionV v u = .err x →
      E ⟨.evaluation x, k⟩) →
    Bl E (fun _ s' => s' = s) (Ana.passArgs k ctx as ps) s
  | [], _, .nil, _, _, _, _, _, _ => by simp only [Ana.passArgs]; exact .pure rfl
  | a0 :: as0, a :: as, .cons ha has, _, [], _, .nil, _, _ => by simp only [Ana.passArgs]; exact .pure rfl
  | a0 :: as0, a :: as, .cons ha has, p0 :: ps0, p :: ps, _, .cons hp hps, hE, hE' => by
    have ih := passArgs_bl (E := E) (k := k) (ctx := ctx) as0 as has ps0 ps hps
      (fun a0 p0 t u h => hE a0 p0 t u (by simp [h])) (fun a0 p0 t u x hc h => hE' a0 p0 t u x hc (by simp [h]))
    unfold Ana.passArgs
    refine .get_bind (concreteType_noErr _) fun o ho => .value_bind fun t ht => .value_bind fun v hv => ?_
    subst ht
    have hst := hp.2.concrete ho
    have hh := ha.has hv
    refine .ite (fun hc => .fail ?_) fun _ => ?_
    · exact hE a0 p0 v.type t (by simp) hh hst (by simpa using hc)
    · cases hx : evalConversionV v t with
      | ok w =>
        simp only
        refine .ite (fun _ => .get_bind (concrete_noErr _) fun _ _ => ih.bind fun _ _ hs => .pure hs) fun _ => ih
      | err x =>
        simp only
        exact .ite (fun hc => .fail (hE' a0 p0 v t x hc (by simp) hh hst hx)) fun _ => ih
      | throws => exact .throws
      | ub => exact .ub

/-- Analysis of functions only reports errors of the program. -/
def AfBl (ds : List ADecl) (N : Nat) (af : Key → Level → AM Unit) : Prop :=
  ∀ j level s, BInv ds N s → Bl (ErrAt ds N fun _ _ => False) (fun _ s' => BInv ds N s' ∧ Lives s s') (af j level) s

theorem callFunction_bl (hg : BGiven ds N) {n : Nat} {af : Key → Level → AM Unit} (haf : AfBl ds N af) {k j k0 j0 : Key}
    (hk : k % N = k0) (hj : j % N = j0) (hl : IsFn ds j0 → Live s j) {c : Bool} {as0 as : List AExpr} (ha : SimEs ds N L c as0 as)
    {level : Level} {ctx : ECtx} (hctx : ctx = .constant → c = true) (h : BInv ds N s) {cv0 : Option Value} {st : Bool} {name : Name} :
    Bl (ErrAt ds N (BreaksE ds c (.call k0 cv0 st name (some (.node j0)) as0)))
      (fun r s' => BInv ds N s' ∧ Lives s s' ∧ r.1 % N = j0 ∧ Live s' r.1 ∧ Has ds c (.call k0 cv0 st name (some (.node j0)) as0) r.2.type)
      (Ana.callFunction n af k j as level ctx) s := by
  unfold Ana.callFunction
  refine .read_bind ?_
  cases hfn : s.fns j with
  | none =>
    refine .fail (.inl ?_)
    show BreaksE ds c _ _ (k % N)
    rw [hk]
    exact .noFunction fun hf => hl hf hfn
  | some f =>
    obtain ⟨f0, hf⟩ := h.fns j f hfn
    have hj0 : j0 = f0.k := by rw [← hj]; exact hf.mod
    subst hj0
    simp only
    refine .ite (fun hn => .fail (.inl ?_)) fun _ => ?_
    · show BreaksE ds c _ _ (k % N)
      rw [hk]
      refine .number hf.mem ?_
      rw [← forall₂_length hf.sim.params, ← ha.length]
      exact hn
    · refine (callee_bl (E := ErrAt ds N (BreaksE ds c (.call k0 cv0 st name (some (.node f0.k)) as0))) hg h hfn hf ha ?_).bind
        fun j' s1 h1 => ?_
      · intro a0 p0 t ka hgen hm hw ht hu hka
        refine .inl ?_
        show BreaksE ds c _ _ (ka % N)
        rw [hka]
        exact .noWidth hf.mem hgen hm hw ht hu
      · obtain ⟨hi1, hl1, hj1, hlive1⟩ := h1
        refine .read_bind (.value_bind fun f1 hf1 => .assert_bind fun _ => ?_)
        refine .ite (fun _ => .fail (.inl ?_)) fun _ => ?_
        · show BreaksE ds c _ _ (k % N)
          rw [hk]
          exact .recursion hf.mem
        · refine ((haf j' _ s1 hi1).mono (fun e he => he.mono fun _ _ h => h.elim) fun _ _ h => h).bind fun _ s2 h2 => ?_
          obtain ⟨hi2, hl2⟩ := h2
          refine .read_bind (.value_bind fun f2 hf2 => .assert_bind fun _ => .deref_bind fun r hr => ?_)
          obtain ⟨f0', hf2'⟩ := hi2.fns j' f2 hf2
          have he : f0' = f0 := hg.unique hf2'.mem hf.mem (by rw [← hf2'.mod, hj1])
          subst he
          have hlive2 := hl2 _ hlive1
          have hpass := passArgs_bl (E := ErrAt ds N (BreaksE ds c (.call k0 cv0 st name (some (.node f0'.k)) as0))) (s := s2) (k := k)
            (ctx := ctx) as0 as ha f0'.params f2.params hf2'.sim.params
            (fun a0 p0 t u hm ht hu hc => .inl (by
              show BreaksE ds c _ _ (k % N)
              rw [hk]
              exact .passed hf.mem hm ht hu hc))
            (fun a0 p0 v u x hc hm ht hu hx => .inl (by
              show BreaksE ds c _ _ (k % N)
              rw [hk]
              obtain rfl := hctx hc
              exact .passedValue hf.mem hm ht hu hx))
          refine .ite (fun hc => ?_) fun hc => ?_
          · refine .value_bind fun a _ => .assert_bind fun _ => hpass.bind fun cs s3 hs3 => ?_
            subst hs3
            obtain rfl := hctx hc
            cases constantCall { Vm.initial with instructions := s3.code } a cs n with
            | none => exact .timeout
            | some r =>
              cases r with
              | ok v =>
                refine .pure ⟨hi2, fun j hj => hl2 j (hl1 j hj), hj1, hlive2, ?_⟩
                simp only [Has, TypeE]
                exact .inr ⟨f0', rfl, hf.mem, .inl trivial⟩
              | err x =>
                refine .fail (.inl ?_)
                show BreaksE ds true _ _ (k % N)
                rw [hk]
                exact .execution hf.mem
              | throws => exact .throws
              | ub => exact .ub
          · refine hpass.bind fun cs s3 hs3 => ?_
            subst hs3
            refine .pure ⟨hi2, fun j hj => hl2 j (hl1 j hj), hj1, hlive2, ?_⟩
            simp only [Has, TypeE]
            exact .inr ⟨f0', rfl, hf.mem, .inr (hf2'.sim.cv r hr)⟩

/-! ## Expressions -/

theorem literal_bl {c : Bool} {k0 k : Key} {cv0 cv : Option Value} {l : Option Lit} (hk : k % N = k0) (hv : ∀ v, cv = some v → LitIs l v) :
    Bl (ErrAt ds N (BreaksE ds c (.literal k0 cv0 l))) (fun e' s' => s' = s ∧ SimE ds N (Live s) c (.literal k0 cv0 l) e')
      (Ana.literal k cv l) s := by
  unfold Ana.literal
  cases cv with
  | some v => exact .assert_bind fun _ => .pure ⟨rfl, .literal hk hv⟩
  | none =>
    simp only
    cases l with
    | none => exact .throws
    | some l =>
      cases l with
      | true_ => exact .pure ⟨rfl, .literal hk fun v hv => by cases hv; exact .inl ⟨rfl, rfl⟩⟩
      | false_ => exact .pure ⟨rfl, .literal hk fun v hv => by cases hv; exact .inr (.inl ⟨rfl, rfl⟩)⟩
      | integer text =>
        simp only
        cases hp : parseIntegerLiteral text with
        | none =>
          refine .fail (.inl ?_)
          show BreaksE ds c _ _ (k % N)
          rw [hk]
          exact .literal hp
        | some x => exact .pure ⟨rfl, .literal hk fun v hv => by cases hv; exact .inr (.inr ⟨text, x, rfl, hp, rfl⟩)⟩

theorem idValue_bl (h : BInv ds N s) {c : Bool} {k0 k : Key} {cv0 : Option Value} {name : Name} {r0 r : Option Lookup} {g : Bool}
    (hk : k % N = k0) (hr : SimR ds N L r0 r) {ctx : ECtx} (hctx : ctx = .constant → c = true) :
    Bl (ErrAt ds N (BreaksE ds c (.id k0 cv0 name r0 g)))
      (fun cv s' => s' = s ∧ ∀ v, cv = some v → Has ds c (.id k0 cv0 name r0 g) v.type) (Ana.idValue k r ctx) s := by
  unfold Ana.idValue
  have hF : ∀ {code : ACode}, BreaksE ds c (.id k0 cv0 name r0 g) code k0 →
      ErrAt ds N (BreaksE ds c (.id k0 cv0 name r0 g)) ⟨code, k⟩ := by
    intro code hb
    refine .inl ?_
    show BreaksE ds c _ _ (k % N)
    rw [hk]
    exact hb
  cases hr with
  | none => exact .throws
  | builtin => exact .throws
  | @param p p0 hp =>
    refine .ite (fun hc => .fail (hF ?_)) fun _ => .read_bind ?_
    · obtain rfl := hctx hc
      exact .param
    · cases hd : s.decl p with
      | none => exact .throws
      | some d =>
        refine .pure ⟨rfl, fun v hv => ?_⟩
        have hb := h.decls p d hd
        simp only [Has, TypeE]
        refine .inr ⟨p0, .inr rfl, ?_⟩
        rw [hp] at hb
        obtain ⟨kind, cv⟩ := d
        simp only at hv
        subst hv
        cases kind with
        | let_ => exact hb.2 v rfl
        | const_ => exact hb.2 v rfl
        | param => exact hb v rfl
        | width => exact (hb v rfl).1
  | @node j j0 hj hl =>
    refine .read_bind ?_
    cases hfn : s.fns j with
    | some f =>
      refine .fail (hF (.function ?_))
      have := h.isFn hfn
      rw [hj] at this
      exact this
    | none =>
      simp only
      cases hd : s.decl j with
      | none => exact .throws
      | some d =>
        have hb := h.decls j d hd
        rw [hj] at hb
        obtain ⟨kind, cv⟩ := d
        have hH : ∀ v : Value, VarType ds j0 v.type → Has ds c (.id k0 cv0 name (some (.node j0)) g) v.type := by
          intro v hv
          simp only [Has, TypeE]
          exact .inr ⟨j0, .inl rfl, hv⟩
        cases kind with
        | param => exact .throws
        | let_ =>
          simp only
          refine .ite (fun hc => .fail (hF ?_)) fun _ => ?_
          · obtain rfl := hctx hc
            exact .variable hb.1
          · cases cv with
            | none => exact .fail (hF (.noVariable hb.1))
            | some v => exact .pure ⟨rfl, fun w hw => by cases hw; exact hH v (hb.2 v rfl)⟩
        | const_ =>
          cases cv with
          | none => exact .fail (hF (.noConstant hb.1))
          | some v => exact .pure ⟨rfl, fun w hw => by cases hw; exact hH v (hb.2 v rfl)⟩
        | width =>
          cases cv with
          | none => exact .throws
          | some v =>
            simp only
            refine .ite (fun hc => ?_) fun _ => ?_
            · exact absurd (hb v rfl).2 hc.2
            · exact .pure ⟨rfl, fun w hw => by cases hw; exact hH v (hb v rfl).1⟩

theorem rightContext_bl {E : AErr → Prop} {k : Key} {op : ExprType} {left : Option Value} {ctx : ECtx}
    (hE : ∀ v, ctx = .constant → (op = .logical_and ∨ op = .logical_or) → left = some v → v.type ≠ .bool → E ⟨.non_bool_logical, k⟩) :
    Bl E (fun ctx' s' => s' = s ∧ (ctx' = .constant → ctx = .constant)) (Ana.rightContext k op left ctx) s := by
  unfold Ana.rightContext
  refine .ite (fun hc => ?_) fun _ => .pure ⟨rfl, id⟩
  refine .deref_bind fun l hl => .ite (fun hb => .fail ?_) fun _ => .get_bind (asBool_noErr _) fun b _ => .pure ⟨rfl, fun _ => hc.1⟩
  exact hE l hc.1 (by simpa [Gen.isShortCircuit] using hc.2) hl hb

theorem values_bl {E : AErr → Prop} {c : Bool} : (as0 as : List AExpr) → SimEs ds N L c as0 as →
    Bl E (fun vs s' => s' = s ∧ TypeEs (VarType ds) ds c as0 (vs.map Value.type)) (as.mapM fun (a : AExpr) => AM.value a.cv) s
  | [], _, .nil => by
    rw [List.mapM_nil]
    exact .pure ⟨rfl, by simp [TypeEs]⟩
  | a0 :: as0, a :: as, .cons ha has => by
    rw [List.mapM_cons]
    refine .value_bind fun v hv => (values_bl as0 as has).bind fun vs s' h => .pure ⟨h.1, ?_⟩
    simp only [TypeEs, List.map_cons]
    exact ⟨_, _, rfl, ha.has hv, h.2⟩

mutual

theorem exprA_bl (hg : BGiven ds N) {n : Nat} {af : Key → Level → AM Unit} (haf : AfBl ds N af) : (e0 : AExpr) → (e : AExpr) →
    (c : Bool) → (level : Level) → (ctx : ECtx) → (s : ASt) → SimE ds N (Live s) c e0 e → (ctx = .constant → c = true) → BInv ds N s →
    Bl (ErrAt ds N (BreaksE ds c e0)) (fun e' s' => BInv ds N s' ∧ Lives s s' ∧ SimE ds N (Live s') c e0 e') (Ana.expr n af e level ctx) s
  | .literal k0 _ l, e, c, level, ctx, s, hs, hctx, h => by
    cases hs with | literal h1 h2 =>
    simp only [Ana.expr]
    refine (literal_bl h1 h2).mono (fun _ h => h) fun e' s' h' => ?_
    obtain ⟨rfl, h'⟩ := h'
    exact ⟨h, fun _ h => h, h'⟩
  | .id k0 cv0 name r0 g, e, c, level, ctx, s, hs, hctx, h => by
    cases hs with | @id _ _ k _ cv _ _ r _ h1 h2 h3 =>
    simp only [Ana.expr]
    cases cv with
    | some v => exact .pure ⟨h, fun _ h => h, .id h1 h2 h3⟩
    | none =>
      refine (idValue_bl (name := name) (cv0 := cv0) (g := g) h h1 h2 hctx).bind fun cv s' h' => ?_
      obtain ⟨rfl, h'⟩ := h'
      exact .pure ⟨h, fun _ h => h, .id h1 h2 h'⟩
  | .conversion k0 cv0 e0 t0, e, c, level, ctx, s, hs, hctx, h => by
    cases hs with | @conversion _ _ k _ cv _ e _ t h1 h2 h3 h4 =>
    simp only [Ana.expr]
    refine ((exprA_bl hg haf e0 e c level ctx s h2 hctx h).mono (fun _ h => h.mono fun _ _ => .conversionOperand) fun _ _ h => h).bind
      fun e' s1 h' => ?_
    obtain ⟨i1, l1, he⟩ := h'
    refine ((typeA_bl hg haf t0 t s1 (SimT.mono l1 _ _ h3) i1).mono (fun _ h => h.mono fun _ _ => .conversionType) fun _ _ h => h).bind
      fun t' s2 h' => ?_
    obtain ⟨i2, l2, ht⟩ := h'
    refine .value_bind fun v hv => .get_bind (concreteType_noErr _) fun o ho => .value_bind fun u hu => ?_
    subst hu
    have hs := ht.concrete ho
    refine .ite (fun hc => .fail (.inl ?_)) fun _ => .fold_bind (fun _ hf => by cases hf) fun w hw => .pure ⟨i2, l1.trans l2, ?_⟩
    · show BreaksE ds c _ _ (k % N)
      rw [h1]
      exact .conversion (he.has hv) hs (by simpa using hc)
    · refine .conversion h1 (SimE.mono l2 _ _ he) ht fun w' hw' => ?_
      cases hw'
      rw [folds_conversion_type hw]
      simp only [Has, TypeE]
      exact hs
  | .ite k0 cv0 l0 b0 r0, e, c, level, ctx, s, hs, hctx, h => by
    cases hs with | @ite _ _ k _ cv _ l _ b _ r h1 h2 h3 h4 h5 =>
    simp only [Ana.expr]
    refine ((exprA_bl hg haf b0 b c level ctx s h3 hctx h).mono (fun _ h => h.mono fun _ _ => .branchCond) fun _ _ h => h).bind
      fun b' s1 h' => ?_
    obtain ⟨i1, l1, hb⟩ := h'
    refine .deref_bind fun vb hvb => .ite (fun hc => .fail (.inl ?_)) fun hbool => ?_
    · show BreaksE ds c _ _ (k % N)
      rw [h1]
      exact .condition (hb.has hvb) hc
    · have hbool : vb.type = .bool := by simpa using hbool
      refine .ite (fun _ => .assert_bind fun _ => .get_bind (asBool_noErr _) fun _ _ => ?_) fun _ => ?_
      all_goals
        refine .pure_bind ?_
        refine ((exprA_bl hg haf l0 l c level _ s1 (SimE.mono l1 _ _ h2) (fun hx => hctx ?_) i1).mono
          (fun _ h => h.mono fun _ _ => .branchLeft) fun _ _ h => h).bind fun l' s2 h' => ?_
        · split at hx
          · cases hx
          · exact hx
        obtain ⟨i2, l2, hl⟩ := h'
        refine ((exprA_bl hg haf r0 r c level _ s2 (SimE.mono (l1.trans l2) _ _ h4) (fun hx => hctx ?_) i2).mono
          (fun _ h => h.mono fun _ _ => .branchRight) fun _ _ h => h).bind fun r' s3 h' => ?_
        · split at hx
          · cases hx
          · exact hx
        obtain ⟨i3, l3, hr⟩ := h'
        refine .deref_bind fun vl hvl => .deref_bind fun vr hvr => .checked_bind (fun x hx => .inl ?_) fun t ht => ?_
        · show BreaksE ds c _ _ (k % N)
          rw [h1]
          have hhb := hb.has hvb
          rw [hbool] at hx hhb
          exact .branches (hl.has hvl) hhb (hr.has hvr) hx
        · have hfin : ∀ w : Value, w.type = t → SimE ds N (Live s3) c (.ite k0 cv0 l0 b0 r0) (.ite k (some w) l' b' r') := by
            intro w hw
            refine .ite h1 (SimE.mono l3 _ _ hl) (SimE.mono (l2.trans l3) _ _ hb) hr fun w' hw' => ?_
            cases hw'
            rw [hw]
            simp only [Has, TypeE]
            exact ⟨_, _, _, hl.has hvl, hb.has hvb, hr.has hvr, ht⟩
          cases hx : evalIfV vl vb vr with
          | ok w => exact .pure ⟨i3, l1.trans (l2.trans l3), hfin w (evalIfV_type hx ht)⟩
          | err x =>
            simp only
            exact .ite (fun _ => .throws) fun _ => .pure ⟨i3, l1.trans (l2.trans l3), hfin _ rfl⟩
          | throws => exact .throws
          | ub => exact .ub
  | .binary k0 cv0 op l0 r0, e, c, level, ctx, s, hs, hctx, h => by
    cases hs with | @binary _ _ k _ cv _ _ l _ r h1 h2 h3 h4 =>
    simp only [Ana.expr]
    refine ((exprA_bl hg haf l0 l c level ctx s h2 hctx h).mono (fun _ h => h.mono fun _ _ => .binaryLeft) fun _ _ h => h).bind
      fun l' s1 h' => ?_
    obtain ⟨i1, l1, hl⟩ := h'
    refine .assert_bind fun _ => ?_
    refine (rightContext_bl (E := ErrAt ds N (BreaksE ds c (.binary k0 cv0 op l0 r0))) fun v hc ho hv hb => .inl ?_).bind fun ctx' s' h' => ?_
    · show BreaksE ds c _ _ (k % N)
      rw [h1]
      obtain rfl := hctx hc
      exact .logical ho (hl.has hv) hb
    obtain ⟨rfl, hctx'⟩ := h'
    refine ((exprA_bl hg haf r0 r c level ctx' s' (SimE.mono l1 _ _ h3) (fun hx => hctx (hctx' hx)) i1).mono
      (fun _ h => h.mono fun _ _ => .binaryRight) fun _ _ h => h).bind fun r' s2 h' => ?_
    obtain ⟨i2, l2, hr⟩ := h'
    refine .assert_bind fun _ => .deref_bind fun vl hvl => .deref_bind fun vr hvr => .checked_bind (fun x hx => .inl ?_) fun t ht =>
      .fold_bind (fun x hc hx => .inl ?_) fun w hw => .pure ⟨i2, l1.trans l2, .binary h1 (SimE.mono l2 _ _ hl) hr fun w' hw' => ?_⟩
    · show BreaksE ds c _ _ (k % N)
      rw [h1]
      exact .binary (hl.has hvl) (hr.has hvr) hx
    · show BreaksE ds c _ _ (k % N)
      rw [h1]
      obtain rfl := hctx (hctx' (by simpa using hc))
      exact .binaryValue (hl.has hvl) (hr.has hvr) hx
    · cases hw'
      have hty : w.type = t := hw.type fun _ hx => evalBinaryV_result ht hx
      rw [hty]
      simp only [Has, TypeE]
      exact ⟨_, _, hl.has hvl, hr.has hvr, ht⟩
  | .prefix k0 cv0 op e0, e, c, level, ctx, s, hs, hctx, h => by
    cases hs with | @pre _ _ k _ cv _ _ e h1 h2 h3 =>
    simp only [Ana.expr]
    refine ((exprA_bl hg haf e0 e c level ctx s h2 hctx h).mono (fun _ h => h.mono fun _ _ => .preOperand) fun _ _ h => h).bind
      fun e' s1 h' => ?_
    obtain ⟨i1, l1, he⟩ := h'
    refine .value_bind fun v hv => .checked_bind (fun x hx => .inl ?_) fun t ht =>
      .fold_bind (fun x hc hx => .inl ?_) fun w hw => .pure ⟨i1, l1, .pre h1 he fun w' hw' => ?_⟩
    · show BreaksE ds c _ _ (k % N)
      rw [h1]
      exact .pre (he.has hv) hx
    · show BreaksE ds c _ _ (k % N)
      rw [h1]
      obtain rfl := hctx (by simpa using hc)
      exact .preValue (he.has hv) hx
    · cases hw'
      have hty : w.type = t := hw.type fun _ hx => evalUnaryV_result ht hx
      rw [hty]
      simp only [Has, TypeE]
      exact ⟨_, he.has hv, ht⟩
  | .call k0 cv0 st name r0 as0, e, c, level, ctx, s, hs, hctx, h => by
    cases hs with | @call _ _ k _ cv _ _ _ r _ as h1 h2 h3 h4 =>
    simp only [Ana.expr]
    have hargs : Bl (ErrAt ds N (BreaksE ds c (.call k0 cv0 st name r0 as0)))
        (fun e' s' => BInv ds N s' ∧ Lives s s' ∧ SimEs ds N (Live s') c as0 e') (Ana.exprs n af as level ctx) s := by
      refine (exprsA_bl hg haf as0 as c level ctx s h3 hctx h).mono (fun e he => he.mono fun code j hb => ?_) fun _ _ h => h
      obtain ⟨a0, ha0, hb⟩ := hb
      exact .argument ha0 hb
    cases h2 with
    | none => exact .throws
    | @builtin b =>
      simp only
      refine hargs.bind fun as' s1 h' => ?_
      obtain ⟨i1, l1, ha⟩ := h'
      refine (values_bl as0 as' ha).bind fun vs s2 h' => ?_
      obtain ⟨rfl, hts⟩ := h'
      refine .checked_bind (fun x hx => .inl ?_) fun t ht => .lift_bind (fun x hx => .inl ?_) fun w hw => ?_
      · show BreaksE ds c _ _ (k % N)
        rw [h1]
        exact .builtin hts hx
      · show BreaksE ds c _ _ (k % N)
        rw [h1]
        exact .builtinValue hts hx
      · refine .pure ⟨i1, l1, .call h1 .builtin ha fun w' hw' => ?_⟩
        cases hw'
        rw [evalBuiltinV_result ht hw]
        simp only [Has, TypeE]
        exact .inl ⟨b, _, trivial, hts, ht⟩
    | param hp =>
      simp only
      exact hargs.bind fun _ _ _ => .ub
    | @node j j0 hj hl =>
      simp only
      refine hargs.bind fun as' s1 h' => ?_
      obtain ⟨i1, l1, ha⟩ := h'
      refine (callFunction_bl hg haf (cv0 := cv0) (st := st) (name := name) h1 hj (fun hf => l1 _ (hl hf)) ha hctx i1).bind
        fun r s2 h' => ?_
      obtain ⟨i2, l2, hr1, hr2, hr3⟩ := h'
      obtain ⟨j', w⟩ := r
      refine .pure ⟨i2, l1.trans l2, .call h1 (.node hr1 fun _ => hr2) (SimEs.mono l2 _ _ ha) fun w' hw' => ?_⟩
      cases hw'
      exact hr3

theorem typeA_bl (hg : BGiven ds N) {n : Nat} {af : Key → Level → AM Unit} (haf : AfBl ds N af) : (t0 : AType) → (t : AType) →
    (s : ASt) → SimT ds N (Live s) t0 t → BInv ds N s →
    Bl (ErrAt ds N (BreaksT ds t0)) (fun t' s' => BInv ds N s' ∧ Lives s s' ∧ SimT ds N (Live s') t0 t') (Ana.type n af t) s
  | .base k0 cv0 b, t, s, hs, h => by
    cases hs with | @base _ k _ cv _ h1 =>
    simp only [Ana.type]
    cases cv with
    | some v => exact .pure ⟨h, fun _ h => h, .base h1⟩
    | none => exact .pure ⟨h, fun _ h => h, .base fun v hv => by cases hv; rfl⟩
  | .uint k0 cv0 n0 w0, t, s, hs, h => by
    cases hs with | @uint _ k _ cv _ m _ w h1 h2 h3 =>
    simp only [Ana.type]
    cases cv with
    | some v => exact .pure ⟨h, fun _ h => h, .uint h1 h2 h3⟩
    | none =>
      simp only
      refine ((exprA_bl hg haf w0 w true .forConst .constant s h1 (fun _ => rfl) h).mono (fun _ h => h.mono fun _ _ => .width)
        fun _ _ h => h).bind fun w' s1 h' => ?_
      obtain ⟨i1, l1, hw⟩ := h'
      refine .value_bind fun v hv => .ite (fun hc => .fail (.inl ?_)) fun _ => .get_bind (asInt_noErr _) fun x hx => ?_
      · show BreaksT ds _ _ (w'.key % N)
        rw [hw.key]
        exact .noInteger (hw.has hv) (by simpa using hc)
      · have hxi : v.type = .int ∧ v.val = some x := by
          unfold Value.asInt at hx
          cases hvv : v.val with
          | none => rw [hvv] at hx; cases hx
          | some y =>
            rw [hvv] at hx
            simp only at hx
            split at hx
            · next ht => cases hx; exact ⟨ht, rfl⟩
            · cases hx
        have hlit : ∀ k cv text, w0 = .literal k cv (some (.integer text)) → parseIntegerLiteral text = some x := by
          intro kl cvl text hwl
          subst hwl
          cases hw with
          | literal hk hlv =>
            rcases hlv v hv with ⟨hl, -⟩ | ⟨hl, -⟩ | ⟨text', y, hl, hp, hvy⟩
            · cases hl
            · cases hl
            · cases hl
              rw [hvy] at hxi
              have := hxi.2
              simp only [Value.known, CVal.ofInt, Option.some.injEq] at this
              rw [← this]
              exact hp
        refine .ite (fun hc => .fail (.inl ?_)) fun _ => .get_bind (mkUint_noErr _) fun t ht => .pure ⟨i1, l1, ?_⟩
        · show BreaksT ds _ _ (w'.key % N)
          rw [hw.key]
          refine .invalid (by have := hw.has hv; rw [hxi.1] at this; exact this) fun kl cvl text hwl => ⟨x, hlit kl cvl text hwl, by omega⟩
        · obtain ⟨rfl, h5, h6, h7⟩ := mkUint_ok ht
          have hst : Stands (.uint k0 cv0 n0 w0) (.uint x.toNat) := by
            refine ⟨x.toNat, rfl, by omega, by omega, fun kl cvl text hwl => ?_⟩
            rw [hlit kl cvl text hwl, Int.toNat_of_nonneg (by omega)]
          refine .uint hw (fun v hv => by cases hv; exact hst) fun y t hy hm => ?_
          cases hy
          obtain ⟨rfl, -⟩ := mkUint_ok hm
          rw [Int.toNat_natCast]
          exact hst

theorem exprsA_bl (hg : BGiven ds N) {n : Nat} {af : Key → Level → AM Unit} (haf : AfBl ds N af) : (es0 : List AExpr) → (es : List AExpr) →
    (c : Bool) → (level : Level) → (ctx : ECtx) → (s : ASt) → SimEs ds N (Live s) c es0 es → (ctx = .constant → c = true) → BInv ds N s →
    Bl (ErrAt ds N (fun code k => ∃ e ∈ es0, BreaksE ds c e code k))
      (fun es' s' => BInv ds N s' ∧ Lives s s' ∧ SimEs ds N (Live s') c es0 es') (Ana.exprs n af es level ctx) s
  | [], es, c, level, ctx, s, hs, hctx, h => by
    cases hs with | nil =>
    simp only [Ana.exprs]
    exact .pure ⟨h, fun _ h => h, .nil⟩
  | e0 :: es0, es, c, level, ctx, s, hs, hctx, h => by
    cases hs with | @cons _ _ e _ es h1 h2 =>
    simp only [Ana.exprs]
    refine ((exprA_bl hg haf e0 e c level ctx s h1 hctx h).mono (fun _ h => h.mono fun _ _ hb => ⟨e0, by simp, hb⟩) fun _ _ h => h).bind
      fun e' s1 h' => ?_
    obtain ⟨i1, l1, he⟩ := h'
    refine .value_bind fun _ _ => ?_
    refine ((exprsA_bl hg haf es0 es c level ctx s1 (SimEs.mono l1 _ _ h2) hctx i1).mono
      (fun _ h => h.mono fun _ _ ⟨a, ha, hb⟩ => ⟨a, by simp [ha], hb⟩) fun _ _ h => h).bind fun es' s2 h' => ?_
    obtain ⟨i2, l2, hes⟩ := h'
    exact .pure ⟨i2, l1.trans l2, .cons (SimE.mono l2 _ _ he) hes⟩

end

end

end Bms
