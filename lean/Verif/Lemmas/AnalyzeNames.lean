import Verif.Lemmas.AnalyzeProgram
import Verif.Lemmas.Scopes

/-!
# What name lookup gives to analysis
-/

namespace Bms

open Spec

/-! ## Trees without bindings -/

mutual

theorem strip_rawE : (e : AExpr) → (RawE (stripE e) ↔ RawE e)
  | .literal .. => by simp [stripE, RawE]
  | .id .. => by simp [stripE, RawE]
  | .conversion _ _ e ty => by simp [stripE, RawE, strip_rawE e, strip_rawT ty]
  | .ite _ _ l c r => by simp [stripE, RawE, strip_rawE l, strip_rawE c, strip_rawE r]
  | .binary _ _ _ l r => by simp [stripE, RawE, strip_rawE l, strip_rawE r]
  | .prefix _ _ _ e => by simp [stripE, RawE, strip_rawE e]
  | .call _ _ _ _ _ args => by simp [stripE, RawE, strip_rawEs args]

theorem strip_rawT : (t : AType) → (RawT (stripT t) ↔ RawT t)
  | .base .. => by simp [stripT, RawT]
  | .uint _ _ _ w => by simp [stripT, RawT, strip_rawE w]

theorem strip_rawEs : (es : List AExpr) → (RawEs (stripEs es) ↔ RawEs es)
  | [] => by simp [stripEs, RawEs]
  | e :: es => by simp [stripEs, RawEs, strip_rawE e, strip_rawEs es]

end

mutual

theorem strip_callFree : (e : AExpr) → (CallFree (stripE e) ↔ CallFree e)
  | .literal .. => by simp [stripE, CallFree]
  | .id .. => by simp [stripE, CallFree]
  | .conversion _ _ e ty => by simp [stripE, CallFree, strip_callFree e, strip_callFreeT ty]
  | .ite _ _ l c r => by simp [stripE, CallFree, strip_callFree l, strip_callFree c, strip_callFree r]
  | .binary _ _ _ l r => by simp [stripE, CallFree, strip_callFree l, strip_callFree r]
  | .prefix _ _ _ e => by simp [stripE, CallFree, strip_callFree e]
  | .call .. => by simp [stripE, CallFree]

theorem strip_callFreeT : (t : AType) → (CallFreeT (stripT t) ↔ CallFreeT t)
  | .base .. => by simp [stripT, CallFreeT]
  | .uint _ _ _ w => by simp [stripT, CallFreeT, strip_callFree w]

end

mutual

theorem strip_keysE : (e : AExpr) → Inst.keysE (stripE e) = Inst.keysE e
  | .literal .. => by simp [stripE, Inst.keysE]
  | .id .. => by simp [stripE, Inst.keysE]
  | .conversion _ _ e ty => by simp [stripE, Inst.keysE, strip_keysE e, strip_keysT ty]
  | .ite _ _ l c r => by simp [stripE, Inst.keysE, strip_keysE l, strip_keysE c, strip_keysE r]
  | .binary _ _ _ l r => by simp [stripE, Inst.keysE, strip_keysE l, strip_keysE r]
  | .prefix _ _ _ e => by simp [stripE, Inst.keysE, strip_keysE e]
  | .call _ _ _ _ _ args => by simp [stripE, Inst.keysE, strip_keysEs args]

theorem strip_keysT : (t : AType) → Inst.keysT (stripT t) = Inst.keysT t
  | .base .. => by simp [stripT, Inst.keysT]
  | .uint _ _ _ w => by simp [stripT, Inst.keysT, strip_keysE w]

theorem strip_keysEs : (es : List AExpr) → Inst.keysEs (stripEs es) = Inst.keysEs es
  | [] => by simp [stripEs, Inst.keysEs]
  | e :: es => by simp [stripEs, Inst.keysEs, strip_keysE e, strip_keysEs es]

end

theorem strip_keysO {α : Type} {st : α → α} {g : α → List Key} (h : ∀ x, g (st x) = g x) (o : Option α) :
    Inst.keysO g (o.map st) = Inst.keysO g o := by
  cases o <;> simp [Inst.keysO, h]

mutual

theorem strip_rawS : (s : AStmt) → (RawS (stripS s) ↔ RawS s)
  | .const_ _ _ _ ty init => by cases ty <;> simp [stripS, RawS, strip_rawE, strip_rawT]
  | .let_ _ _ _ ty init => by cases ty <;> cases init <;> simp [stripS, RawS, strip_rawE, strip_rawT]
  | .staticAssert _ _ e => by simp [stripS, RawS, strip_rawE]
  | .ifThen _ _ c t => by simp [stripS, RawS, strip_rawE, strip_rawS t]
  | .ifElse _ _ c t e => by simp [stripS, RawS, strip_rawE, strip_rawS t, strip_rawS e]
  | .while_ _ _ c b => by simp [stripS, RawS, strip_rawE, strip_rawS b]
  | .control _ _ _ e => by cases e <;> simp [stripS, RawS, strip_rawE]
  | .assign _ _ _ _ e => by simp [stripS, RawS, strip_rawE]
  | .block _ _ ss => by simp [stripS, RawS, strip_rawSs ss]
  | .call e => by cases e <;> simp [stripS, RawS, RawCall, stripE, strip_rawEs]

theorem strip_rawSs : (ss : List AStmt) → (RawSs (stripSs ss) ↔ RawSs ss)
  | [] => by simp [stripSs, RawSs]
  | s :: ss => by simp [stripSs, RawSs, strip_rawS s, strip_rawSs ss]

end

mutual

theorem strip_keysS : (s : AStmt) → Inst.keysS (stripS s) = Inst.keysS s
  | .const_ _ _ _ ty init => by
    simp [stripS, Inst.keysS, strip_keysE, strip_keysO strip_keysT]
  | .let_ _ _ _ ty init => by
    simp [stripS, Inst.keysS, strip_keysO strip_keysE, strip_keysO strip_keysT]
  | .staticAssert _ _ e => by simp [stripS, Inst.keysS, strip_keysE]
  | .ifThen _ _ c t => by simp [stripS, Inst.keysS, strip_keysE, strip_keysS t]
  | .ifElse _ _ c t e => by simp [stripS, Inst.keysS, strip_keysE, strip_keysS t, strip_keysS e]
  | .while_ _ _ c b => by simp [stripS, Inst.keysS, strip_keysE, strip_keysS b]
  | .control _ _ _ e => by simp [stripS, Inst.keysS, strip_keysO strip_keysE]
  | .assign _ _ _ _ e => by simp [stripS, Inst.keysS, strip_keysE]
  | .block _ _ ss => by simp [stripS, Inst.keysS, strip_keysSs ss]
  | .call e => by simp [stripS, Inst.keysS, strip_keysE]

theorem strip_keysSs : (ss : List AStmt) → Inst.keysSs (stripSs ss) = Inst.keysSs ss
  | [] => by simp [stripSs, Inst.keysSs]
  | s :: ss => by simp [stripSs, Inst.keysSs, strip_keysS s, strip_keysSs ss]

end

theorem strip_rawF (f : AFn) : RawFn (stripF f) ↔ RawFn f := by
  constructor
  · intro h
    refine ⟨fun p hp => ?_, ?_, fun e he => ?_, ?_, h.level, h.cv, h.instances⟩
    · have := h.params (stripParam p) (List.mem_map.2 ⟨p, hp, rfl⟩)
      simpa [stripParam, strip_rawT, strip_callFreeT] using this
    · have := h.ret
      simpa [stripF, strip_rawT, strip_callFreeT] using this
    · have := h.reqs (stripE e) (by simp [stripF, Option.mem_def.1 he])
      simpa [strip_rawE] using this
    · have := h.body
      simpa [stripF, strip_rawSs] using this
  · intro h
    refine ⟨fun p hp => ?_, ?_, fun e he => ?_, ?_, h.level, h.cv, h.instances⟩
    · obtain ⟨q, hq, rfl⟩ := List.mem_map.1 hp
      simpa [stripParam, strip_rawT, strip_callFreeT] using h.params q hq
    · simpa [stripF, strip_rawT, strip_callFreeT] using h.ret
    · cases hr : f.requires_ with
      | none => simp [stripF, hr] at he
      | some e0 =>
        simp only [stripF, hr, Option.map_some, Option.mem_def, Option.some.injEq] at he
        subst he
        rw [strip_rawE]
        exact h.reqs e0 hr
    · simpa [stripF, strip_rawSs] using h.body

theorem strip_rawD (d : ADecl) : RawD (stripD d) ↔ RawD d := by
  cases d with
  | const_ k cv name ty init => cases ty <;> simp [stripD, RawD, strip_rawE, strip_rawT]
  | staticAssert k cv e => simp [stripD, RawD, strip_rawE]
  | function f => simp [stripD, RawD, strip_rawF]

theorem strip_nodeKeys (d : ADecl) : nodeKeys (stripD d) = nodeKeys d := by
  cases d with
  | const_ k cv name ty init => simp [stripD, nodeKeys, strip_keysE, strip_keysO strip_keysT]
  | staticAssert k cv e => simp [stripD, nodeKeys, strip_keysE]
  | function f =>
    have h1 : (f.params.map stripParam).flatMap (fun p => Inst.keysT p.type) =
        f.params.flatMap fun p => Inst.keysT p.type := by
      rw [List.flatMap_map]
      congr 1
      funext p
      simp [stripParam, strip_keysT]
    have h2 : (f.params.map stripParam).map AParam.k = f.params.map AParam.k := by
      rw [List.map_map]
      rfl
    simp only [stripD, nodeKeys, Inst.keys, stripF, h1, h2, strip_keysT, strip_keysO strip_keysE,
      strip_keysSs]

/-- Name lookup keeps that nothing is analyzed. -/
theorem rawProgram_strip {ds ds' : List ADecl} {next : Nat} (h : RawProgram ds next)
    (he : ds'.map stripD = ds.map stripD) : RawProgram ds' next := by
  have hk : ds'.flatMap nodeKeys = ds.flatMap nodeKeys := by
    have : ∀ l : List ADecl, l.flatMap nodeKeys = (l.map stripD).flatMap nodeKeys := by
      intro l
      rw [List.flatMap_map]
      congr 1
      funext d
      exact (strip_nodeKeys d).symm
    rw [this ds', this ds, he]
  refine ⟨fun d hd => ?_, hk ▸ h.nodup, hk ▸ h.keys⟩
  have : stripD d ∈ ds.map stripD := he ▸ List.mem_map.2 ⟨d, hd, rfl⟩
  obtain ⟨d0, h0, e0⟩ := List.mem_map.1 this
  rw [← strip_rawD, ← e0, strip_rawD]
  exact h.raw d0 h0

/-! ## References to parameters -/

/-- The place where `r` is used. Parameters that are visible there are also visible from outside. -/
def UsedIn (ρ : Visible) (r : Lookup) (is : List Item) : Prop :=
  ∃ code k name vis fatal, .use code k name (some r) vis fatal ∈ is ∧
    ∀ n j, (n, .param j) ∈ vis → (n, .param j) ∈ ρ

theorem UsedIn.sub {ρ ρ' : Visible} {r : Lookup} {is is' : List Item} (h : UsedIn ρ r is)
    (hs : ∀ i ∈ is, i ∈ is') (hρ : ∀ n j, (n, .param j) ∈ ρ → (n, .param j) ∈ ρ') : UsedIn ρ' r is' := by
  obtain ⟨c, k, n, v, f, h1, h2⟩ := h
  exact ⟨c, k, n, v, f, hs _ h1, fun n j h => hρ n j (h2 n j h)⟩

mutual

theorem usedE {ρ : Visible} {r : Lookup} : (e : AExpr) → r ∈ refsE e → UsedIn ρ r (itemsE ρ e)
  | .literal .., h => by simp [refsE] at h
  | .id k cv name ref g, h => by
    simp only [refsE, Option.mem_toList] at h
    exact ⟨.reference_to_undefined_variable, k, name, ρ, false, by simp [itemsE, Option.mem_def.1 h], fun _ _ h => h⟩
  | .conversion _ _ e ty, h => by
    simp only [refsE, List.mem_append] at h
    rcases h with h | h
    · exact (usedE e h).sub (by simp +contextual [itemsE]) fun _ _ h => h
    · exact (usedT ty h).sub (by simp +contextual [itemsE]) fun _ _ h => h
  | .ite _ _ l c e, h => by
    simp only [refsE, List.mem_append, or_assoc] at h
    rcases h with h | h | h
    · exact (usedE l h).sub (by simp +contextual [itemsE]) fun _ _ h => h
    · exact (usedE c h).sub (by simp +contextual [itemsE]) fun _ _ h => h
    · exact (usedE e h).sub (by simp +contextual [itemsE]) fun _ _ h => h
  | .binary _ _ _ l e, h => by
    simp only [refsE, List.mem_append] at h
    rcases h with h | h
    · exact (usedE l h).sub (by simp +contextual [itemsE]) fun _ _ h => h
    · exact (usedE e h).sub (by simp +contextual [itemsE]) fun _ _ h => h
  | .prefix _ _ _ e, h => by
    simp only [refsE] at h
    exact (usedE e h).sub (by simp +contextual [itemsE]) fun _ _ h => h
  | .call k cv st name ref args, h => by
    simp only [refsE, List.mem_append, Option.mem_toList] at h
    rcases h with h | h
    · exact ⟨.call_to_undefined_function, k, name, ρ, false, by simp [itemsE, Option.mem_def.1 h], fun _ _ h => h⟩
    · exact (usedEs args h).sub (by simp +contextual [itemsE]) fun _ _ h => h

theorem usedT {ρ : Visible} {r : Lookup} : (t : AType) → r ∈ refsT t → UsedIn ρ r (itemsT ρ t)
  | .base .., h => by simp [refsT] at h
  | .uint _ _ _ w, h => by
    simp only [refsT] at h
    exact (usedE w h).sub (by simp +contextual [itemsT]) fun _ _ h => h

theorem usedEs {ρ : Visible} {r : Lookup} : (es : List AExpr) → r ∈ refsEs es → UsedIn ρ r (itemsEs ρ es)
  | [], h => by simp [refsEs] at h
  | e :: es, h => by
    simp only [refsEs, List.mem_append] at h
    rcases h with h | h
    · exact (usedE e h).sub (by simp +contextual [itemsEs]) fun _ _ h => h
    · exact (usedEs es h).sub (by simp +contextual [itemsEs]) fun _ _ h => h

end

theorem after_param : (s : AStmt) → {ρ : Visible} → ∀ n j, (n, .param j) ∈ after ρ s → (n, .param j) ∈ ρ
  | .const_ .., _, n, j, h => by simpa [after] using h
  | .let_ .., _, n, j, h => by simpa [after] using h
  | .staticAssert .., _, n, j, h => by simpa [after] using h
  | .ifThen _ _ _ t, _, n, j, h => after_param t n j (by simpa [after] using h)
  | .ifElse _ _ _ t e, _, n, j, h => after_param t n j (after_param e n j (by simpa [after] using h))
  | .while_ _ _ _ b, _, n, j, h => after_param b n j (by simpa [after] using h)
  | .control .., _, n, j, h => by simpa [after] using h
  | .assign .., _, n, j, h => by simpa [after] using h
  | .block .., _, n, j, h => by simpa [after] using h
  | .call .., _, n, j, h => by simpa [after] using h

mutual

theorem usedS {r : Lookup} : (s : AStmt) → {ρ : Visible} → r ∈ refsS s → UsedIn ρ r (itemsS ρ s)
  | .const_ k cv name ty init, ρ, h => by
    simp only [refsS, List.mem_append] at h
    rcases h with h | h
    · cases ty with
      | none => simp [refsO] at h
      | some t =>
        simp only [refsO] at h
        exact (usedT (ρ := (name, .node k) :: ρ) t h).sub (by simp +contextual [itemsS, itemsO]) (by simp)
    · exact (usedE (ρ := (name, .node k) :: ρ) init h).sub (by simp +contextual [itemsS]) (by simp)
  | .let_ k cv name ty init, ρ, h => by
    simp only [refsS, List.mem_append] at h
    rcases h with h | h
    · cases ty with
      | none => simp [refsO] at h
      | some t =>
        simp only [refsO] at h
        exact (usedT (ρ := (name, .node k) :: ρ) t h).sub (by simp +contextual [itemsS, itemsO]) (by simp)
    · cases init with
      | none => simp [refsO] at h
      | some e =>
        simp only [refsO] at h
        exact (usedE (ρ := (name, .node k) :: ρ) e h).sub (by simp +contextual [itemsS, itemsO]) (by simp)
  | .staticAssert _ _ e, ρ, h => by
    simp only [refsS] at h
    exact (usedE e h).sub (by simp +contextual [itemsS]) fun _ _ h => h
  | .ifThen _ _ c t, ρ, h => by
    simp only [refsS, List.mem_append] at h
    rcases h with h | h
    · exact (usedE c h).sub (by simp +contextual [itemsS]) fun _ _ h => h
    · exact (usedS t h).sub (by simp +contextual [itemsS]) fun _ _ h => h
  | .ifElse _ _ c t e, ρ, h => by
    simp only [refsS, List.mem_append, or_assoc] at h
    rcases h with h | h | h
    · exact (usedE c h).sub (by simp +contextual [itemsS]) fun _ _ h => h
    · exact (usedS t h).sub (by simp +contextual [itemsS]) fun _ _ h => h
    · exact (usedS e (ρ := after ρ t) h).sub (by simp +contextual [itemsS]) (after_param t)
  | .while_ _ _ c b, ρ, h => by
    simp only [refsS, List.mem_append] at h
    rcases h with h | h
    · exact (usedE c h).sub (by simp +contextual [itemsS]) fun _ _ h => h
    · exact (usedS b h).sub (by simp +contextual [itemsS]) fun _ _ h => h
  | .control _ _ _ e, ρ, h => by
    cases e with
    | none => simp [refsS, refsO] at h
    | some e =>
      simp only [refsS, refsO] at h
      exact (usedE e h).sub (by simp +contextual [itemsS, itemsO]) fun _ _ h => h
  | .assign k cv name ref e, ρ, h => by
    simp only [refsS, List.mem_append, Option.mem_toList] at h
    rcases h with h | h
    · exact ⟨.assignment_of_undefined_variable, k, name, ρ, false, by simp [itemsS, Option.mem_def.1 h], fun _ _ h => h⟩
    · exact (usedE e h).sub (by simp +contextual [itemsS]) fun _ _ h => h
  | .block _ _ ss, ρ, h => by
    simp only [refsS] at h
    exact (usedSs ss h).sub (by simp +contextual [itemsS]) fun _ _ h => h
  | .call e, ρ, h => by
    simp only [refsS] at h
    exact (usedE e h).sub (by simp +contextual [itemsS]) fun _ _ h => h

theorem usedSs {r : Lookup} : (ss : List AStmt) → {ρ : Visible} → r ∈ refsSs ss → UsedIn ρ r (itemsSs ρ ss)
  | [], _, h => by simp [refsSs] at h
  | s :: ss, ρ, h => by
    simp only [refsSs, List.mem_append] at h
    rcases h with h | h
    · exact (usedS s h).sub (by simp +contextual [itemsSs]) fun _ _ h => h
    · exact (usedSs ss (ρ := after ρ s) h).sub (by simp +contextual [itemsSs]) (after_param s)

end

theorem afterParams_param : (ps : List AParam) → {ρ : Visible} → {n : Name} → {j : Key} →
    (n, .param j) ∈ afterParams ρ ps → (n, .param j) ∈ ρ ∨ j ∈ ps.map AParam.k
  | [], _, _, _, h => .inl (by simpa [afterParams] using h)
  | p :: ps, ρ, n, j, h => by
    rcases afterParams_param ps (by simpa [afterParams] using h) with h | h
    · have : (n, Lookup.param j) ∈ (p.name, Lookup.param p.k) :: ρ := by
        unfold afterParam at h
        split at h
        · simpa using h
        · exact h
      rcases List.mem_cons.1 this with e | h
      · cases e
        exact .inr (by simp)
      · exact .inl h
    · exact .inr (by simp [h])

theorem globals_param : (ds : List ADecl) → {ρ : Visible} → {n : Name} → {j : Key} →
    (n, .param j) ∈ globals ρ ds → (n, .param j) ∈ ρ
  | [], _, _, _, h => by simpa [globals] using h
  | d :: ds, ρ, n, j, h => by
    have := globals_param ds (by simpa [globals] using h)
    cases d <;> simpa [afterGlobal] using this

theorem mem_itemsDs {ρ : Visible} {ds : List ADecl} {d : ADecl} (h : d ∈ ds) {i : Item} (hi : i ∈ itemsD ρ d) :
    i ∈ itemsDs ρ ds := by
  induction ds with
  | nil => cases h
  | cons e ds ih =>
    simp only [itemsDs, List.mem_append]
    rcases List.mem_cons.1 h with rfl | h
    · exact .inl hi
    · exact .inr (ih h)

/-- After name lookup, parameters are referred to in their function only. -/
theorem bound_paramRefs {ds ds' : List ADecl} (h : ∀ i ∈ itemsDs (globals predefined ds) ds', i.Bound) :
    ∀ f, .function f ∈ ds' → ∀ j, .param j ∈ refsSs f.body → j ∈ f.params.map AParam.k := by
  intro f hf j hj
  obtain ⟨c, k, n, vis, fatal, h1, h2⟩ :=
    usedSs f.body (ρ := afterParams (globals predefined ds) f.params) hj
  have := h _ (mem_itemsDs hf (by simp only [itemsD, itemsF, List.mem_append]; exact .inr (.inr (.inr h1))))
  obtain ⟨r, hr, hm, -⟩ := this
  cases hr
  rcases afterParams_param f.params (h2 _ _ hm) with h3 | h3
  · have := globals_param ds h3
    simp [predefined] at this
  · exact h3

/-- What name lookup returns is ready for analysis. -/
theorem lookup_resolved {ds ds' : List ADecl} {next : Nat} (h : RawProgram ds next)
    (hn : Names.program ds = .ok ds')
    (hs : ∀ f, .function f ∈ ds' → f.requires_ ≠ none → .node f.k ∉ refsSs f.body) : Resolved ds' next := by
  simp only [Names.program, Outcome.bind_eq_ok] at hn
  obtain ⟨t, ht, hn⟩ := hn
  obtain ⟨hh, -⟩ := Scopes.register_ok Scopes.initial_holds ds t ht
  obtain ⟨a, b, -⟩ := Scopes.decls_ok hh ds ds' hn
  exact { rawProgram_strip h b with noSelf := hs, paramRefs := bound_paramRefs a }

end Bms
