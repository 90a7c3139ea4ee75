import Verif.Lemmas.AnalyzeProgram

/-!
# Analysis changes nothing but values
-/

namespace Bms

open Spec

section

variable {R R' R'' : Lookup → Lookup → Prop}

mutual

theorem sameE_refl (h : ∀ r, R r r) : (e : AExpr) → SameE R e e
  | .literal .. => .literal
  | .id .. => .id
  | .conversion _ _ e t => .conversion (sameE_refl h e) (sameT_refl h t)
  | .ite _ _ l c r => .ite (sameE_refl h l) (sameE_refl h c) (sameE_refl h r)
  | .binary _ _ _ l r => .binary (sameE_refl h l) (sameE_refl h r)
  | .prefix _ _ _ e => .pre (sameE_refl h e)
  | .call _ _ _ _ none args => .callNone (sameEs_refl h args)
  | .call _ _ _ _ (some r) args => .call (h r) (sameEs_refl h args)

theorem sameT_refl (h : ∀ r, R r r) : (t : AType) → SameT R t t
  | .base .. => .base
  | .uint _ _ _ w => .uint (sameE_refl h w)

theorem sameEs_refl (h : ∀ r, R r r) : (es : List AExpr) → SameEs R es es
  | [] => .nil
  | e :: es => .cons (sameE_refl h e) (sameEs_refl h es)

end

theorem sameO_refl {α : Type} {S : α → α → Prop} (h : ∀ a, S a a) : (o : Option α) → SameO S o o
  | none => .none
  | some a => .some (h a)

mutual

theorem sameS_refl (h : ∀ r, R r r) : (s : AStmt) → SameS R s s
  | .const_ _ _ _ t e => .const_ (sameO_refl (sameT_refl h) t) (sameE_refl h e)
  | .let_ _ _ _ t e => .let_ (sameO_refl (sameT_refl h) t) (sameO_refl (sameE_refl h) e)
  | .staticAssert _ _ e => .staticAssert (sameE_refl h e)
  | .ifThen _ _ c t => .ifThen (sameE_refl h c) (sameS_refl h t)
  | .ifElse _ _ c t e => .ifElse (sameE_refl h c) (sameS_refl h t) (sameS_refl h e)
  | .while_ _ _ c b => .while_ (sameE_refl h c) (sameS_refl h b)
  | .control _ _ _ e => .control (sameO_refl (sameE_refl h) e)
  | .assign _ _ _ _ e => .assign (sameE_refl h e)
  | .block _ _ ss => .block (sameSs_refl h ss)
  | .call e => .call (sameE_refl h e)

theorem sameSs_refl (h : ∀ r, R r r) : (ss : List AStmt) → SameSs R ss ss
  | [] => .nil
  | s :: ss => .cons (sameS_refl h s) (sameSs_refl h ss)

end

/-- Composition of references. -/
abbrev Comp (R R' R'' : Lookup → Lookup → Prop) : Prop := ∀ a b c, R a b → R' b c → R'' a c

mutual

theorem sameE_comp (h : Comp R R' R'') : {a b c : AExpr} → SameE R a b → SameE R' b c → SameE R'' a c
  | _, _, _, .literal, .literal => .literal
  | _, _, _, .id, .id => .id
  | _, _, _, .conversion a1 a2, .conversion b1 b2 => .conversion (sameE_comp h a1 b1) (sameT_comp h a2 b2)
  | _, _, _, .ite a1 a2 a3, .ite b1 b2 b3 => .ite (sameE_comp h a1 b1) (sameE_comp h a2 b2) (sameE_comp h a3 b3)
  | _, _, _, .binary a1 a2, .binary b1 b2 => .binary (sameE_comp h a1 b1) (sameE_comp h a2 b2)
  | _, _, _, .pre a, .pre b => .pre (sameE_comp h a b)
  | _, _, _, .call a1 a2, .call b1 b2 => .call (h _ _ _ a1 b1) (sameEs_comp h a2 b2)
  | _, _, _, .callNone a, .callNone b => .callNone (sameEs_comp h a b)

theorem sameT_comp (h : Comp R R' R'') : {a b c : AType} → SameT R a b → SameT R' b c → SameT R'' a c
  | _, _, _, .base, .base => .base
  | _, _, _, .uint a, .uint b => .uint (sameE_comp h a b)

theorem sameEs_comp (h : Comp R R' R'') : {a b c : List AExpr} → SameEs R a b → SameEs R' b c → SameEs R'' a c
  | _, _, _, .nil, .nil => .nil
  | _, _, _, .cons a1 a2, .cons b1 b2 => .cons (sameE_comp h a1 b1) (sameEs_comp h a2 b2)

end

theorem sameO_comp {α : Type} {S S' S'' : α → α → Prop} (h : ∀ a b c, S a b → S' b c → S'' a c) :
    {a b c : Option α} → SameO S a b → SameO S' b c → SameO S'' a c
  | _, _, _, .none, .none => .none
  | _, _, _, .some a, .some b => .some (h _ _ _ a b)

mutual

theorem sameS_comp (h : Comp R R' R'') : {a b c : AStmt} → SameS R a b → SameS R' b c → SameS R'' a c
  | _, _, _, .const_ a1 a2, .const_ b1 b2 => .const_ (sameO_comp (S := SameT R) (S' := SameT R') (S'' := SameT R'') (fun _ _ _ x y => sameT_comp h x y) a1 b1) (sameE_comp h a2 b2)
  | _, _, _, .let_ a1 a2, .let_ b1 b2 =>
    .let_ (sameO_comp (S := SameT R) (S' := SameT R') (S'' := SameT R'') (fun _ _ _ x y => sameT_comp h x y) a1 b1) (sameO_comp (S := SameE R) (S' := SameE R') (S'' := SameE R'') (fun _ _ _ x y => sameE_comp h x y) a2 b2)
  | _, _, _, .staticAssert a, .staticAssert b => .staticAssert (sameE_comp h a b)
  | _, _, _, .ifThen a1 a2, .ifThen b1 b2 => .ifThen (sameE_comp h a1 b1) (sameS_comp h a2 b2)
  | _, _, _, .ifElse a1 a2 a3, .ifElse b1 b2 b3 =>
    .ifElse (sameE_comp h a1 b1) (sameS_comp h a2 b2) (sameS_comp h a3 b3)
  | _, _, _, .while_ a1 a2, .while_ b1 b2 => .while_ (sameE_comp h a1 b1) (sameS_comp h a2 b2)
  | _, _, _, .control a, .control b => .control (sameO_comp (S := SameE R) (S' := SameE R') (S'' := SameE R'') (fun _ _ _ x y => sameE_comp h x y) a b)
  | _, _, _, .assign a, .assign b => .assign (sameE_comp h a b)
  | _, _, _, .block a, .block b => .block (sameSs_comp h a b)
  | _, _, _, .call a, .call b => .call (sameE_comp h a b)

theorem sameSs_comp (h : Comp R R' R'') : {a b c : List AStmt} → SameSs R a b → SameSs R' b c → SameSs R'' a c
  | _, _, _, .nil, .nil => .nil
  | _, _, _, .cons a1 a2, .cons b1 b2 => .cons (sameS_comp h a1 b1) (sameSs_comp h a2 b2)

end

theorem samePs_comp (h : Comp R R' R'') : {a b c : List AParam} → List.Forall₂ (SameP R) a b →
    List.Forall₂ (SameP R') b c → List.Forall₂ (SameP R'') a c
  | _, _, _, .nil, .nil => .nil
  | _, _, _, .cons a1 a2, .cons b1 b2 =>
    .cons ⟨b1.1.trans a1.1, b1.2.1.trans a1.2.1, sameT_comp h a1.2.2 b1.2.2⟩ (samePs_comp h a2 b2)

theorem samePs_refl (h : ∀ r, R r r) : (ps : List AParam) → List.Forall₂ (SameP R) ps ps
  | [] => .nil
  | p :: ps => .cons ⟨rfl, rfl, sameT_refl h p.type⟩ (samePs_refl h ps)

theorem sameF_refl (h : ∀ r, R r r) (f : AFn) : SameF R f f :=
  ⟨rfl, rfl, samePs_refl h _, sameT_refl h _, sameO_refl (sameE_refl h) _, rfl, sameSs_refl h _, rfl,
    [], by simp⟩

theorem sameF_comp (h : Comp R R' R'') {a b c : AFn} (x : SameF R a b) (y : SameF R' b c) : SameF R'' a c where
  k := y.k.trans x.k
  name := y.name.trans x.name
  params := samePs_comp h x.params y.params
  ret := sameT_comp h x.ret y.ret
  reqs := sameO_comp (S := SameE R) (S' := SameE R') (S'' := SameE R'') (fun _ _ _ x y => sameE_comp h x y) x.reqs y.reqs
  bodyKey := y.bodyKey.trans x.bodyKey
  body := sameSs_comp h x.body y.body
  generic := y.generic.trans x.generic
  instances := by
    obtain ⟨l, h1⟩ := x.instances
    obtain ⟨l', h2⟩ := y.instances
    exact ⟨l ++ l', by rw [h2, h1, List.append_assoc]⟩

end

theorem samePs_append {R : Lookup → Lookup → Prop} {a b c d : List AParam} (h : List.Forall₂ (SameP R) a b)
    (h' : List.Forall₂ (SameP R) c d) : List.Forall₂ (SameP R) (a ++ c) (b ++ d) := by
  induction h with
  | nil => exact h'
  | cons x _ ih => exact .cons x ih

/-! ## States -/

/-- Keys of functions, and instances of functions. -/
structure KeyInv (s : ASt) : Prop where
  key : ∀ k f, s.fns k = some f → f.k = k ∧ k < s.next
  inst : ∀ k f, s.fns k = some f → ∀ i ∈ f.instances, ∃ g, s.fns i.key = some g ∧ g.generic = false

/-- Functions are the same up to values. -/
structure Shape (s s' : ASt) : Prop where
  inv : KeyInv s'
  fns : ∀ k f, s.fns k = some f → ∃ f', s'.fns k = some f' ∧ SameF (Redirect s') f f'

theorem redirect_refl (s : ASt) (r : Lookup) : Redirect s r r := .inl rfl

theorem Shape.refl {s : ASt} (h : KeyInv s) : Shape s s :=
  ⟨h, fun _ f hf => ⟨f, hf, sameF_refl (redirect_refl s) f⟩⟩

theorem Shape.redirect {s s' : ASt} (h : Shape s s') {r r' : Lookup} (hr : Redirect s r r') :
    Redirect s' r r' := by
  rcases hr with rfl | ⟨j, f, i, rfl, h1, h2, h3, rfl⟩
  · exact .inl rfl
  · obtain ⟨f', h4, h5⟩ := h.fns j f h1
    obtain ⟨l, h6⟩ := h5.instances
    exact .inr ⟨j, f', i, rfl, h4, h5.generic.trans h2, by rw [h6]; simp [h3], rfl⟩

theorem Shape.comp {s s' : ASt} (hi : KeyInv s) (h : Shape s s') : Comp (Redirect s) (Redirect s') (Redirect s') := by
  rintro a b c hab hbc
  rcases h.redirect hab with rfl | ⟨j, f, i, rfl, h1, h2, h3, rfl⟩
  · exact hbc
  · rcases hbc with rfl | ⟨j', f', i', h4, h5, h6, -, -⟩
    · exact .inr ⟨j, f, i, rfl, h1, h2, h3, rfl⟩
    · obtain ⟨g, h7, h8⟩ := h.inv.inst j f h1 i h3
      cases h4
      rw [h5] at h7
      cases h7
      rw [h8] at h6
      cases h6

theorem Shape.lift {s s' : ASt} (h : Shape s s') : Comp (Redirect s) Eq (Redirect s') := by
  rintro a b _ hab rfl
  exact h.redirect hab

theorem Shape.trans {s s' s'' : ASt} (a : Shape s s') (b : Shape s' s'') : Shape s s'' := by
  refine ⟨b.inv, fun k f hf => ?_⟩
  obtain ⟨f', h1, h2⟩ := a.fns k f hf
  obtain ⟨f'', h3, h4⟩ := b.fns k f' h1
  exact ⟨f'', h3, sameF_comp (b.comp a.inv) h2 h4⟩

section

variable {s s' : ASt}

theorem Shape.liftE (h : Shape s s') {e e' : AExpr} (x : SameE (Redirect s) e e') : SameE (Redirect s') e e' :=
  sameE_comp h.lift x (sameE_refl (fun _ => rfl) _)

theorem Shape.liftT (h : Shape s s') {e e' : AType} (x : SameT (Redirect s) e e') : SameT (Redirect s') e e' :=
  sameT_comp h.lift x (sameT_refl (fun _ => rfl) _)

theorem Shape.liftS (h : Shape s s') {e e' : AStmt} (x : SameS (Redirect s) e e') : SameS (Redirect s') e e' :=
  sameS_comp h.lift x (sameS_refl (fun _ => rfl) _)

theorem Shape.liftPs (h : Shape s s') {e e' : List AParam} (x : List.Forall₂ (SameP (Redirect s)) e e') :
    List.Forall₂ (SameP (Redirect s')) e e' :=
  samePs_comp h.lift x (samePs_refl (fun _ => rfl) _)

theorem Shape.liftF (h : Shape s s') {e e' : AFn} (x : SameF (Redirect s) e e') : SameF (Redirect s') e e' :=
  sameF_comp h.lift x (sameF_refl (fun _ => rfl) _)

/-- Nothing happens to functions. -/
theorem Shape.of_fns (h : KeyInv s) (hf : s'.fns = s.fns) (hn : s'.next = s.next) : Shape s s' := by
  have hi : KeyInv s' := ⟨by rw [hf, hn]; exact h.key, by rw [hf]; exact h.inst⟩
  refine ⟨hi, fun k f hk => ⟨f, by rw [hf]; exact hk, sameF_refl (redirect_refl s') f⟩⟩

/-- One function is written, as far as it is the same as in the state `s0`. -/
theorem Shape.setFn {s0 s : ASt} (h0 : Shape s0 s) {k : Key} {f g g' : AFn} (hf : s0.fns k = some f)
    (hg : s.fns k = some g) (hs : SameF (Redirect s) f g') (hi : g'.instances = g.instances) :
    Shape s0 (s.setFn k g') := by
  have hgen : g'.generic = g.generic := by
    obtain ⟨f', h1, h2⟩ := h0.fns k f hf
    rw [hg] at h1
    cases h1
    exact hs.generic.trans h2.generic.symm
  have hk : g'.k = k := hs.k.trans (by
    obtain ⟨f', h1, h2⟩ := h0.fns k f hf
    rw [← h2.k]
    exact (h0.inv.key k f' h1).1)
  have hfk : (s.setFn k g').fns k = some g' := by simp [ASt.setFn]
  have hfj : ∀ j, j ≠ k → (s.setFn k g').fns j = s.fns j := fun j hj => by simp [ASt.setFn, hj]
  have hred : ∀ r r', Redirect s r r' → Redirect (s.setFn k g') r r' := by
    rintro r r' (rfl | ⟨j, f1, i, rfl, h1, h2, h3, rfl⟩)
    · exact .inl rfl
    · by_cases e : j = k
      · subst e
        rw [hg] at h1
        cases h1
        exact .inr ⟨j, g', i, rfl, hfk, hgen.trans h2, hi ▸ h3, rfl⟩
      · exact .inr ⟨j, f1, i, rfl, (hfj j e).trans h1, h2, h3, rfl⟩
  have hlift : Comp (Redirect s) Eq (Redirect (s.setFn k g')) := by
    rintro a b _ hab rfl
    exact hred _ _ hab
  refine ⟨⟨fun j f1 hj => ?_, fun j f1 hj i hm => ?_⟩, fun j f1 hj => ?_⟩
  · by_cases e : j = k
    · subst e; rw [hfk] at hj; cases hj; exact ⟨hk, (h0.inv.key j g hg).2⟩
    · rw [hfj j e] at hj; exact h0.inv.key j f1 hj
  · have : ∃ g1, s.fns i.key = some g1 ∧ g1.generic = false := by
      by_cases e : j = k
      · subst e; rw [hfk] at hj; cases hj; exact h0.inv.inst j g hg i (hi ▸ hm)
      · rw [hfj j e] at hj; exact h0.inv.inst j f1 hj i hm
    obtain ⟨g1, h1, h2⟩ := this
    by_cases e : i.key = k
    · rw [e] at h1 ⊢
      rw [hg] at h1
      cases h1
      exact ⟨g', hfk, hgen.trans h2⟩
    · exact ⟨g1, (hfj _ e).trans h1, h2⟩
  · by_cases e : j = k
    · subst e
      rw [hf] at hj
      cases hj
      exact ⟨g', hfk, sameF_comp hlift hs (sameF_refl (fun _ => rfl) _)⟩
    · obtain ⟨f', h1, h2⟩ := h0.fns j f1 hj
      exact ⟨f', (hfj j e).trans h1, sameF_comp hlift h2 (sameF_refl (fun _ => rfl) _)⟩

end

/-! ## Calls -/

/-- What is used about analysis of called functions. -/
def AfShape (af : Key → Level → AM Unit) : Prop :=
  ∀ k l s s', KeyInv s → af k l s = .ok () s' → Shape s s'

theorem findInstance_mem {w : List Nat} {is : List AInstance} {i : AInstance}
    (h : Inst.findInstance w is = .ok (some i)) : i ∈ is := by
  induction is with
  | nil => simp [Inst.findInstance] at h
  | cons a is ih =>
    simp only [Inst.findInstance, Outcome.bind_eq_ok] at h
    obtain ⟨_, _, h⟩ := h
    split at h
    · cases h; simp
    · exact List.mem_cons_of_mem _ (ih h)

/-- The computation does not change the state. -/
def Still {α : Type} (x : AM α) : Prop := ∀ s a s', x s = .ok a s' → s' = s

theorem Still.bind {α β : Type} {x : AM α} {f : α → AM β} (hx : Still x) (hf : ∀ a, Still (f a)) :
    Still (x >>= f) := by
  intro s b s' h
  simp only [AM.bind_ok] at h
  obtain ⟨a, s1, h1, h2⟩ := h
  rw [hf a s1 b s' h2, hx s a s1 h1]

theorem Still.pure {α : Type} (a : α) : Still (Pure.pure a : AM α) := by
  intro s b s' h
  simp only [AM.pure_ok] at h
  exact h.2.symm

theorem Still.value {α : Type} (o : Option α) : Still (AM.value o) := by
  intro s b s' h
  simp only [AM.value_ok] at h
  exact h.2.symm

theorem Still.get {α : Type} (o : Outcome AErr α) : Still (AM.get o) := by
  intro s b s' h
  simp only [AM.get_ok] at h
  exact h.2.symm

theorem Still.assert (b : Bool) : Still (AM.assert b) := by
  intro s _ s' h
  simp only [AM.assert_ok] at h
  exact h.2.symm

theorem Still.fail {α : Type} (c : ACode) (k : Key) : Still (AM.fail c k : AM α) := by
  intro s _ s' h
  simp [AM.fail_ok] at h

theorem Still.throws {α : Type} : Still (AM.throws : AM α) := by
  intro s _ s' h
  simp [AM.throws_ok] at h

theorem Still.ub {α : Type} : Still (AM.ub : AM α) := by
  intro s _ s' h
  simp [AM.ub_ok] at h

theorem Still.ite {α : Type} {c : Prop} [Decidable c] {x y : AM α} (hx : Still x) (hy : Still y) :
    Still (if c then x else y) := by
  split
  · exact hx
  · exact hy

theorem still_deduce : ∀ (args : List AExpr) (ps : List AParam), Still (Ana.deduce args ps)
  | [], _ => by simp only [Ana.deduce]; exact .pure _
  | _ :: _, [] => by simp only [Ana.deduce]; exact .pure _
  | a :: as, p :: ps => by
    have ih := still_deduce as ps
    simp only [Ana.deduce]
    refine .bind (.assert _) fun _ => ?_
    split
    · exact .throws
    · exact ih
    · exact .bind (.value _) fun v => .ite (.fail _ _) (.bind ih fun _ => .pure _)
    · exact ih

theorem still_passArgs (k : Key) (ctx : ECtx) : ∀ (args : List AExpr) (ps : List AParam),
    Still (Ana.passArgs k ctx args ps)
  | [], _ => by simp only [Ana.passArgs]; exact .pure _
  | _ :: _, [] => by simp only [Ana.passArgs]; exact .pure _
  | a :: as, p :: ps => by
    have ih := still_passArgs k ctx as ps
    simp only [Ana.passArgs]
    refine .bind (.get _) fun _ => .bind (.value _) fun _ => .bind (.value _) fun _ => .ite (.fail _ _) ?_
    split
    · exact .ite (.bind (.get _) fun _ => .bind ih fun _ => .pure _) ih
    · exact .ite (.fail _ _) ih
    · exact .throws
    · exact .ub

theorem shape_callee {s s' : ASt} {f : AFn} {k j : Key} {args : List AExpr} (h : KeyInv s)
    (hf : s.fns k = some f) (hc : Ana.callee f args s = .ok j s') :
    Shape s s' ∧ Redirect s' (.node k) (.node j) := by
  have hk := h.key k f hf
  unfold Ana.callee at hc
  split at hc
  · rename_i hgen
    simp only [AM.bind_ok, AM.assert_ok, AM.read_ok, AM.get_ok] at hc
    obtain ⟨_, _, ⟨-, rfl⟩, ws, s1, hd, _, _, ⟨rfl, rfl⟩, r, _, ⟨hr, rfl⟩, hc⟩ := hc
    have := still_deduce _ _ _ _ _ hd
    subst this
    split at hc
    · rename_i i
      simp only [AM.pure_ok] at hc
      obtain ⟨rfl, rfl⟩ := hc
      simp only [Inst.function, Outcome.bind_eq_ok, Outcome.assert] at hr
      obtain ⟨_, -, o, h1, h2⟩ := hr
      cases o with
      | none =>
        simp only [Outcome.bind_eq_ok, Outcome.ok.injEq, Prod.mk.injEq] at h2
        obtain ⟨_, _, _, _, _, h3⟩ := h2
        cases h3
      | some i' =>
        simp only [Outcome.ok.injEq, Prod.mk.injEq, and_true] at h2
        subst h2
        obtain ⟨h3, -⟩ := Inst.findInstance_spec _ _ _ h1
        exact ⟨.refl h, .inr ⟨k, f, _, rfl, hf, hgen, (h3 _ rfl).1, rfl⟩⟩
    · rename_i i g
      simp only [AM.bind_ok, AM.modify_ok, AM.pure_ok] at hc
      obtain ⟨_, s2, hs2, _, s3, hs3, rfl, rfl⟩ := hc
      subst hs2 hs3
      simp only [Inst.function, Outcome.bind_eq_ok, Outcome.assert] at hr
      obtain ⟨_, -, o, h1, h2⟩ := hr
      cases o with
      | some i' => simp at h2
      | none =>
        simp only [Outcome.bind_eq_ok, Outcome.ok.injEq, Prod.mk.injEq, Option.some.injEq] at h2
        obtain ⟨g', hg, ⟨ws', ps'⟩, hs, rfl, rfl⟩ := h2
        obtain ⟨-, -, -, -, hgk, hgg, hgi, -⟩ := Inst.copy_ok hg
        suffices main : ∀ S : ASt, S = ({ Ana.addFunction { g' with params := ps' } s1 with
              next := s1.next + s1.next } : ASt).setFn f.k
              { f with instances := f.instances ++ [⟨ws', g'.k⟩] } →
            Shape s1 S ∧ Redirect S (.node k) (.node g'.k) from main _ rfl
        intro S hS
        have hgk' : g'.k = k + s1.next := by rw [hgk, hk.1]
        have hne : g'.k ≠ k := by
          rw [hgk']
          have := hk.2
          exact Nat.ne_of_gt (Nat.lt_add_of_pos_right (Nat.lt_of_le_of_lt (Nat.zero_le _) this))
        have hnew : s1.fns g'.k = none := by
          cases e : s1.fns g'.k with
          | none => rfl
          | some f1 =>
            have := (h.key _ f1 e).2
            rw [hgk'] at this
            exact absurd this (Nat.not_lt.2 (Nat.le_add_left _ _))
        have hSk : S.fns k = some { f with instances := f.instances ++ [⟨ws', g'.k⟩] } := by
          rw [hS, ← hk.1]; simp [ASt.setFn]
        have hSg : S.fns g'.k = some { g' with params := ps' } := by
          rw [← hk.1] at hne
          simp only [hS, ASt.setFn, Ana.addFunction, if_neg hne, if_true]
        have hSj : ∀ j, j ≠ k → j ≠ g'.k → S.fns j = s1.fns j := by
          intro j h1 h2
          rw [← hk.1] at h1
          simp only [hS, ASt.setFn, Ana.addFunction, if_neg h1, if_neg h2]
        have hnext : S.next = s1.next + s1.next := by rw [hS]; rfl
        have hold : ∀ j f1, s1.fns j = some f1 → ∃ f2, S.fns j = some f2 ∧ SameF (Redirect S) f1 f2 := by
          intro j f1 hj
          by_cases e : j = k
          · subst e
            rw [hf] at hj
            cases hj
            refine ⟨_, hSk, ?_⟩
            have := sameF_refl (redirect_refl S) f
            exact { this with instances := ⟨_, rfl⟩ }
          · have e' : j ≠ g'.k := fun e' => by rw [e', hnew] at hj; cases hj
            exact ⟨f1, (hSj j e e').trans hj, sameF_refl (redirect_refl S) f1⟩
        have hinst : ∀ j f1, s1.fns j = some f1 → ∀ i ∈ f1.instances, ∃ g, S.fns i.key = some g ∧ g.generic = false := by
          intro j f1 hj i hi
          obtain ⟨g1, h3, h4⟩ := h.inst j f1 hj i hi
          obtain ⟨f2, h5, h6⟩ := hold _ _ h3
          exact ⟨f2, h5, h6.generic.trans h4⟩
        refine ⟨⟨⟨fun j f1 hj => ?_, fun j f1 hj i hi => ?_⟩, hold⟩, .inr ⟨k, _, ⟨ws', g'.k⟩, rfl, hSk, hgen, by simp, rfl⟩⟩
        · by_cases e : j = k
          · subst e
            rw [hSk] at hj
            cases hj
            exact ⟨hk.1, Nat.lt_of_lt_of_le hk.2 (by rw [hnext]; exact Nat.le_add_left _ _)⟩
          · by_cases e' : j = g'.k
            · subst e'
              rw [hSg] at hj
              cases hj
              refine ⟨rfl, ?_⟩
              rw [hgk', hnext]
              exact Nat.add_lt_add_right hk.2 _
            · rw [hSj j e e'] at hj
              have := h.key j f1 hj
              exact ⟨this.1, Nat.lt_of_lt_of_le this.2 (by rw [hnext]; exact Nat.le_add_left _ _)⟩
        · by_cases e : j = k
          · subst e
            rw [hSk] at hj
            cases hj
            rcases List.mem_append.1 hi with hi | hi
            · exact hinst j f hf i hi
            · rw [List.mem_singleton] at hi
              subst hi
              exact ⟨_, hSg, hgg⟩
          · by_cases e' : j = g'.k
            · subst e'
              rw [hSg] at hj
              cases hj
              simp [hgi] at hi
            · rw [hSj j e e'] at hj
              exact hinst j f1 hj i hi
  · simp only [AM.pure_ok] at hc
    obtain ⟨rfl, rfl⟩ := hc
    exact ⟨.refl h, .inl (by rw [hk.1])⟩

section

variable {n : Nat} {af : Key → Level → AM Unit} (haf : AfShape af)

include haf

theorem shape_callFunction {s s' : ASt} {k j j' : Key} {args : List AExpr} {level : Level} {ctx : ECtx} {w : Value}
    (h : KeyInv s) (hc : Ana.callFunction n af k j args level ctx s = .ok (j', w) s') :
    Shape s s' ∧ Redirect s' (.node j) (.node j') := by
  simp only [Ana.callFunction, AM.bind_ok, AM.read_ok] at hc
  obtain ⟨_, _, ⟨rfl, rfl⟩, hc⟩ := hc
  cases hf0 : s.fns j with
  | none => simp [hf0, AM.fail_ok] at hc
  | some f0 =>
    simp only [hf0, AM.ite_fail_ok, AM.bind_ok, AM.read_ok, AM.value_ok, AM.assert_ok, AM.deref_ok] at hc
    obtain ⟨hlen, j1, s1, hcal, _, _, ⟨rfl, rfl⟩, f1, _, ⟨hf1, rfl⟩, _, _, ⟨hgen1, rfl⟩, hc⟩ := hc
    obtain ⟨a1, a2⟩ := shape_callee h hf0 hcal
    generalize hin : (if ctx = .constant ∨ level = .forConst then Level.forConst else .shallow)
      = inner at hc
    obtain ⟨hstk, _, s2, haf', _, _, ⟨rfl, rfl⟩, f2, _, ⟨hf2, rfl⟩, _, _, ⟨hlev, rfl⟩, r, _, ⟨hr, rfl⟩,
      hc⟩ := hc
    have b := haf _ _ _ _ a1.inv haf'
    have hfin : s' = s2 ∧ j' = j1 := by
      split at hc
      · simp only [AM.bind_ok, AM.value_ok, AM.assert_ok] at hc
        obtain ⟨a, _, ⟨_, rfl⟩, _, _, ⟨_, rfl⟩, cs, s3, hp, hc⟩ := hc
        have := still_passArgs _ _ _ _ _ _ _ hp
        subst this
        cases hcc : constantCall { Vm.initial with instructions := s3.code } a cs n with
        | none => simp [hcc, AM.timeout_ok] at hc
        | some o =>
          cases o with
          | ok v =>
            simp only [hcc, AM.pure_ok, Prod.mk.injEq] at hc
            exact ⟨hc.2.symm, hc.1.1.symm⟩
          | err e => simp [hcc, AM.fail_ok] at hc
          | throws => simp [hcc, AM.throws_ok] at hc
          | ub => simp [hcc, AM.ub_ok] at hc
      · simp only [AM.bind_ok, AM.pure_ok, Prod.mk.injEq] at hc
        obtain ⟨cs, s3, hp, ⟨h1, _⟩, h2⟩ := hc
        have := still_passArgs _ _ _ _ _ _ _ hp
        exact ⟨h2.symm.trans this, h1.symm⟩
    obtain ⟨rfl, rfl⟩ := hfin
    exact ⟨a1.trans b, b.redirect a2⟩

mutual

theorem shape_expr : (e : AExpr) → {s s' : ASt} → {level : Level} → {ctx : ECtx} → {e' : AExpr} →
    KeyInv s → Ana.expr n af e level ctx s = .ok e' s' → Shape s s' ∧ SameE (Redirect s') e e'
  | .literal k cv lit, s, s', level, ctx, e', h, hx => by
    rw [Ana.expr] at hx
    have := literal_state hx
    subst this
    refine ⟨.refl h, ?_⟩
    unfold Ana.literal at hx
    split at hx
    · simp only [AM.bind_ok, AM.assert_ok, AM.pure_ok] at hx
      obtain ⟨_, _, _, rfl, _⟩ := hx
      exact .literal
    · split at hx
      · simp only [AM.pure_ok] at hx; obtain ⟨rfl, _⟩ := hx; exact .literal
      · simp only [AM.pure_ok] at hx; obtain ⟨rfl, _⟩ := hx; exact .literal
      · rename_i text
        cases ht : parseIntegerLiteral text with
        | some x => simp only [ht, AM.pure_ok] at hx; obtain ⟨rfl, _⟩ := hx; exact .literal
        | none => simp [ht, AM.fail_ok] at hx
      · simp [AM.throws_ok] at hx
  | .id k cv name ref g, s, s', level, ctx, e', h, hx => by
    cases cv with
    | some v =>
      simp only [Ana.expr, AM.pure_ok] at hx
      obtain ⟨rfl, rfl⟩ := hx
      exact ⟨.refl h, .id⟩
    | none =>
      simp only [Ana.expr, AM.bind_ok, AM.pure_ok] at hx
      obtain ⟨cv, s1, hv, rfl, rfl⟩ := hx
      have := idValue_state hv
      subst this
      exact ⟨.refl h, .id⟩
  | .conversion k cv e ty, s, s', level, ctx, e', h, hx => by
    simp only [Ana.expr, AM.bind_ok, AM.value_ok, AM.get_ok, AM.ite_fail_ok, AM.pure_ok] at hx
    obtain ⟨e1, s1, h1, ty1, s2, h2, v, _, ⟨hv, rfl⟩, o, _, ⟨ho, rfl⟩, t, _, ⟨rfl, rfl⟩, _, w, s3, hf,
      rfl, rfl⟩ := hx
    obtain ⟨-, rfl⟩ := AM.foldResult_ok hf
    obtain ⟨a1, a2⟩ := shape_expr e h h1
    obtain ⟨b1, b2⟩ := shape_type ty a1.inv h2
    exact ⟨a1.trans b1, .conversion (b1.liftE a2) b2⟩
  | .ite k cv l c r, s, s', level, ctx, e', h, hx => by
    simp only [Ana.expr, AM.bind_ok, AM.deref_ok, AM.ite_fail_ok, AM.checked_ok] at hx
    obtain ⟨c1, s1, h1, vc, _, ⟨hvc, rfl⟩, hb, hx⟩ := hx
    obtain ⟨a1, a2⟩ := shape_expr c h h1
    obtain ⟨c2, c3, l1, s3, h2, r1, s4, h3, vl, vr, t, hy⟩ : ∃ c2 c3 l1 s3,
        Ana.expr n af l level c2 s1 = .ok l1 s3 ∧ ∃ r1 s4,
        Ana.expr n af r level c3 s3 = .ok r1 s4 ∧
        ∃ (vl vr : Value) (t : CType),
        (match evalIfV vl vc vr with
          | .ok w => pure (.ite k (some w) l1 c1 r1)
          | .err _ =>
            if ctx = .constant then AM.throws
            else pure (.ite k (some (Value.unknownOf t)) l1 c1 r1)
          | .throws => AM.throws
          | .ub => AM.ub : AM AExpr) s4 = .ok e' s' := by
      by_cases hcc : ctx = .constant
      · rw [if_pos hcc] at hx
        simp only [ AM.bind_ok, AM.deref_ok, AM.assert_ok, AM.get_ok, AM.checked_ok,
          AM.pure_ok] at hx
        obtain ⟨_, _, ⟨_, rfl⟩, b, _, ⟨_, rfl⟩, _, _, ⟨rfl, rfl⟩, l1, s3, h2, r1, s4, h3, vl, _, ⟨hvl, rfl⟩,
          vr, _, ⟨hvr, rfl⟩, t, _, ⟨ht, rfl⟩, hx⟩ := hx
        refine ⟨_, _, l1, s3, h2, r1, s4, h3, vl, vr, t, ?_⟩
        exact hx
      · rw [if_neg hcc] at hx
        simp only [ AM.bind_ok, AM.deref_ok, AM.assert_ok, AM.get_ok, AM.checked_ok,
          AM.pure_ok] at hx
        obtain ⟨_, _, ⟨rfl, rfl⟩, l1, s3, h2, r1, s4, h3, vl, _, ⟨hvl, rfl⟩,
          vr, _, ⟨hvr, rfl⟩, t, _, ⟨ht, rfl⟩, hx⟩ := hx
        refine ⟨_, _, l1, s3, h2, r1, s4, h3, vl, vr, t, ?_⟩
        exact hx
    obtain ⟨b1, b2⟩ := shape_expr l a1.inv h2
    obtain ⟨d1, d2⟩ := shape_expr r b1.inv h3
    have hres : e' = .ite k e'.cv l1 c1 r1 ∧ s' = s4 := by
      cases hev : evalIfV vl vc vr with
      | ok w =>
        simp only [hev, AM.pure_ok] at hy
        obtain ⟨rfl, rfl⟩ := hy
        exact ⟨rfl, rfl⟩
      | err e =>
        simp only [hev] at hy
        split at hy
        · simp [AM.throws_ok] at hy
        · simp only [AM.pure_ok] at hy
          obtain ⟨rfl, rfl⟩ := hy
          exact ⟨rfl, rfl⟩
      | throws => simp [hev, AM.throws_ok] at hy
      | ub => simp [hev, AM.ub_ok] at hy
    obtain ⟨e1, rfl⟩ := hres
    rw [e1]
    exact ⟨a1.trans (b1.trans d1), .ite (d1.liftE b2) (d1.liftE (b1.liftE a2)) d2⟩
  | .binary k cv op l r, s, s', level, ctx, e', h, hx => by
    simp only [Ana.expr, AM.bind_ok, AM.assert_ok, AM.deref_ok, AM.checked_ok, AM.pure_ok] at hx
    obtain ⟨l1, s1, h1, _, _, ⟨_, rfl⟩, ctx', s2, hctx, r1, s3, h2, _, _, ⟨_, rfl⟩, vl, _, ⟨hvl, rfl⟩, vr, _,
      ⟨hvr, rfl⟩, t, _, ⟨ht, rfl⟩, w, s4, hf, rfl, rfl⟩ := hx
    obtain ⟨rfl, -⟩ := rightContext_ok hctx
    obtain ⟨-, rfl⟩ := AM.foldResult_ok hf
    obtain ⟨a1, a2⟩ := shape_expr l h h1
    obtain ⟨b1, b2⟩ := shape_expr r a1.inv h2
    exact ⟨a1.trans b1, .binary (b1.liftE a2) b2⟩
  | .prefix k cv op e, s, s', level, ctx, e', h, hx => by
    simp only [Ana.expr, AM.bind_ok, AM.value_ok, AM.checked_ok, AM.pure_ok] at hx
    obtain ⟨e1, s1, h1, v, _, ⟨hv, rfl⟩, t, _, ⟨ht, rfl⟩, w, s2, hf, rfl, rfl⟩ := hx
    obtain ⟨-, rfl⟩ := AM.foldResult_ok hf
    obtain ⟨a1, a2⟩ := shape_expr e h h1
    exact ⟨a1, .pre a2⟩
  | .call k cv st name ref args, s, s', level, ctx, e', h, hx => by
    cases ref with
    | none => simp [Ana.expr, AM.throws_ok] at hx
    | some r =>
      cases r with
      | param p => simp [Ana.expr, AM.bind_ok, AM.ub_ok] at hx
      | builtin f =>
        simp only [Ana.expr, AM.bind_ok, AM.checked_ok, AM.lift_ok, AM.pure_ok] at hx
        obtain ⟨args1, s1, h1, vs, s2, h2, _, _, ⟨_, rfl⟩, w, _, ⟨hev, rfl⟩, rfl, rfl⟩ := hx
        obtain ⟨a1, a2⟩ := shape_exprs args h h1
        obtain ⟨rfl, hvs⟩ := values_ok h2
        exact ⟨a1, .call (redirect_refl _ _) a2⟩
      | node j0 =>
        simp only [Ana.expr, AM.bind_ok, AM.pure_ok] at hx
        obtain ⟨args1, s1, h1, ⟨j, w⟩, s2, h2, rfl, rfl⟩ := hx
        obtain ⟨a1, a2⟩ := shape_exprs args h h1
        obtain ⟨b1, b2⟩ := shape_callFunction haf a1.inv h2
        exact ⟨a1.trans b1, .call b2 (sameEs_comp b1.lift a2 (sameEs_refl (fun _ => rfl) _))⟩

theorem shape_type : (ty : AType) → {s s' : ASt} → {ty' : AType} → KeyInv s →
    Ana.type n af ty s = .ok ty' s' → Shape s s' ∧ SameT (Redirect s') ty ty'
  | .base k cv b, s, s', ty', h, hx => by
    cases cv <;> simp only [Ana.type, AM.pure_ok] at hx <;> obtain ⟨rfl, rfl⟩ := hx <;>
      exact ⟨.refl h, .base⟩
  | .uint k cv c w, s, s', ty', h, hx => by
    cases cv with
    | some v =>
      simp only [Ana.type, AM.pure_ok] at hx
      obtain ⟨rfl, rfl⟩ := hx
      exact ⟨.refl h, .uint (sameE_refl (redirect_refl _) _)⟩
    | none =>
      simp only [Ana.type, AM.bind_ok, AM.value_ok, AM.ite_fail_ok, AM.get_ok, AM.pure_ok] at hx
      obtain ⟨w1, s1, h1, v, _, ⟨_, rfl⟩, _, x, _, ⟨_, rfl⟩, _, t, _, ⟨_, rfl⟩, rfl, rfl⟩ := hx
      obtain ⟨a1, a2⟩ := shape_expr w h h1
      exact ⟨a1, .uint a2⟩

theorem shape_exprs : (es : List AExpr) → {s s' : ASt} → {level : Level} → {ctx : ECtx} →
    {es' : List AExpr} → KeyInv s → Ana.exprs n af es level ctx s = .ok es' s' →
    Shape s s' ∧ SameEs (Redirect s') es es'
  | [], s, s', level, ctx, es', h, hx => by
    simp only [Ana.exprs, AM.pure_ok] at hx
    obtain ⟨rfl, rfl⟩ := hx
    exact ⟨.refl h, .nil⟩
  | e :: es, s, s', level, ctx, es', h, hx => by
    simp only [Ana.exprs, AM.bind_ok, AM.value_ok, AM.pure_ok] at hx
    obtain ⟨e1, s1, h1, v, _, ⟨hv, rfl⟩, es1, s2, h2, rfl, rfl⟩ := hx
    obtain ⟨a1, a2⟩ := shape_expr e h h1
    obtain ⟨b1, b2⟩ := shape_exprs es a1.inv h2
    exact ⟨a1.trans b1, .cons (b1.liftE a2) b2⟩

end

/-! ## Statements -/

theorem shape_declaredType {s s' : ASt} {ty ty' : AType} {t : CType} (h : KeyInv s)
    (hx : Ana.declaredType n af ty s = .ok (ty', t) s') : Shape s s' ∧ SameT (Redirect s') ty ty' := by
  simp only [Ana.declaredType, AM.bind_ok, AM.value_ok, AM.pure_ok, Prod.mk.injEq] at hx
  obtain ⟨ty1, s1, h1, v, _, ⟨hv, rfl⟩, ⟨rfl, rfl⟩, rfl⟩ := hx
  exact shape_type haf ty h h1

theorem shape_const {s s' : ASt} {k : Key} {ty ty' : Option AType} {init init' : AExpr} {v : Value}
    (h : KeyInv s) (hx : Ana.const_ n af k ty init s = .ok (v, ty', init') s') :
    Shape s s' ∧ SameO (SameT (Redirect s')) ty ty' ∧ SameE (Redirect s') init init' := by
  cases ty with
  | none =>
    simp only [Ana.const_, AM.bind_ok, AM.deref_ok, AM.assert_ok, AM.pure_ok, Prod.mk.injEq] at hx
    obtain ⟨e1, s1, h1, w, _, ⟨hw, rfl⟩, _, _, ⟨_, rfl⟩, ⟨rfl, rfl, rfl⟩, rfl⟩ := hx
    obtain ⟨a1, a2⟩ := shape_expr haf init h h1
    exact ⟨a1, .none, a2⟩
  | some ty =>
    simp only [Ana.const_, AM.bind_ok] at hx
    obtain ⟨⟨ty1, t⟩, s1, h1, hx⟩ := hx
    simp only [AM.bind_ok, AM.deref_ok, AM.ite_fail_ok, AM.lift_ok, AM.pure_ok, Prod.mk.injEq] at hx
    obtain ⟨e1, s2, h2, u, _, ⟨hu, rfl⟩, _, w, _, ⟨hw, rfl⟩, ⟨rfl, rfl, rfl⟩, rfl⟩ := hx
    obtain ⟨a1, a2⟩ := shape_declaredType haf h h1
    obtain ⟨b1, b2⟩ := shape_expr haf init a1.inv h2
    exact ⟨a1.trans b1, .some (b1.liftT a2), b2⟩

theorem shape_let {s s' : ASt} {level : Level} {k : Key} {ty ty' : Option AType}
    {init init' : Option AExpr} {t : CType} (h : KeyInv s)
    (hx : Ana.let_ n af k ty init level s = .ok (t, ty', init') s') :
    Shape s s' ∧ SameO (SameT (Redirect s')) ty ty' ∧ SameO (SameE (Redirect s')) init init' := by
  cases ty with
  | none =>
    cases init with
    | none => simp [Ana.let_, AM.throws_ok] at hx
    | some e =>
      simp only [Ana.let_, AM.bind_ok, AM.value_ok, AM.pure_ok, Prod.mk.injEq] at hx
      obtain ⟨e1, s1, h1, v, _, ⟨hv, rfl⟩, ⟨rfl, rfl, rfl⟩, rfl⟩ := hx
      obtain ⟨a1, a2⟩ := shape_expr haf e h h1
      exact ⟨a1, .none, .some a2⟩
  | some ty =>
    cases init with
    | none =>
      simp only [Ana.let_, AM.bind_ok] at hx
      obtain ⟨⟨ty1, t1⟩, s1, h1, hx⟩ := hx
      simp only [AM.pure_ok, Prod.mk.injEq] at hx
      obtain ⟨⟨rfl, rfl, rfl⟩, rfl⟩ := hx
      obtain ⟨a1, a2⟩ := shape_declaredType haf h h1
      exact ⟨a1, .some a2, .none⟩
    | some e =>
      simp only [Ana.let_, AM.bind_ok] at hx
      obtain ⟨⟨ty1, t1⟩, s1, h1, hx⟩ := hx
      simp only [AM.bind_ok, AM.deref_ok, AM.ite_fail_ok, AM.pure_ok, Prod.mk.injEq] at hx
      obtain ⟨e1, s2, h2, v, _, ⟨hv, rfl⟩, hc, ⟨rfl, rfl, rfl⟩, rfl⟩ := hx
      obtain ⟨a1, a2⟩ := shape_declaredType haf h h1
      obtain ⟨b1, b2⟩ := shape_expr haf e a1.inv h2
      exact ⟨a1.trans b1, .some (b1.liftT a2), .some b2⟩

theorem shape_staticAssert {s s' : ASt} {k : Key} {e e' : AExpr} {v : Value} (h : KeyInv s)
    (hx : Ana.staticAssert n af k e s = .ok (v, e') s') : Shape s s' ∧ SameE (Redirect s') e e' := by
  simp only [Ana.staticAssert, AM.bind_ok, AM.assert_ok, AM.deref_ok, AM.ite_fail_ok, AM.get_ok,
    AM.pure_ok, Prod.mk.injEq] at hx
  obtain ⟨e1, s1, h1, _, _, ⟨_, rfl⟩, w, _, ⟨hw, rfl⟩, hty, b, _, ⟨hb, rfl⟩, hbt, ⟨rfl, rfl⟩, rfl⟩ := hx
  exact shape_expr haf e h h1

theorem shape_condition {s s' : ASt} {level : Level} {k : Key} {c c' : AExpr} (h : KeyInv s)
    (hx : Ana.condition n af k c level s = .ok c' s') : Shape s s' ∧ SameE (Redirect s') c c' := by
  simp only [Ana.condition, AM.bind_ok, AM.value_ok, AM.ite_fail_ok, AM.pure_ok] at hx
  obtain ⟨e1, s1, h1, v, _, ⟨hv, rfl⟩, hb, rfl, rfl⟩ := hx
  exact shape_expr haf c h h1

theorem shape_setDecl {s : ASt} (h : KeyInv s) (k : Key) (d : Decl) : Shape s (s.setDecl k d) :=
  .of_fns h rfl rfl

mutual

theorem shape_stmt : (t : AStmt) → {s s' : ASt} → {level : Level} → {ret : CType} → {loop : Bool} →
    {t' : AStmt} → KeyInv s → Ana.stmt n af ret level loop t s = .ok t' s' →
    Shape s s' ∧ SameS (Redirect s') t t'
  | .const_ k cv name ty init, s, s', level, ret, loop, t', h, hx => by
    cases cv with
    | some v =>
      simp only [Ana.stmt, AM.pure_ok] at hx
      obtain ⟨rfl, rfl⟩ := hx
      exact ⟨.refl h, sameS_refl (redirect_refl _) _⟩
    | none =>
      simp only [Ana.stmt, AM.bind_ok] at hx
      obtain ⟨⟨v, ty1, init1⟩, s1, h1, hx⟩ := hx
      simp only [AM.bind_ok, AM.modify_ok, AM.pure_ok] at hx
      obtain ⟨_, s2, rfl, rfl, rfl⟩ := hx
      obtain ⟨a1, a2, a3⟩ := shape_const haf h h1
      have b := shape_setDecl haf a1.inv k ⟨.const_, some v⟩
      exact ⟨a1.trans b, b.liftS (.const_ a2 a3)⟩
  | .let_ k cv name ty init, s, s', level, ret, loop, t', h, hx => by
    simp only [Ana.stmt, AM.bind_ok] at hx
    obtain ⟨⟨t, ty1, init1⟩, s1, h1, hx⟩ := hx
    simp only [AM.bind_ok, AM.modify_ok, AM.pure_ok] at hx
    obtain ⟨_, s2, rfl, rfl, rfl⟩ := hx
    obtain ⟨a1, a2, a3⟩ := shape_let haf h h1
    have b := shape_setDecl haf a1.inv k ⟨.let_, some (Value.unknownOf t)⟩
    exact ⟨a1.trans b, b.liftS (.let_ a2 a3)⟩
  | .staticAssert k cv e, s, s', level, ret, loop, t', h, hx => by
    cases cv with
    | some v =>
      simp only [Ana.stmt, AM.bind_ok, AM.assert_ok, AM.pure_ok] at hx
      obtain ⟨_, _, ⟨_, rfl⟩, rfl, rfl⟩ := hx
      exact ⟨.refl h, sameS_refl (redirect_refl _) _⟩
    | none =>
      simp only [Ana.stmt, AM.bind_ok] at hx
      obtain ⟨⟨v, e1⟩, s1, h1, hx⟩ := hx
      simp only [AM.pure_ok] at hx
      obtain ⟨rfl, rfl⟩ := hx
      obtain ⟨a1, a2⟩ := shape_staticAssert haf h h1
      exact ⟨a1, .staticAssert a2⟩
  | .ifThen k cv c t, s, s', level, ret, loop, t', h, hx => by
    simp only [Ana.stmt, AM.bind_ok, AM.pure_ok] at hx
    obtain ⟨c1, s1, h1, t1, s2, h2, rfl, rfl⟩ := hx
    obtain ⟨a1, a2⟩ := shape_condition haf h h1
    obtain ⟨b1, b2⟩ := shape_stmt t a1.inv h2
    exact ⟨a1.trans b1, .ifThen (b1.liftE a2) b2⟩
  | .ifElse k cv c t e, s, s', level, ret, loop, t', h, hx => by
    simp only [Ana.stmt, AM.bind_ok, AM.pure_ok] at hx
    obtain ⟨c1, s1, h1, t1, s2, h2, e1, s3, h3, rfl, rfl⟩ := hx
    obtain ⟨a1, a2⟩ := shape_condition haf h h1
    obtain ⟨b1, b2⟩ := shape_stmt t a1.inv h2
    obtain ⟨d1, d2⟩ := shape_stmt e b1.inv h3
    exact ⟨a1.trans (b1.trans d1), .ifElse (d1.liftE (b1.liftE a2)) (d1.liftS b2) d2⟩
  | .while_ k cv c t, s, s', level, ret, loop, t', h, hx => by
    simp only [Ana.stmt, AM.bind_ok, AM.pure_ok] at hx
    obtain ⟨c1, s1, h1, t1, s2, h2, rfl, rfl⟩ := hx
    obtain ⟨a1, a2⟩ := shape_condition haf h h1
    obtain ⟨b1, b2⟩ := shape_stmt t a1.inv h2
    exact ⟨a1.trans b1, .while_ (b1.liftE a2) b2⟩
  | .control k cv c e, s, s', level, ret, loop, t', h, hx => by
    cases c with
    | break_ =>
      simp only [Ana.stmt] at hx
      cases loop with
      | false => simp [AM.fail_ok] at hx
      | true =>
        simp only [if_true, AM.pure_ok] at hx
        obtain ⟨rfl, rfl⟩ := hx
        exact ⟨.refl h, .control (sameO_refl (sameE_refl (redirect_refl _)) _)⟩
    | continue_ =>
      simp only [Ana.stmt] at hx
      cases loop with
      | false => simp [AM.fail_ok] at hx
      | true =>
        simp only [if_true, AM.pure_ok] at hx
        obtain ⟨rfl, rfl⟩ := hx
        exact ⟨.refl h, .control (sameO_refl (sameE_refl (redirect_refl _)) _)⟩
    | return_ =>
      cases e with
      | none =>
        simp only [Ana.stmt, AM.ite_fail_ok, AM.pure_ok] at hx
        obtain ⟨hv, rfl, rfl⟩ := hx
        exact ⟨.refl h, .control .none⟩
      | some e =>
        simp only [Ana.stmt, AM.bind_ok, AM.value_ok, AM.ite_fail_ok, AM.pure_ok] at hx
        obtain ⟨e1, s1, h1, v, _, ⟨hv, rfl⟩, hc, w, _, hf, rfl, rfl⟩ := hx
        obtain ⟨hf', rfl⟩ := AM.foldResult_ok hf
        obtain ⟨a1, a2⟩ := shape_expr haf e h h1
        exact ⟨a1, .control (.some a2)⟩
  | .assign k cv name ref e, s, s', level, ret, loop, t', h, hx => by
    cases ref with
    | none => simp [Ana.stmt, AM.throws_ok] at hx
    | some r =>
      cases r with
      | builtin f => simp [Ana.stmt, AM.throws_ok] at hx
      | param p => simp [Ana.stmt, AM.fail_ok] at hx
      | node j =>
        simp only [Ana.stmt, AM.bind_ok, AM.read_ok] at hx
        obtain ⟨_, _, ⟨rfl, rfl⟩, hx⟩ := hx
        cases hfj : s.fns j with
        | some f => simp [hfj, AM.fail_ok] at hx
        | none =>
          simp only [hfj] at hx
          cases hd : s.decl j with
          | none => simp [hd, AM.throws_ok] at hx
          | some d =>
            obtain ⟨kd, o⟩ := d
            cases kd with
            | const_ => simp [hd, AM.fail_ok] at hx
            | param => simp [hd, AM.throws_ok] at hx
            | width => simp [hd, AM.throws_ok] at hx
            | let_ =>
              simp only [hd, AM.bind_ok, AM.value_ok, AM.read_ok, AM.ite_fail_ok, AM.pure_ok] at hx
              obtain ⟨e1, s1, h1, v, _, ⟨hv, rfl⟩, _, _, ⟨rfl, rfl⟩, d, _, ⟨hd1, rfl⟩, dv, _, ⟨hdv, rfl⟩, hc,
                w, _, hf, rfl, rfl⟩ := hx
              obtain ⟨hf', rfl⟩ := AM.foldResult_ok hf
              obtain ⟨a1, a2⟩ := shape_expr haf e h h1
              exact ⟨a1, .assign a2⟩
  | .block k cv ss, s, s', level, ret, loop, t', h, hx => by
    simp only [Ana.stmt, AM.bind_ok, AM.pure_ok] at hx
    obtain ⟨ss1, s1, h1, rfl, rfl⟩ := hx
    obtain ⟨a1, a2⟩ := shape_stmts ss h h1
    exact ⟨a1, .block a2⟩
  | .call e, s, s', level, ret, loop, t', h, hx => by
    simp only [Ana.stmt, AM.bind_ok, AM.pure_ok] at hx
    obtain ⟨e1, s1, h1, rfl, rfl⟩ := hx
    obtain ⟨a1, a2⟩ := shape_expr haf e h h1
    exact ⟨a1, .call a2⟩

theorem shape_stmts : (ts : List AStmt) → {s s' : ASt} → {level : Level} → {ret : CType} → {loop : Bool} →
    {ts' : List AStmt} → KeyInv s → Ana.stmts n af ret level loop ts s = .ok ts' s' →
    Shape s s' ∧ SameSs (Redirect s') ts ts'
  | [], s, s', level, ret, loop, ts', h, hx => by
    simp only [Ana.stmts, AM.pure_ok] at hx
    obtain ⟨rfl, rfl⟩ := hx
    exact ⟨.refl h, .nil⟩
  | t :: ts, s, s', level, ret, loop, ts', h, hx => by
    simp only [Ana.stmts, AM.bind_ok, AM.pure_ok] at hx
    obtain ⟨t1, s1, h1, ts1, s2, h2, rfl, rfl⟩ := hx
    obtain ⟨a1, a2⟩ := shape_stmt t h h1
    obtain ⟨b1, b2⟩ := shape_stmts ts a1.inv h2
    exact ⟨a1.trans b1, .cons (b1.liftS a2) b2⟩

end

/-! ## Functions -/

theorem shape_params {s0 : ASt} {k : Key} {f : AFn} (hf : s0.fns k = some f) :
    ∀ (ps pre before : List AParam) {s s' : ASt}, Shape s0 s → f.params = pre ++ ps →
      List.Forall₂ (SameP (Redirect s)) pre before → Ana.params n af k before ps s = .ok () s' →
      Shape s0 s' := by
  intro ps
  induction ps with
  | nil =>
    intro pre before s s' h _ _ hx
    simp only [Ana.params, AM.pure_ok, true_and] at hx
    subst hx
    exact h
  | cons p ps ih =>
    intro pre before s s' h hp hb hx
    simp only [Ana.params, AM.bind_ok, updateFn_ok, AM.modify_ok] at hx
    obtain ⟨ty, s1, h1, _, _, ⟨g, hg, rfl⟩, _, _, rfl, hx⟩ := hx
    obtain ⟨a1, a2⟩ := shape_type haf _ h.inv h1
    have b1 := h.trans a1
    obtain ⟨g1, hg1, hsame⟩ := b1.fns k f hf
    rw [hg] at hg1
    cases hg1
    have hpp : SameP (Redirect s1) p { p with type := ty } := ⟨rfl, rfl, a2⟩
    have hparams : List.Forall₂ (SameP (Redirect s1)) f.params (before ++ { p with type := ty } :: ps) := by
      rw [hp]
      exact samePs_append (a1.liftPs hb) (.cons hpp (samePs_refl (redirect_refl _) _))
    have b2 : Shape s0 (s1.setFn k { g with params := before ++ { p with type := ty } :: ps }) :=
      b1.setFn hf hg { hsame with params := hparams } rfl
    have b3 := b2.trans (shape_setDecl haf b2.inv p.k ⟨.param, ty.cv⟩)
    refine ih (pre ++ [p]) _ b3 (by simp [hp]) ?_ hx
    have hup : ∀ r r', Redirect s1 r r' → Redirect ((s1.setFn k { g with params := before ++ { p with type := ty } :: ps }).setDecl p.k ⟨.param, ty.cv⟩) r r' := by
      rintro r r' (rfl | ⟨j, f1, i, rfl, e1, e2, e3, rfl⟩)
      · exact .inl rfl
      · by_cases e : j = k
        · subst e
          rw [hg] at e1
          cases e1
          exact .inr ⟨j, { g with params := before ++ { p with type := ty } :: ps }, i, rfl,
            by simp [ASt.setFn, ASt.setDecl], e2, e3, rfl⟩
        · exact .inr ⟨j, f1, i, rfl, by simpa [ASt.setFn, ASt.setDecl, e] using e1, e2, e3, rfl⟩
    refine samePs_comp (R := Redirect s1) (R' := Eq) ?_ (samePs_append (a1.liftPs hb) (.cons hpp .nil))
      (samePs_refl (fun _ => rfl) _)
    rintro a b _ hab rfl
    exact hup _ _ hab

theorem shape_requires {s0 s s' : ASt} {k : Key} {f : AFn} {e : AExpr} (hf : s0.fns k = some f)
    (he : f.requires_ = some e) (h : Shape s0 s) (hx : Ana.requires_ n af k e s = .ok () s') : Shape s0 s' := by
  unfold Ana.requires_ at hx
  cases hcv : e.cv with
  | some v =>
    simp only [hcv, AM.pure_ok, true_and] at hx
    subst hx
    exact h
  | none =>
    simp only [hcv, AM.bind_ok, updateFn_ok, AM.assert_ok, AM.deref_ok, AM.ite_fail_ok, AM.get_ok,
      AM.pure_ok] at hx
    obtain ⟨e1, s1, h1, _, _, ⟨g, hg, rfl⟩, _, _, ⟨_, rfl⟩, v, _, ⟨_, rfl⟩, _, b, _, ⟨_, rfl⟩, _, _, rfl⟩ := hx
    obtain ⟨a1, a2⟩ := shape_expr haf e h.inv h1
    have b1 := h.trans a1
    obtain ⟨g1, hg1, hsame⟩ := b1.fns k f hf
    rw [hg] at hg1
    cases hg1
    exact b1.setFn hf hg { hsame with reqs := by rw [he]; exact .some a2 } rfl

end

theorem shape_compile {s0 s s' : ASt} {k : Key} {f : AFn} (hf : s0.fns k = some f) (h : Shape s0 s)
    (hx : Ana.compile k s = .ok () s') : Shape s0 s' := by
  simp only [Ana.compile, AM.bind_ok, AM.read_ok, AM.value_ok, AM.lift_ok, AM.modify_ok, updateFn_ok] at hx
  obtain ⟨_, _, ⟨rfl, rfl⟩, g, _, ⟨hg, rfl⟩, ⟨c, a⟩, _, ⟨hl, rfl⟩, _, _, rfl, g1, hg1, rfl⟩ := hx
  have b1 : Shape s0 { s with code := c } := h.trans (.of_fns h.inv rfl rfl)
  obtain ⟨g2, hg2, hsame⟩ := b1.fns k f hf
  rw [hg1] at hg2
  cases hg2
  exact b1.setFn hf hg1 { hsame with } rfl

theorem shape_done {s0 s s' : ASt} {k : Key} {f : AFn} {lvl : Level} {ret : AType} (hf : s0.fns k = some f)
    (h : Shape s0 s) (hx : doneTail k lvl ret s = .ok () s') : Shape s0 s' := by
  simp only [doneTail, AM.bind_ok, AM.modify_ok, updateFn_ok] at hx
  obtain ⟨_, _, ⟨g1, hg1, rfl⟩, rfl⟩ := hx
  obtain ⟨g2, hg2, hsame⟩ := h.fns k f hf
  rw [hg1] at hg2
  cases hg2
  have b := h.setFn (g' := { g1 with cv := ret.cv, level := lvl }) hf hg1 { hsame with } rfl
  exact b.trans (.of_fns b.inv rfl rfl)

theorem shape_compileTail {s0 s s' : ASt} {k : Key} {f : AFn} {lvl : Level} {ret : AType}
    (hf : s0.fns k = some f) (h : Shape s0 s) (hx : compileTail k lvl ret s = .ok () s') : Shape s0 s' := by
  unfold compileTail at hx
  split at hx
  · simp only [AM.bind_ok] at hx
    obtain ⟨_, s1, h1, hx⟩ := hx
    exact shape_done hf (shape_compile hf h h1) hx
  · exact shape_done hf h hx

theorem shape_function : ∀ n, AfShape (Ana.function n) := by
  intro n
  induction n with
  | zero => intro k l s s' _ hx; simp [Ana.function, AM.timeout_ok] at hx
  | succ n ih =>
    intro k lvl s s' h hx
    have hx0 := hx
    simp only [Ana.function, AM.bind_ok, AM.assert_ok, AM.read_ok, AM.value_ok] at hx
    obtain ⟨_, _, ⟨_, rfl⟩, _, _, ⟨rfl, rfl⟩, f, _, ⟨hf, rfl⟩, hx⟩ := hx
    by_cases hle : lvl.rank ≤ f.level.rank
    · rw [if_pos hle] at hx
      simp only [AM.pure_ok, true_and] at hx
      subst hx
      exact .refl h
    rw [if_neg hle] at hx
    by_cases hg : f.generic = true
    · rw [if_pos hg] at hx
      have key : ∀ (is : List AInstance) (s s' : ASt), KeyInv s →
          (is.forM fun i => Ana.function n i.key lvl) s = .ok () s' → Shape s s' := by
        intro is
        induction is with
        | nil =>
          intro s s' h hx
          change (pure () : AM Unit) s = _ at hx
          simp only [AM.pure_ok, true_and] at hx
          subst hx
          exact .refl h
        | cons i is ih' =>
          intro s s' h hx
          change (Ana.function n i.key lvl >>= fun _ => is.forM fun i => Ana.function n i.key lvl) s = _ at hx
          simp only [AM.bind_ok] at hx
          obtain ⟨_, s1, h1, hx⟩ := hx
          have a := ih _ _ _ _ h h1
          exact a.trans (ih' s1 s' a.inv hx)
      exact key _ _ _ h hx
    · obtain ⟨s1, ret, s2, f1, s4, g, h1, h2, hf1, h4, hg4, hb⟩ :=
        function_chain hf (by simpa using hg) hle hx0
      have a1 := shape_params ih hf f.params [] [] (.refl h) rfl .nil h1
      obtain ⟨b1, b2⟩ := shape_type ih _ a1.inv h2
      have a2 := a1.trans b1
      obtain ⟨f1', hf1', hsame⟩ := a2.fns k f hf
      rw [hf1] at hf1'
      cases hf1'
      have a3 := a2.setFn (g' := { f1 with ret := ret }) hf hf1 { hsame with ret := b2 } rfl
      have a3' : Shape s { s2.setFn k { f1 with ret := ret } with stack := k :: s2.stack } :=
        a3.trans (.of_fns a3.inv rfl rfl)
      have a4 : Shape s s4 := by
        cases hr : f.requires_ with
        | none =>
          simp only [hr, AM.pure_ok, true_and] at h4
          rw [← h4]
          exact a3'
        | some e =>
          simp only [hr] at h4
          exact shape_requires ih hf hr a3' h4
      obtain ⟨g', hg', hsame4⟩ := a4.fns k f hf
      rw [hg4] at hg'
      cases hg'
      have a5 := a4.setFn (g' := { g with level := if g.level = .unanalyzed then .shallow else g.level }) hf hg4
        { hsame4 with } rfl
      unfold bodyTail at hb
      split at hb
      · simp only [AM.bind_ok, AM.get_ok, AM.value_ok, updateFn_ok] at hb
        obtain ⟨_, _, ⟨_, rfl⟩, t, _, ⟨_, rfl⟩, body, s6, h6, _, _, ⟨g6, hg6, rfl⟩, hb⟩ := hb
        obtain ⟨c1, c2⟩ := shape_stmts ih _ a5.inv h6
        have a6 := a5.trans c1
        obtain ⟨g7, hg7, hsame6⟩ := a6.fns k f hf
        rw [hg6] at hg7
        cases hg7
        exact shape_compileTail hf (a6.setFn (g' := { g6 with body := body }) hf hg6 { hsame6 with body := c2 } rfl) hb
      · exact shape_compileTail hf a5 hb

/-! ## The program -/

theorem shape_decl {n : Nat} {d : ADecl} {s s' : ASt} (h : KeyInv s) (hx : Ana.decl n d s = .ok () s') :
    Shape s s' := by
  cases d with
  | const_ k cv name ty init =>
    cases cv with
    | some v =>
      simp only [Ana.decl, AM.pure_ok, true_and] at hx
      subst hx
      exact .refl h
    | none =>
      simp only [Ana.decl, AM.bind_ok] at hx
      obtain ⟨⟨v, ty1, init1⟩, s1, h1, hx⟩ := hx
      simp only [AM.modify_ok] at hx
      subst hx
      have a := (shape_const (shape_function n) h h1).1
      exact a.trans (.of_fns a.inv rfl rfl)
  | staticAssert k cv e =>
    cases cv with
    | some v =>
      simp only [Ana.decl, AM.assert_ok] at hx
      rw [← hx.2]
      exact .refl h
    | none =>
      simp only [Ana.decl, AM.bind_ok, AM.pure_ok, true_and] at hx
      obtain ⟨⟨v, e1⟩, s1, h1, rfl⟩ := hx
      exact (shape_staticAssert (shape_function n) h h1).1
  | function f => exact shape_function n _ _ _ _ h hx

theorem shape_decls {n : Nat} : ∀ {ds : List ADecl} {s s' : ASt}, KeyInv s → Ana.decls n ds s = .ok () s' →
    Shape s s'
  | [], s, s', h, hx => by
    simp only [Ana.decls, AM.pure_ok, true_and] at hx
    subst hx
    exact .refl h
  | d :: ds, s, s', h, hx => by
    simp only [Ana.decls, AM.bind_ok] at hx
    obtain ⟨_, s1, h1, hx⟩ := hx
    have a := shape_decl h h1
    exact a.trans (shape_decls a.inv hx)

end Bms
