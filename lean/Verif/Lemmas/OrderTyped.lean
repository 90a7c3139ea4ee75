import Verif.Lemmas.Order

/-!
# The rules for programs, if more is declared before (C89)
-/

namespace Bms

open Spec

/-- With `T'` and `seen'`, the same is known as with `T` and `seen`, and as much or more is declared before. -/
structure Later (T T' : Typing) (seen seen' : List Key) : Prop where
  names : SameFacts T.names T'.names
  var : ∀ k, T'.var k = T.var k
  fns : ∀ j, (T'.fns.find? fun f => f.k = j) = T.fns.find? fun f => f.k = j
  sub : ∀ k, seen.contains k = true → seen'.contains k = true

theorem Later.append {T T' : Typing} {seen seen' : List Key} (h : Later T T' seen seen') (ks : List Key) :
    Later T T' (seen ++ ks) (seen' ++ ks) := by
  refine ⟨h.names, h.var, h.fns, fun k hk => ?_⟩
  have := h.sub k
  simp only [List.contains_eq_mem, List.mem_append, decide_eq_true_eq] at hk this ⊢
  exact hk.imp this id

theorem before_later {T T' : Typing} {seen seen' : List Key} (h : Later T T' seen seen') {js : List Key}
    (hb : before seen js = true) : before seen' js = true := by
  simp only [before, List.all_eq_true] at hb ⊢
  exact fun j hj => h.sub j (hb j hj)

theorem valueE_later {T T' : Typing} {seen seen' : List Key} (h : Later T T' seen seen') {e : AExpr} {v : CVal}
    (hv : valueE T seen e = some v) : valueE T' seen' e = some v := by
  unfold valueE at hv ⊢
  rw [constE_same h.names]
  cases hc : constE T.names e with
  | ok u =>
    rw [hc] at hv
    simp only at hv ⊢
    by_cases hb : before seen (mentionsE e) = true
    · rw [if_pos hb] at hv
      rw [if_pos (before_later h hb)]
      exact hv
    · rw [if_neg hb] at hv; cases hv
  | _ => rw [hc] at hv; cases hv

theorem valueT_later {T T' : Typing} {seen seen' : List Key} (h : Later T T' seen seen') {ty : AType} {t : CType}
    (hv : valueT T seen ty = some t) : valueT T' seen' ty = some t := by
  unfold valueT at hv ⊢
  rw [constT_same h.names]
  cases hc : constT T.names ty with
  | ok u =>
    rw [hc] at hv
    simp only at hv ⊢
    by_cases hb : before seen (mentionsT ty) = true
    · rw [if_pos hb] at hv
      rw [if_pos (before_later h hb)]
      exact hv
    · rw [if_neg hb] at hv; cases hv
  | _ => rw [hc] at hv; cases hv

theorem valueTs_later {T T' : Typing} {seen seen' : List Key} (h : Later T T' seen seen') {tys : List AType}
    {ts : List CType} (hv : valueTs T seen tys = some ts) : valueTs T' seen' tys = some ts := by
  induction tys generalizing ts with
  | nil => exact hv
  | cons ty tys ih =>
    simp only [valueTs] at hv ⊢
    cases h1 : valueT T seen ty with
    | none => rw [h1] at hv; simp at hv
    | some t =>
      cases h2 : valueTs T seen tys with
      | none => rw [h1, h2] at hv; cases hv
      | some ts' =>
        rw [h1, h2] at hv
        rw [valueT_later h h1, ih h2]
        exact hv

theorem signatureOf_later {T T' : Typing} {seen seen' : List Key} (h : Later T T' seen seen') {j : Key}
    {s : List CType × CType} (hv : signatureOf T seen j = some s) : signatureOf T' seen' j = some s := by
  unfold signatureOf at hv ⊢
  rw [h.fns]
  cases hf : T.fns.find? fun f => f.k = j with
  | none => rw [hf] at hv; cases hv
  | some f =>
    rw [hf] at hv
    simp only at hv ⊢
    by_cases hg : (f.generic || !f.requires_.all (fun e => valueE T seen e = some (CVal.ofBool true))) = true
    · rw [if_pos hg] at hv; cases hv
    · rw [if_neg hg] at hv
      have hg' : ¬ (f.generic || !f.requires_.all (fun e => valueE T' seen' e = some (CVal.ofBool true))) = true := by
        cases hr : f.requires_ with
        | none => simpa [hr] using hg
        | some e =>
          simp [hr] at hg ⊢
          exact ⟨hg.1, valueE_later h hg.2⟩
      rw [if_neg hg']
      cases h1 : valueTs T seen (f.params.map AParam.type) with
      | none => rw [h1] at hv; simp at hv
      | some ts =>
        cases h2 : valueT T seen f.ret with
        | none => rw [h1, h2] at hv; cases hv
        | some t =>
          rw [h1, h2] at hv
          rw [valueTs_later h h1, valueT_later h h2]
          exact hv

theorem mayHold_later {T T' : Typing} {seen seen' : List Key} (h : Later T T' seen seen') {e : AExpr}
    (hm : mayHold T seen e = true) : mayHold T' seen' e = true := by
  simp only [mayHold, Bool.or_eq_true, decide_eq_true_eq, openE_same h.names] at hm ⊢
  exact hm.imp id (valueE_later h)

mutual

theorem typeE_later {T T' : Typing} {seen seen' : List Key} (h : Later T T' seen seen') (self : Key)
    (own : List Key) : (e : AExpr) → {t : CType} → typeE T self own seen e = some t →
      typeE T' self own seen' e = some t
  | .literal .., t, ht => by simpa only [typeE] using ht
  | .id _ _ _ ref _, t, ht => by
    simp only [typeE, h.names.kinds, h.names.value, h.var] at ht ⊢
    match ref with
    | some (.param p) => exact ht
    | some (.node j) =>
      simp only at ht ⊢
      by_cases hs : seen.contains j = true
      · rw [hs] at ht
        rw [h.sub j hs]
        exact ht
      · rw [Bool.not_eq_true] at hs
        rw [hs] at ht
        simp at ht
    | some (.builtin f) => exact ht
    | none => exact ht
  | .conversion _ _ e ty, t, ht => by
    simp only [typeE] at ht ⊢
    cases h1 : typeE T self own seen e with
    | none => rw [h1] at ht; simp at ht
    | some s =>
      cases h2 : valueT T seen ty with
      | none => rw [h1, h2] at ht; cases ht
      | some u =>
        rw [h1, h2] at ht
        rw [typeE_later h self own e h1, valueT_later h h2]
        exact ht
  | .ite _ _ l c r, t, ht => by
    simp only [typeE] at ht ⊢
    cases h1 : typeE T self own seen l with
    | none => rw [h1] at ht; simp at ht
    | some s =>
      cases h2 : typeE T self own seen c with
      | none => rw [h1, h2] at ht; simp at ht
      | some u =>
        cases h3 : typeE T self own seen r with
        | none => rw [h1, h2, h3] at ht; cases ht
        | some w =>
          rw [h1, h2, h3] at ht
          rw [typeE_later h self own l h1, typeE_later h self own c h2, typeE_later h self own r h3]
          exact ht
  | .binary _ _ _ l r, t, ht => by
    simp only [typeE] at ht ⊢
    cases h1 : typeE T self own seen l with
    | none => rw [h1] at ht; simp at ht
    | some s =>
      cases h2 : typeE T self own seen r with
      | none => rw [h1, h2] at ht; cases ht
      | some u =>
        rw [h1, h2] at ht
        rw [typeE_later h self own l h1, typeE_later h self own r h2]
        exact ht
  | .prefix _ _ _ e, t, ht => by
    simp only [typeE] at ht ⊢
    cases h1 : typeE T self own seen e with
    | none => rw [h1] at ht; cases ht
    | some s =>
      rw [h1] at ht
      rw [typeE_later h self own e h1]
      exact ht
  | .call _ _ _ _ ref args, t, ht => by
    simp only [typeE] at ht ⊢
    cases h1 : typeEs T self own seen args with
    | none =>
      rw [h1] at ht
      match ref with
      | some (.param p) => cases ht
      | some (.node j) => cases ht
      | some (.builtin f) => cases ht
      | none => cases ht
    | some ts =>
      rw [h1] at ht
      rw [typeEs_later h self own args h1]
      match ref with
      | some (.param p) => cases ht
      | none => cases ht
      | some (.builtin f) =>
        simp only at ht ⊢
        by_cases hm : args.all (mayHold T seen) = true
        · rw [if_pos hm] at ht
          rw [if_pos]
          · exact ht
          · rw [List.all_eq_true] at hm ⊢
            exact fun e he => mayHold_later h (hm e he)
        · rw [if_neg hm] at ht; cases ht
      | some (.node j) =>
        simp only at ht ⊢
        cases h2 : signatureOf T seen j with
        | none => rw [h2] at ht; cases ht
        | some s =>
          rw [h2] at ht
          rw [signatureOf_later h h2]
          exact ht

theorem typeEs_later {T T' : Typing} {seen seen' : List Key} (h : Later T T' seen seen') (self : Key)
    (own : List Key) : (es : List AExpr) → {ts : List CType} → typeEs T self own seen es = some ts →
      typeEs T' self own seen' es = some ts
  | [], ts, ht => by simpa only [typeEs] using ht
  | e :: es, ts, ht => by
    simp only [typeEs] at ht ⊢
    cases h1 : typeE T self own seen e with
    | none => rw [h1] at ht; simp at ht
    | some s =>
      cases h2 : typeEs T self own seen es with
      | none => rw [h1, h2] at ht; cases ht
      | some u =>
        rw [h1, h2] at ht
        rw [typeE_later h self own e h1, typeEs_later h self own es h2]
        exact ht

end

theorem constantOf_later {T T' : Typing} {seen seen' : List Key} (h : Later T T' seen seen') {ty : Option AType}
    {e : AExpr} {v : CVal} (hv : constantOf T seen ty e = some v) : constantOf T' seen' ty e = some v := by
  cases ty with
  | none => exact valueE_later h hv
  | some ty =>
    simp only [constantOf] at hv ⊢
    cases h1 : valueT T seen ty with
    | none => rw [h1] at hv; simp at hv
    | some t =>
      cases h2 : valueE T seen e with
      | none => rw [h1, h2] at hv; cases hv
      | some u =>
        rw [h1, h2] at hv
        rw [valueT_later h h1, valueE_later h h2]
        exact hv

theorem okConst_later {T T' : Typing} {seen seen' : List Key} (h : Later T T' seen seen') {k : Key}
    {ty : Option AType} {e : AExpr} (hv : okConst T seen k ty e = true) : okConst T' seen' k ty e = true := by
  simp only [okConst, Bool.and_eq_true, decide_eq_true_eq, h.names.kinds, h.names.value] at hv ⊢
  obtain ⟨⟨h1, h2⟩, h3⟩ := hv
  obtain ⟨v, hv⟩ := Option.isSome_iff_exists.1 h2
  rw [hv] at h3
  rw [constantOf_later h hv]
  exact ⟨⟨h1, rfl⟩, h3⟩

theorem varType_later {T T' : Typing} {seen seen' : List Key} (h : Later T T' seen seen') {self : Key}
    {own : List Key} {ty : Option AType} {e : Option AExpr} {t : CType}
    (hv : varType T self own seen ty e = some t) : varType T' self own seen' ty e = some t := by
  cases ty with
  | none =>
    cases e with
    | none => exact hv
    | some e => exact typeE_later h self own e hv
  | some ty =>
    cases e with
    | none => exact valueT_later h hv
    | some e =>
      simp only [varType] at hv ⊢
      cases h1 : valueT T seen ty with
      | none => rw [h1] at hv; simp at hv
      | some t =>
        cases h2 : typeE T self own seen e with
        | none => rw [h1, h2] at hv; cases hv
        | some u =>
          rw [h1, h2] at hv
          rw [valueT_later h h1, typeE_later h self own e h2]
          exact hv

theorem fits_later {T T' : Typing} {seen seen' : List Key} (h : Later T T' seen seen') {self : Key}
    {own : List Key} {e : AExpr} {t : CType} (hv : fits T self own seen e t = true) :
    fits T' self own seen' e t = true := by
  unfold fits at hv ⊢
  cases h1 : typeE T self own seen e with
  | none => rw [h1] at hv; cases hv
  | some s =>
    rw [h1] at hv
    rw [typeE_later h self own e h1]
    exact hv

mutual

theorem okS_later {T T' : Typing} (self : Key) (own : List Key) (ret : CType) :
    (s : AStmt) → (loop : Bool) → {seen seen' : List Key} → Later T T' seen seen' →
      okS T self own ret loop seen s = true → okS T' self own ret loop seen' s = true
  | .const_ .., loop, _, _, h, ht => by
    simp only [okS] at ht ⊢
    exact okConst_later h ht
  | .let_ .., loop, _, _, h, ht => by
    simp only [okS, Bool.and_eq_true, decide_eq_true_eq, h.names.kinds, h.var] at ht ⊢
    obtain ⟨⟨h1, h2⟩, h3⟩ := ht
    obtain ⟨v, hv⟩ := Option.isSome_iff_exists.1 h2
    rw [hv] at h3
    rw [varType_later h hv]
    exact ⟨⟨h1, rfl⟩, h3⟩
  | .staticAssert .., loop, _, _, h, ht => by
    simp only [okS, decide_eq_true_eq] at ht ⊢
    exact valueE_later h ht
  | .ifThen _ _ c t, loop, _, _, h, ht => by
    simp only [okS, Bool.and_eq_true, decide_eq_true_eq] at ht ⊢
    exact ⟨typeE_later h self own c ht.1, okS_later self own ret t loop h ht.2⟩
  | .ifElse _ _ c t e, loop, _, _, h, ht => by
    simp only [okS, Bool.and_eq_true, decide_eq_true_eq] at ht ⊢
    exact ⟨⟨typeE_later h self own c ht.1.1, okS_later self own ret t loop h ht.1.2⟩,
      okS_later self own ret e loop h ht.2⟩
  | .while_ _ _ c b, loop, _, _, h, ht => by
    simp only [okS, Bool.and_eq_true, decide_eq_true_eq] at ht ⊢
    exact ⟨typeE_later h self own c ht.1, okS_later self own ret b true h ht.2⟩
  | .control _ _ c e, loop, _, _, h, ht => by
    match c, e with
    | .return_, none => simpa only [okS] using ht
    | .return_, some e =>
      simp only [okS] at ht ⊢
      exact fits_later h ht
    | .break_, _ => simpa only [okS] using ht
    | .continue_, _ => simpa only [okS] using ht
  | .assign _ _ _ ref e, loop, _, _, h, ht => by
    match ref with
    | some (.node j) =>
      simp only [okS, Bool.and_eq_true, h.names.kinds, h.var] at ht ⊢
      refine ⟨⟨h.sub j ht.1.1, ht.1.2⟩, ?_⟩
      cases hv : T.var j with
      | none => rw [hv] at ht; exact absurd ht.2 (by simp)
      | some t =>
        rw [hv] at ht
        exact fits_later h ht.2
    | some (.param _) => simp only [okS] at ht; cases ht
    | some (.builtin _) => simp only [okS] at ht; cases ht
    | none => simp only [okS] at ht; cases ht
  | .block _ _ ss, loop, _, _, h, ht => by
    simp only [okS] at ht ⊢
    exact okSs_later self own ret ss loop h ht
  | .call e, loop, seen, _, h, ht => by
    simp only [okS] at ht ⊢
    obtain ⟨t, he⟩ := Option.isSome_iff_exists.1 ht
    rw [typeE_later h self own e he]
    rfl

theorem okSs_later {T T' : Typing} (self : Key) (own : List Key) (ret : CType) :
    (ss : List AStmt) → (loop : Bool) → {seen seen' : List Key} → Later T T' seen seen' →
      okSs T self own ret loop seen ss = true → okSs T' self own ret loop seen' ss = true
  | [], loop, _, _, h, ht => by simp only [okSs]
  | s :: ss, loop, _, _, h, ht => by
    simp only [okSs, Bool.and_eq_true] at ht ⊢
    exact ⟨okS_later self own ret s loop h ht.1, okSs_later self own ret ss loop (h.append _) ht.2⟩

end

theorem okParams_later {T T' : Typing} {seen seen' : List Key} (h : Later T T' seen seen') (ps : List AParam)
    (ts : List CType) : okParams T' ps ts = okParams T ps ts := by
  induction ps generalizing ts with
  | nil => cases ts <;> rfl
  | cons p ps ih => cases ts <;> simp only [okParams, h.var, ih]

theorem okF_later {T T' : Typing} {seen seen' : List Key} (h : Later T T' seen seen') {f : AFn}
    (hf : okF T seen f = true) : okF T' seen' f = true := by
  unfold okF at hf ⊢
  cases h1 : signatureOf T seen f.k with
  | none => rw [h1] at hf; cases hf
  | some s =>
    rw [h1] at hf
    rw [signatureOf_later h h1]
    obtain ⟨ts, t⟩ := s
    simp only [Bool.and_eq_true, okParams_later h] at hf ⊢
    exact ⟨hf.1, okSs_later f.k _ t f.body false h hf.2⟩

theorem okDs_later {T T' : Typing} {ds : List ADecl} {seen seen' : List Key} (h : Later T T' seen seen')
    (hd : okDs T seen ds = true) : okDs T' seen' ds = true := by
  induction ds generalizing seen seen' with
  | nil => rfl
  | cons d ds ih =>
    cases d with
    | const_ k cv name ty init =>
      simp only [okDs, Bool.and_eq_true] at hd ⊢
      exact ⟨okConst_later h hd.1, ih (h.append _) hd.2⟩
    | staticAssert k cv e =>
      simp only [okDs, Bool.and_eq_true, decide_eq_true_eq] at hd ⊢
      exact ⟨valueE_later h hd.1, ih h hd.2⟩
    | function f =>
      simp only [okDs, Bool.and_eq_true] at hd ⊢
      exact ⟨okF_later h hd.1, ih h hd.2⟩

/-- A function may be moved behind the declaration that follows. -/
theorem okDs_move {T : Typing} {l r : List ADecl} {f : AFn} {d : ADecl} {seen : List Key}
    (h : okDs T seen (l ++ .function f :: d :: r) = true) :
    okDs T seen (l ++ d :: .function f :: r) = true := by
  induction l generalizing seen with
  | nil =>
    simp only [List.nil_append] at h ⊢
    cases d with
    | const_ k cv name ty init =>
      simp only [okDs, Bool.and_eq_true] at h ⊢
      refine ⟨h.2.1, okF_later ⟨⟨fun _ => rfl, fun _ => rfl, fun _ => rfl⟩, fun _ => rfl, fun _ => rfl, ?_⟩ h.1, h.2.2⟩
      intro j hj
      simp only [List.contains_eq_mem, List.mem_append, decide_eq_true_eq] at hj ⊢
      exact .inl hj
    | staticAssert k cv e =>
      simp only [okDs, Bool.and_eq_true] at h ⊢
      exact ⟨h.2.1, h.1, h.2.2⟩
    | function g =>
      simp only [okDs, Bool.and_eq_true] at h ⊢
      exact ⟨h.2.1, h.1, h.2.2⟩
  | cons a l ih =>
    simp only [List.cons_append] at h ⊢
    cases a with
    | const_ k cv name ty init =>
      simp only [okDs, Bool.and_eq_true] at h ⊢
      exact ⟨h.1, ih h.2⟩
    | staticAssert k cv e =>
      simp only [okDs, Bool.and_eq_true] at h ⊢
      exact ⟨h.1, ih h.2⟩
    | function g =>
      simp only [okDs, Bool.and_eq_true] at h ⊢
      exact ⟨h.1, ih h.2⟩

end Bms
