import Verif.Lemmas.AnalyzeProgram
import Verif.Model.Generate
import Verif.Spec.GenC
import Verif.Spec.Generate
import Verif.Spec.Scopes

/-!
# What analysis finds is what generators read
-/

namespace Bms

open Spec

namespace Gen

theorem typeOf_erase {ty : AType} {t : CType} (h : ty.eraseType = some t) : C.TypeOf ty t := by
  cases ty with
  | base k cv b =>
    simp only [AType.eraseType, AType.concreteType] at h
    cases b <;> simp [BaseType.type] at h <;> subst h <;> constructor
  | uint k cv w e =>
    cases w with
    | none => simp [AType.eraseType, AType.concreteType] at h
    | some w =>
      simp only [AType.eraseType, AType.concreteType] at h
      by_cases hw : 1 < w ∧ w < 128
      · have hm : CType.mkUint (ε := Unit) (w : Int) = .ok (.uint w) := by
          have h1 : (w : Int) ≤ 128 := by omega
          have h2 : (w : Int) > 1 := by omega
          have h3 : (w : Int) > 0 := by omega
          have h4 : (w : Int) < 128 := by omega
          simp only [CType.mkUint, h1, h2, h3, h4, Outcome.assert, decide_true, Bool.and_self]
          rfl
        rw [hm] at h
        cases h
        exact .uint hw.1 hw.2
      · have hm : CType.mkUint (ε := Unit) (w : Int) = .throws := by
          unfold CType.mkUint
          by_cases h1 : w ≤ 128
          · by_cases h2 : 1 < w
            · have h3 : ¬ ((w : Int) < 128) := by omega
              have h1 : (w : Int) ≤ 128 := by omega
              have h2 : (w : Int) > 1 := by omega
              simp only [h1, h2, h3, Outcome.assert, decide_true, decide_false, Bool.and_false]
              rfl
            · have h1 : (w : Int) ≤ 128 := by omega
              have h2 : ¬ ((w : Int) > 1) := by omega
              simp only [h1, h2, Outcome.assert, decide_true, decide_false]
              rfl
          · have h1 : ¬ ((w : Int) ≤ 128) := by omega
            simp only [h1, Outcome.assert, decide_false]
            rfl
        rw [hm] at h
        cases h

/-! ## Constants -/

/-- The constants of the statement are those of the state. -/
def FromState (s : ASt) (x : Key × Option Value) : Prop := s.decl x.1 = some ⟨.const_, x.2⟩

/-- The kinds of declarations are those of the state. -/
def KindsIn (s : ASt) (l : List (Key × DeclKind)) : Prop := ∀ d ∈ l, ∃ cv, s.decl d.1 = some ⟨d.2, cv⟩

theorem const_decl {s : ASt} {k : Key} {cv : Option Value} (h : s.decl k = some ⟨.const_, cv⟩) {v : CVal}
    (hv : (s.decl k).bind declConst = some v) : cv = some (Value.known v) := by
  rw [h] at hv
  cases cv with
  | none => simp [declConst] at hv
  | some w =>
    obtain ⟨t, x⟩ := w
    cases x with
    | none => simp [declConst] at hv
    | some x => simp [declConst] at hv; subst hv; rfl

theorem unknown_decl {s : ASt} {k : Key} {cv : Option Value} (h : s.decl k = some ⟨.const_, cv⟩) {t : CType}
    (hv : (s.decl k).bind declVar = some t) : cv = some (Value.unknownOf t) := by
  rw [h] at hv
  cases cv with
  | none => simp [declVar] at hv
  | some w =>
    obtain ⟨t, x⟩ := w
    cases x with
    | some x => simp [declVar] at hv
    | none => simp [declVar] at hv; subst hv; rfl

mutual

theorem constantsS_typed {s : ASt} {min : Level} {ret : CType} : {st : AStmt} → {loop : Bool} →
    TypedS (ctxOf min s) ret loop st.erase → KindsIn s (declsS st) → ∀ x ∈ GenC.constantsS st, FromState s x
  | .const_ k cv x t e, loop, h, hk => by
    simp only [GenC.constantsS, List.mem_singleton]
    rintro _ rfl
    obtain ⟨cv', hc⟩ := hk (k, .const_) (by simp [declsS])
    simp only [AStmt.erase] at h
    cases h with
    | const_ h => rw [const_decl hc h] at hc; exact hc
    | constUnknown _ h => rw [unknown_decl hc h] at hc; exact hc
  | .ifThen _ _ _ b, loop, h, hk => by
    simp only [AStmt.erase] at h
    cases h with
    | ifThen _ _ _ h => exact constantsS_typed (st := b) h hk
  | .ifElse _ _ _ b e, loop, h, hk => by
    simp only [AStmt.erase] at h
    cases h with
    | ifElse _ _ _ h h' =>
      intro x hx
      rcases List.mem_append.1 hx with hx | hx
      · exact constantsS_typed h (fun d hd => hk d (by simp [declsS, hd])) x hx
      · exact constantsS_typed h' (fun d hd => hk d (by simp [declsS, hd])) x hx
  | .while_ _ _ _ b, loop, h, hk => by
    simp only [AStmt.erase] at h
    cases h with
    | while_ _ _ _ h => exact constantsS_typed (st := b) h hk
  | .block _ _ ss, loop, h, hk => by
    simp only [AStmt.erase] at h
    cases h with
    | block h => exact constantsSs_typed h hk
  | .let_ .., _, _, _ | .staticAssert .., _, _, _ | .control .., _, _, _ | .assign .., _, _, _
  | .call .., _, _, _ => by simp [GenC.constantsS]

theorem constantsSs_typed {s : ASt} {min : Level} {ret : CType} : {ss : List AStmt} → {loop : Bool} →
    TypedSs (ctxOf min s) ret loop (eraseStmts ss) → KindsIn s (declsSs ss) →
    ∀ x ∈ GenC.constantsSs ss, FromState s x
  | [], _, _, _ => by simp [GenC.constantsSs]
  | a :: ss, loop, h, hk => by
    simp only [eraseStmts] at h
    cases h with
    | cons h h' =>
      intro x hx
      rcases List.mem_append.1 hx with hx | hx
      · exact constantsS_typed h (fun d hd => hk d (by simp [declsSs, hd])) x hx
      · exact constantsSs_typed h' (fun d hd => hk d (by simp [declsSs, hd])) x hx

end

mutual

theorem constantsS_raw {s : ASt} : {st : AStmt} → RawS st → KindsIn s (declsS st) →
    (∀ x ∈ (declsS st).map Prod.fst, Unset s x) → ∀ x ∈ GenC.constantsS st, FromState s x
  | .const_ k cv x t e, h, hk, hu => by
    simp only [GenC.constantsS, List.mem_singleton]
    rintro _ rfl
    obtain ⟨cv', hc⟩ := hk (k, .const_) (by simp [declsS])
    obtain ⟨rfl, -⟩ := h
    cases cv' with
    | none => exact hc
    | some v => exact absurd hc (hu k (by simp [declsS]) _ _)
  | .ifThen _ _ _ b, h, hk, hu => constantsS_raw (st := b) h.2.2 hk hu
  | .ifElse _ _ _ b e, h, hk, hu => by
    intro x hx
    rcases List.mem_append.1 hx with hx | hx
    · exact constantsS_raw h.2.2.1 (fun d hd => hk d (by simp [declsS, hd]))
        (fun y hy => hu y (by rw [declsS, List.map_append]; exact List.mem_append_left _ hy)) x hx
    · exact constantsS_raw h.2.2.2 (fun d hd => hk d (by simp [declsS, hd]))
        (fun y hy => hu y (by rw [declsS, List.map_append]; exact List.mem_append_right _ hy)) x hx
  | .while_ _ _ _ b, h, hk, hu => constantsS_raw (st := b) h.2.2 hk hu
  | .block _ _ ss, h, hk, hu => constantsSs_raw (ss := ss) h.2 hk hu
  | .let_ .., _, _, _ | .staticAssert .., _, _, _ | .control .., _, _, _ | .assign .., _, _, _
  | .call .., _, _, _ => by simp [GenC.constantsS]

theorem constantsSs_raw {s : ASt} : {ss : List AStmt} → RawSs ss → KindsIn s (declsSs ss) →
    (∀ x ∈ (declsSs ss).map Prod.fst, Unset s x) → ∀ x ∈ GenC.constantsSs ss, FromState s x
  | [], _, _, _ => by simp [GenC.constantsSs]
  | a :: ss, h, hk, hu => by
    intro x hx
    rcases List.mem_append.1 hx with hx | hx
    · exact constantsS_raw h.1 (fun d hd => hk d (by simp [declsSs, hd]))
        (fun y hy => hu y (by rw [declsSs, List.map_append]; exact List.mem_append_left _ hy)) x hx
    · exact constantsSs_raw h.2 (fun d hd => hk d (by simp [declsSs, hd]))
        (fun y hy => hu y (by rw [declsSs, List.map_append]; exact List.mem_append_right _ hy)) x hx

end

theorem constantNodes_mem : ∀ {ds : List ADecl} {x : Key × Option Value}, x ∈ GenC.constantNodes ds →
    (∃ n t e, .const_ x.1 x.2 n t e ∈ ds) ∨ ∃ f, .function f ∈ ds ∧ x ∈ GenC.constantsSs f.body
  | [], _, h => by simp [GenC.constantNodes] at h
  | .const_ k cv n t e :: ds, x, h => by
    simp only [GenC.constantNodes, List.mem_cons] at h
    rcases h with rfl | h
    · exact .inl ⟨n, t, e, by simp⟩
    · rcases constantNodes_mem h with ⟨n, t, e, h⟩ | ⟨f, h, h'⟩
      · exact .inl ⟨n, t, e, by simp [h]⟩
      · exact .inr ⟨f, by simp [h], h'⟩
  | .staticAssert k cv e :: ds, x, h => by
    rcases constantNodes_mem (ds := ds) h with ⟨n, t, e, h⟩ | ⟨f, h, h'⟩
    · exact .inl ⟨n, t, e, by simp [h]⟩
    · exact .inr ⟨f, by simp [h], h'⟩
  | .function f :: ds, x, h => by
    rcases List.mem_append.1 h with h | h
    · exact .inr ⟨f, by simp, h⟩
    · rcases constantNodes_mem h with ⟨n, t, e, h⟩ | ⟨f, h, h'⟩
      · exact .inl ⟨n, t, e, by simp [h]⟩
      · exact .inr ⟨f, by simp [h], h'⟩

theorem constants_mem {ds : List ADecl} {k : Key} {cv : Option Value} (h : GenC.constants ds k = some cv) :
    (k, cv) ∈ GenC.constantNodes ds := by
  unfold GenC.constants at h
  revert h
  induction GenC.constantNodes ds with
  | nil => simp
  | cons a l ih =>
    intro h
    rw [List.lookup_cons] at h
    cases hk : k == a.1 with
    | true =>
      simp only [hk] at h
      have : k = a.1 := by simpa using hk
      cases h
      rw [this]
      simp
    | false =>
      simp only [hk] at h
      exact List.mem_cons_of_mem _ (ih h)

/-! ## Values -/

/-- The values of the constants of a program are those of the state. -/
def Reads (cs : C.Consts) (s : ASt) : Prop := ∀ k cv, cs k = some cv → FromState s (k, cv)

/-- All constants whose values are found have known values. -/
def KnownConstants (cs : C.Consts) : Prop := ∀ k v, cs k = some (some v) → v.val ≠ none

theorem known_of {cs : C.Consts} (hk : KnownConstants cs) {k : Key} {v : Value}
    (h : cs k = some (some v)) : C.Known (some v) := by
  have := hk k v h
  obtain ⟨t, x⟩ := v
  cases x with
  | none => exact absurd rfl this
  | some x => exact ⟨t, x, rfl⟩

mutual

theorem readyE_of {s : ASt} {min : Level} {cs : C.Consts} {c23 : Bool} (hr : Reads cs s)
    (hk : KnownConstants cs) : {e : AExpr} → Typed (ctxOf min s) e.erase → C.ReadyE cs c23 e
  | .literal _ cv l, h => by
    simp only [AExpr.erase] at h
    cases h with
    | literal h => exact ⟨_, _, rfl⟩
  | .id _ cv x ref g, h => by
    rintro - v ⟨n, rfl, hn⟩
    simp only [AExpr.erase] at h
    have hd : s.decl n = some ⟨.const_, v⟩ := hr _ _ hn
    cases h with
    | var _ h => rw [unknown_decl hd h] at hn; exact absurd rfl (hk _ _ hn)
    | const_ h => rw [const_decl hd h]; exact ⟨_, _, rfl⟩
  | .conversion _ cv e t, h => by
    simp only [AExpr.erase] at h
    generalize ht : t.eraseType = t' at h
    cases h with
    | conversion h _ _ _ _ => exact ⟨readyE_of hr hk h, _, typeOf_erase ht⟩
  | .ite _ cv l c r, h => by
    simp only [AExpr.erase] at h
    cases h with
    | ite h1 h2 h3 _ _ _ _ _ => exact ⟨readyE_of hr hk h1, readyE_of hr hk h2, readyE_of hr hk h3⟩
  | .binary _ cv op l r, h => by
    simp only [AExpr.erase] at h
    cases h with
    | binary h1 h2 _ _ _ _ => exact ⟨readyE_of hr hk h1, readyE_of hr hk h2⟩
  | .prefix _ cv op e, h => by
    simp only [AExpr.erase] at h
    cases h with
    | pre h _ _ _ => exact readyE_of (e := e) hr hk h
  | .call _ cv st x ref args, h => by
    simp only [AExpr.erase] at h
    generalize ha : eraseAll args = as at h
    cases h with
    | call _ h _ => exact readyEs_of hr hk (by rw [ha]; exact h)
    | builtin h _ _ => exact readyEs_of hr hk (by rw [ha]; exact h)

theorem readyEs_of {s : ASt} {min : Level} {cs : C.Consts} {c23 : Bool} (hr : Reads cs s)
    (hk : KnownConstants cs) : {es : List AExpr} → (∀ e ∈ eraseAll es, Typed (ctxOf min s) e) →
    C.ReadyEs cs c23 es
  | [], _ => trivial
  | e :: es, h => ⟨readyE_of hr hk (h _ (by simp [eraseAll])),
    readyEs_of hr hk fun e he => h e (by simp [eraseAll, he])⟩

end

mutual

theorem readyS_of {s : ASt} {min : Level} {cs : C.Consts} {c23 : Bool} {ret : CType} (hr : Reads cs s)
    (hk : KnownConstants cs) : {st : AStmt} → {loop : Bool} → TypedS (ctxOf min s) ret loop st.erase →
    BlocksS st → (∀ x ∈ GenC.constantsS st, ∀ v, x.2 = some v → v.val ≠ none) → C.ReadyS cs c23 st
  | .const_ k cv x t e, loop, h, _, hc => by
    intro _
    simp only [AStmt.erase] at h
    cases h with
    | const_ h => exact ⟨_, _, rfl⟩
    | constUnknown _ h => exact absurd rfl (hc (k, _) (by simp [GenC.constantsS]; rfl) _ rfl)
  | .let_ k cv x t e, loop, h, _, _ => by
    simp only [AStmt.erase] at h
    generalize he : e.map AExpr.erase = e' at h
    cases h with
    | letNone _ _ =>
      cases e with
      | none => exact ⟨by simp, trivial⟩
      | some e => cases he
    | letInit _ _ h _ _ =>
      cases e with
      | none => cases he
      | some e => cases he; exact ⟨by simp, readyE_of hr hk h⟩
  | .staticAssert .., _, _, _, _ => trivial
  | .ifThen _ _ c b, loop, h, hb, hc => by
    simp only [AStmt.erase] at h
    cases h with
    | ifThen h _ _ h' => exact ⟨readyE_of hr hk h, hb.1, readyS_of hr hk h' hb.2 hc⟩
  | .ifElse _ _ c b e, loop, h, hb, hc => by
    simp only [AStmt.erase] at h
    cases h with
    | ifElse h _ _ h' h'' =>
      exact ⟨readyE_of hr hk h, hb.1, readyS_of hr hk h' hb.2.1 fun x hx => hc x (List.mem_append_left _ hx),
        hb.2.2.1, readyS_of hr hk h'' hb.2.2.2 fun x hx => hc x (List.mem_append_right _ hx)⟩
  | .while_ _ _ c b, loop, h, hb, hc => by
    simp only [AStmt.erase] at h
    cases h with
    | while_ h _ _ h' => exact ⟨readyE_of hr hk h, hb.1, readyS_of hr hk h' hb.2 hc⟩
  | .control _ cv c e, loop, h, _, _ => by
    simp only [AStmt.erase] at h
    generalize he : e.map AExpr.erase = e' at h
    cases e with
    | none => trivial
    | some e =>
      cases he
      cases h with
      | return_ h _ _ _ => exact readyE_of (e := e) hr hk h
  | .assign _ cv x ref e, loop, h, _, _ => by
    simp only [AStmt.erase] at h
    cases h with
    | assign _ _ h _ _ _ => exact readyE_of (e := e) hr hk h
  | .block _ _ ss, loop, h, hb, hc => by
    simp only [AStmt.erase] at h
    cases h with
    | block h => exact readySs_of (ss := ss) hr hk h hb hc
  | .call e, loop, h, _, _ => by
    cases e with
    | call k cv st x ref args =>
      simp only [AStmt.erase, AExpr.erase] at h
      generalize ha : eraseAll args = as at h
      cases h with
      | call h =>
        cases h with
        | call _ h _ => exact readyEs_of (es := args) hr hk (by rw [ha]; exact h)
        | builtin h _ _ => exact readyEs_of (es := args) hr hk (by rw [ha]; exact h)
    | _ => simp only [AStmt.erase, AExpr.erase] at h; cases h

theorem readySs_of {s : ASt} {min : Level} {cs : C.Consts} {c23 : Bool} {ret : CType} (hr : Reads cs s)
    (hk : KnownConstants cs) : {ss : List AStmt} → {loop : Bool} →
    TypedSs (ctxOf min s) ret loop (eraseStmts ss) → BlocksSs ss →
    (∀ x ∈ GenC.constantsSs ss, ∀ v, x.2 = some v → v.val ≠ none) → C.ReadySs cs c23 ss
  | [], _, _, _, _ => trivial
  | a :: ss, loop, h, hb, hc => by
    simp only [eraseStmts] at h
    cases h with
    | cons h h' =>
      exact ⟨readyS_of hr hk h hb.1 fun x hx => hc x (List.mem_append_left _ hx),
        readySs_of hr hk h' hb.2 fun x hx => hc x (List.mem_append_right _ hx)⟩

end

end Gen

end Bms
