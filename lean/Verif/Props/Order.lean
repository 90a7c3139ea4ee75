import Verif.Lemmas.OrderTyped
import Verif.Props.AnalysisCases

/-!
# Property C89: the order of functions does not matter
-/

namespace Bms

namespace Spec

/-- Functions have been moved towards the end: past constants, static assertions and other functions. Two
functions that follow each other may change places; other declarations keep their order. -/
inductive MovedFunctions : List ADecl → List ADecl → Prop
  | refl (ds : List ADecl) : MovedFunctions ds ds
  | step {l r ds' : List ADecl} {f : AFn} {d : ADecl} (h : MovedFunctions (l ++ d :: .function f :: r) ds') :
      MovedFunctions (l ++ .function f :: d :: r) ds'

/-- The declaration is no function. -/
def noFunction : ADecl → Bool
  | .function _ => false
  | _ => true

end Spec

open Spec

theorem find_perm {l l' : List AFn} (h : l.Perm l') (hn : (l.map AFn.k).Nodup) (j : Key) :
    (l'.find? fun f => f.k = j) = l.find? fun f => f.k = j := by
  induction h with
  | nil => rfl
  | cons x _ ih =>
    simp only [List.map_cons, List.nodup_cons] at hn
    simp only [List.find?_cons, ih hn.2]
  | swap x y l =>
    simp only [List.map_cons, List.nodup_cons, List.mem_cons, not_or] at hn
    simp only [List.find?_cons]
    by_cases hx : x.k = j
    · have hy : y.k ≠ j := fun h => hn.1.1 (h.trans hx.symm)
      simp [hx, hy]
    · simp [hx]
  | trans h1 _ ih1 ih2 =>
    rw [ih2 ((h1.map _).nodup_iff.1 hn), ih1 hn]

theorem functionsIn_keys (ds : List ADecl) : ((functionsIn ds).map AFn.k).Sublist (ds.flatMap nodeKeys) := by
  induction ds with
  | nil => exact .slnil
  | cons d ds ih =>
    cases d with
    | const_ => exact ih.trans (List.sublist_append_right _ _)
    | staticAssert => exact ih.trans (List.sublist_append_right _ _)
    | function f =>
      have : (functionsIn (.function f :: ds)).map AFn.k = [f.k] ++ (functionsIn ds).map AFn.k := rfl
      rw [this, List.flatMap_cons]
      refine List.Sublist.append ?_ ih
      simp [nodeKeys, Inst.keys]

theorem functionsIn_perm {ds ds' : List ADecl} (h : ds.Perm ds') : (functionsIn ds).Perm (functionsIn ds') :=
  List.Perm.flatMap_right _ h

theorem rawProgram_perm {ds ds' : List ADecl} {next : Nat} (h : RawProgram ds next) (hp : ds.Perm ds') :
    RawProgram ds' next := by
  have hk : (ds.flatMap nodeKeys).Perm (ds'.flatMap nodeKeys) := List.Perm.flatMap_right _ hp
  exact ⟨fun d hd => h.raw d (hp.mem_iff.2 hd), hk.nodup_iff.1 h.nodup, fun x hx => h.keys x (hk.mem_iff.2 hx)⟩

theorem names_perm {l ds ds' : List ADecl} (h : ds.Perm ds') {ds1 : List ADecl}
    (hx : Names.program (l ++ ds) = .ok ds1) : ∃ ds2, Names.program (l ++ ds') = .ok ds2 ∧ ds1.Perm ds2 := by
  induction h generalizing l ds1 with
  | nil => exact ⟨ds1, hx, .refl _⟩
  | @cons x a b _ ih =>
    have e : ∀ r : List ADecl, l ++ x :: r = (l ++ [x]) ++ r := by simp
    rw [e] at hx ⊢
    exact ih hx
  | swap x y r =>
    obtain ⟨l', a', b', r', rfl, h2, -⟩ := names_swap hx
    exact ⟨_, h2, (List.Perm.swap b' a' r').append_left l'⟩
  | trans _ _ ih1 ih2 =>
    obtain ⟨ds2, h1, h2⟩ := ih1 hx
    obtain ⟨ds3, h3, h4⟩ := ih2 h1
    exact ⟨ds3, h3, h2.trans h4⟩

/-- **C89, name lookup.** Whether the names of a program can be resolved, and to which declarations, does not
depend on the order of its global declarations. -/
theorem C89_names {ds ds' ds1 : List ADecl} (h : ds.Perm ds') (hx : Names.program ds = .ok ds1) :
    ∃ ds2, Names.program ds' = .ok ds2 ∧ ds1.Perm ds2 :=
  names_perm (l := []) h hx

theorem calmProgram_perm {ds ds' : List ADecl} (h : ds.Perm ds') (hc : CalmProgram ds) : CalmProgram ds' := by
  obtain ⟨value, hv⟩ := hc
  refine ⟨value, fun d hd => ?_⟩
  rw [calmD_same (factsOf_perm h value)]
  exact hv d (h.mem_iff.2 hd)

theorem wellTyped_move {l r : List ADecl} {f : AFn} {d : ADecl} {next : Nat}
    (hr : RawProgram (l ++ .function f :: d :: r) next) (h : WellTyped (l ++ .function f :: d :: r)) :
    WellTyped (l ++ d :: .function f :: r) := by
  obtain ⟨value, var, hv⟩ := h
  refine ⟨value, var, ?_⟩
  have hp : (l ++ .function f :: d :: r).Perm (l ++ d :: .function f :: r) :=
    (List.Perm.swap _ _ _).append_left l
  refine okDs_later (T := ⟨factsOf (l ++ .function f :: d :: r) value, var,
      functionsIn (l ++ .function f :: d :: r)⟩) (seen := [])
    ⟨factsOf_perm hp value, fun _ => rfl, fun j => ?_, fun _ h => h⟩ (okDs_move hv)
  exact find_perm (functionsIn_perm hp) ((functionsIn_keys _).nodup hr.nodup) j

/-- What is needed for a program to be accepted is kept when functions are moved. -/
theorem moved_keeps {ds ds2 : List ADecl} (hm : MovedFunctions ds ds2) {ds1 : List ADecl} {next : Nat}
    (hr : RawProgram ds next) (hp : Names.program ds = .ok ds1) (ht : WellTyped ds1) :
    RawProgram ds2 next ∧ ∃ ds3, Names.program ds2 = .ok ds3 ∧ WellTyped ds3 ∧ ds1.Perm ds3 := by
  induction hm generalizing ds1 with
  | refl ds => exact ⟨hr, ds1, hp, ht, .refl _⟩
  | @step l r ds' f d _ ih =>
    obtain ⟨l', a', b', r', rfl, h2, t, ha⟩ := names_swap hp
    obtain ⟨f', rfl⟩ : ∃ f', a' = .function f' := by
      simp only [Names.decl] at ha
      obtain ⟨_, -, ha⟩ := Outcome.bind_eq_ok.1 ha
      obtain ⟨f', -, ha⟩ := Outcome.bind_eq_ok.1 ha
      cases ha
      exact ⟨f', rfl⟩
    have hr' := rawProgram_strip hr (lookup_strip hp)
    obtain ⟨h3, ds3, h4, h5, h6⟩ := ih (rawProgram_perm hr ((List.Perm.swap _ _ _).append_left l)) h2
      (wellTyped_move hr' ht)
    exact ⟨h3, ds3, h4, h5, ((List.Perm.swap _ _ _).append_left l').trans h6⟩

/-- **C89, partial.** If a calm program follows the rules, then it is accepted, and so is every program in
which functions have been moved towards the end. Missing: programs that are not calm, in particular those
with generic functions, where the order matters (`C54_instance_violation`); functions that are moved in front
of constants (`C80_order`). -/
theorem C89_accepted_partial {ds ds1 ds2 : List ADecl} {next n : Nat} (hr : RawProgram ds next)
    (hp : Names.program ds = .ok ds1) (hc : CalmProgram ds1) (ht : WellTyped ds1) (hn : 2 ≤ n)
    (hm : MovedFunctions ds ds2) :
    (∃ s, Ana.program n ds next = .ok () s) ∧ ∃ s, Ana.program n ds2 next = .ok () s := by
  obtain ⟨h1, ds3, h2, h3, h4⟩ := moved_keeps hm hr hp ht
  exact ⟨C80_accepted_partial hr hp hc ht hn, C80_accepted_partial h1 h2 (calmProgram_perm h4 hc) h3 hn⟩

/-- **C89, partial.** Without being calm, the program is not rejected after moving functions. -/
theorem C89_not_rejected_partial {ds ds1 ds2 : List ADecl} {next n : Nat} (hr : RawProgram ds next)
    (hp : Names.program ds = .ok ds1) (ht : WellTyped ds1) (hn : 2 ≤ n) (hm : MovedFunctions ds ds2) (e : AErr) :
    Ana.program n ds2 next ≠ .err e := by
  obtain ⟨h1, ds3, h2, h3, h4⟩ := moved_keeps hm hr hp ht
  exact C80_not_rejected_partial h1 h2 h3 hn e

theorem Spec.MovedFunctions.trans {a b c : List ADecl} (h : MovedFunctions a b) (h' : MovedFunctions b c) :
    MovedFunctions a c := by
  induction h with
  | refl => exact h'
  | step _ ih => exact .step (ih h')

theorem Spec.MovedFunctions.cons {a b : List ADecl} (d : ADecl) (h : MovedFunctions a b) :
    MovedFunctions (d :: a) (d :: b) := by
  induction h with
  | refl => exact .refl _
  | @step l r _ f e _ ih => exact .step (l := d :: l) ih

theorem moved_behind (f : AFn) (l r : List ADecl) : MovedFunctions (.function f :: (l ++ r)) (l ++ .function f :: r) := by
  induction l with
  | nil => exact .refl _
  | cons d l ih => exact .step (l := []) (ih.cons d)

theorem moved_perm {fs fs' : List AFn} (h : fs.Perm fs') :
    MovedFunctions (fs.map .function) (fs'.map .function) := by
  induction h with
  | nil => exact .refl _
  | cons x _ ih => exact ih.cons _
  | swap x y l => exact .step (l := []) (.refl _)
  | trans _ _ ih1 ih2 => exact ih1.trans ih2

theorem moved_prefix {a b : List ADecl} (l : List ADecl) (h : MovedFunctions a b) :
    MovedFunctions (l ++ a) (l ++ b) := by
  induction l with
  | nil => exact h
  | cons d l ih => exact ih.cons d

theorem moved_last (ds : List ADecl) :
    MovedFunctions ds (ds.filter noFunction ++ (functionsIn ds).map .function) := by
  induction ds with
  | nil => exact .refl _
  | cons d ds ih =>
    cases d with
    | const_ => exact ih.cons _
    | staticAssert => exact ih.cons _
    | function f => exact (ih.cons _).trans (moved_behind f _ _)

/-- **C89, partial: constants first.** All functions may be written behind all other declarations, in any
order. -/
theorem C89_last_partial {ds ds1 : List ADecl} {fs : List AFn} {next n : Nat} (hr : RawProgram ds next)
    (hp : Names.program ds = .ok ds1) (hc : CalmProgram ds1) (ht : WellTyped ds1) (hn : 2 ≤ n)
    (hf : (functionsIn ds).Perm fs) :
    ∃ s, Ana.program n (ds.filter noFunction ++ fs.map .function) next = .ok () s :=
  (C89_accepted_partial hr hp hc ht hn
    ((moved_last ds).trans (moved_prefix _ (moved_perm hf)))).2

open Programs

/-- The hypotheses are met by the program of `C80_sample`, which has two functions; in the other order they
are another program. -/
theorem C89_sample : ∃ ds1, RawProgram calm_ 50 ∧ Names.program calm_ = .ok ds1 ∧ CalmProgram ds1 ∧ WellTyped ds1 ∧
    (functionsIn calm_).Perm (functionsIn calm_).reverse ∧
    calm_.filter noFunction ++ (functionsIn calm_).reverse.map .function ≠ calm_ := by
  obtain ⟨h1, ds1, h2, h3, h4⟩ := C80_sample
  refine ⟨ds1, h1, h2, h3, h4, (List.reverse_perm _).symm, fun h => ?_⟩
  have := congrArg (fun ds => (functionsIn ds).map AFn.k) h
  exact absurd this (by decide +kernel)

/-- **C89, violated.** Two functions, of which one is generic, are accepted in one order and rejected in the
other one; and a function that is moved in front of a constant is rejected. -/
theorem C89_violation :
    MovedFunctions [wrong, user] [user, wrong] ∧
    verdict (Ana.program 100 [wrong, user] 50) = .accepted ∧
    verdict (Ana.program 100 [user, wrong] 50) = .rejected (.check .incompatible_types) 58 ∧
    verdict (Ana.program 5 (widths ++ callers ++ callees) 50) = .accepted ∧
    verdict (Ana.program 5 (callers ++ widths ++ callees) 50) = .rejected .use_of_undefined_constant 8 :=
  ⟨.step (l := []) (.refl _), C54_instance_violation.1, C54_instance_violation.2, C80_order.1, C80_order.2.2⟩

end Bms
