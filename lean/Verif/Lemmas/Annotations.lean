import Verif.Spec.Annotations

/-!
# Arguments of annotations
-/

namespace Bms
namespace Annot

open Spec

/-- The parameter of the code is the one of the specification. -/
structure ParamIs (p : Parameter) (q : AnnotationParameter) : Prop where
  name : p.name = q.name
  optional : p.optional = !q.required
  type : p.validator.type = q.type
  run : ∀ a v, ArgumentType a q.type → ArgumentValue a v →
    ∃ b, p.validator.run v = .ok b ∧ (b = true ↔ q.allows v)

theorem text_run (a : Argument) (v : ArgValue) (ht : ArgumentType a .string) (hv : ArgumentValue a v) :
    ∃ b, Validator.run .non_empty_string v = .ok b ∧ (b = true ↔ SomeText v) := by
  cases ht with
  | string =>
    cases hv with
    | integer h => simp [integerLiterals] at h
    | string =>
      refine ⟨_, rfl, ?_⟩
      rename_i k x
      cases x <;> simp [Validator.string, SomeText]

theorem integer_value {a : Argument} {v : ArgValue} (ht : ArgumentType a .integer) (hv : ArgumentValue a v) :
    ∃ n, v = .integer n := by
  cases ht with
  | integer h =>
    cases hv with
    | true_ => simp [integerLiterals] at h
    | false_ => simp [integerLiterals] at h
    | integer => exact ⟨_, rfl⟩
    | string => simp [integerLiterals] at h

theorem width_run (a : Argument) (v : ArgValue) (ht : ArgumentType a .integer) (hv : ArgumentValue a v)
    {w : Validator} (hw : w = .unroll_limit ∨ w = .instantiation_width) :
    ∃ b, Validator.run w v = .ok b ∧ (b = true ↔ SomeWidth v) := by
  obtain ⟨n, rfl⟩ := integer_value ht hv
  rcases hw with rfl | rfl <;> refine ⟨_, rfl, ?_⟩ <;>
    simp [Validator.integer, SomeWidth] <;> omega

theorem version_run (a : Argument) (v : ArgValue) (ht : ArgumentType a .integer) (hv : ArgumentValue a v) :
    ∃ b, Validator.run .c_version v = .ok b ∧ (b = true ↔ SomeCVersion v) := by
  obtain ⟨n, rfl⟩ := integer_value ht hv
  refine ⟨_, rfl, ?_⟩
  simp [Validator.integer, SomeCVersion]
  omega

theorem params_are (t : AnnotationType) :
    List.Forall₂ ParamIs (parametersOf t) (annotationParameters t) := by
  cases t with
  | immutable | inline_ | loop_variable | loop_step | false_if_unknown | remove_if_unused =>
    exact .nil
  | unroll => exact .cons ⟨rfl, rfl, rfl, fun a v h1 h2 => width_run a v h1 h2 (.inl rfl)⟩ .nil
  | c_equivalent =>
    exact .cons ⟨rfl, rfl, rfl, text_run⟩ (.cons ⟨rfl, rfl, rfl, text_run⟩
      (.cons ⟨rfl, rfl, rfl, version_run⟩ .nil))
  | java_equivalent => exact .cons ⟨rfl, rfl, rfl, text_run⟩ .nil
  | instantiate => exact .cons ⟨rfl, rfl, rfl, fun a v h1 h2 => width_run a v h1 h2 (.inr rfl)⟩ .nil

theorem names_differ (t : AnnotationType) :
    ((annotationParameters t).map fun q => q.name.toList).Nodup := by
  cases t <;> decide

section

variable {ps : List Parameter} {qs : List AnnotationParameter}

theorem param_get (h : List.Forall₂ ParamIs ps qs) {i : Nat} {q : AnnotationParameter}
    (hq : qs[i]? = some q) : ∃ p, ps[i]? = some p ∧ ParamIs p q := by
  induction h generalizing i with
  | nil => simp at hq
  | cons h _ ih =>
    cases i with
    | zero => cases hq; exact ⟨_, rfl, h⟩
    | succ i => exact ih hq

theorem param_get' (h : List.Forall₂ ParamIs ps qs) {i : Nat} {p : Parameter}
    (hp : ps[i]? = some p) : ∃ q, qs[i]? = some q ∧ ParamIs p q := by
  induction h generalizing i with
  | nil => simp at hp
  | cons h _ ih =>
    cases i with
    | zero => cases hp; exact ⟨_, rfl, h⟩
    | succ i => exact ih hp

/-- The next argument goes to parameter `p`, if those before it go to `f`. -/
structure Step (qs : List AnnotationParameter) (f : List Nat) (a : Argument) (p : Nat)
    (q : AnnotationParameter) : Prop where
  get : qs[p]? = some q
  fresh : p ∉ f
  named : a.key ≠ [] → q.name.toList = a.key
  positional : a.key = [] → ∀ p' < p, p' ∈ f

theorem Step.unique (hn : (qs.map fun q => q.name.toList).Nodup) {f : List Nat} {a : Argument} {p p' : Nat}
    {q q' : AnnotationParameter} (h : Step qs f a p q) (h' : Step qs f a p' q') : p = p' := by
  by_cases hk : a.key = []
  · rcases Nat.lt_trichotomy p p' with hl | rfl | hl
    · exact absurd (h'.positional hk p hl) h.fresh
    · rfl
    · exact absurd (h.positional hk p' hl) h'.fresh
  · have e1 : (qs.map fun q => q.name.toList)[p]? = some a.key := by
      simp [h.get, h.named hk]
    have e2 : (qs.map fun q => q.name.toList)[p']? = some a.key := by
      simp [h'.get, h'.named hk]
    have hl := (List.getElem?_eq_some_iff.mp e1).1
    exact (List.getElem?_inj hl hn).mp (e1.trans e2.symm)

/-! ### Matching -/

theorem matchParameter_ok (h : List.Forall₂ ParamIs ps qs) {covered f : List Nat}
    (hc : ∀ x, x ∈ covered ↔ x ∈ f) {a : Argument} {i : Nat}
    (hm : matchParameter ps covered a = .ok i) : ∃ q, Step qs f a i q := by
  unfold matchParameter at hm
  by_cases hk : a.key = []
  · simp only [hk, List.isEmpty_nil, if_true, matchPositional, firstIndex] at hm
    cases hf : (List.range ps.length).find? fun i => decide (i ∉ covered) with
    | none => simp only [hf] at hm; cases hm
    | some j =>
      simp only [hf] at hm
      cases hm
      rw [List.find?_range_eq_some] at hf
      obtain ⟨h1, h2, h3⟩ := hf
      have hl : i < ps.length := by simpa using h2
      obtain ⟨q, hq, -⟩ := param_get' h (List.getElem?_eq_getElem hl)
      refine ⟨q, hq, ?_, fun h => absurd hk h, fun _ p' hp' => ?_⟩
      · rw [← hc]; simpa using h1
      · rw [← hc]; simpa using h3 p' hp'
  · have : a.key.isEmpty = false := by simpa using hk
    simp only [this, Bool.false_eq_true, if_false, matchNamed, firstIndex] at hm
    cases hf : (List.range ps.length).find?
        fun i => decide ((ps[i]?.map fun p => p.name.toList) = some a.key) with
    | none => simp only [hf] at hm; cases hm
    | some j =>
      simp only [hf] at hm
      split at hm
      · cases hm
      · next hj =>
        cases hm
        rw [List.find?_range_eq_some] at hf
        obtain ⟨h1, h2, h3⟩ := hf
        have hl : i < ps.length := by simpa using h2
        obtain ⟨q, hq, hpq⟩ := param_get' h (List.getElem?_eq_getElem hl)
        refine ⟨q, hq, by rw [← hc]; exact hj, fun _ => ?_, fun h => absurd h hk⟩
        rw [List.getElem?_eq_getElem hl] at h1
        rw [← hpq.name]
        simpa using h1

theorem matchParameter_complete (h : List.Forall₂ ParamIs ps qs)
    (hn : (qs.map fun q => q.name.toList).Nodup) {covered f : List Nat}
    (hc : ∀ x, x ∈ covered ↔ x ∈ f) {a : Argument} {i : Nat} {q : AnnotationParameter}
    (hs : Step qs f a i q) : matchParameter ps covered a = .ok i := by
  obtain ⟨p, hp, hpq⟩ := param_get h hs.get
  have hl := (List.getElem?_eq_some_iff.mp hp).1
  unfold matchParameter
  by_cases hk : a.key = []
  · simp only [hk, List.isEmpty_nil, if_true, matchPositional, firstIndex]
    have : (List.range ps.length).find? (fun i => decide (i ∉ covered)) = some i := by
      rw [List.find?_range_eq_some]
      refine ⟨by simpa [hc] using hs.fresh, by simpa using hl, fun j hj => ?_⟩
      simpa [hc] using hs.positional hk j hj
    simp only [this]
  · have he : a.key.isEmpty = false := by simpa using hk
    simp only [he, Bool.false_eq_true, if_false, matchNamed, firstIndex]
    have : (List.range ps.length).find?
        (fun i => decide ((ps[i]?.map fun p => p.name.toList) = some a.key)) = some i := by
      rw [List.find?_range_eq_some]
      refine ⟨by simp [hp, hpq.name, hs.named hk], by simpa using hl, fun j hj => ?_⟩
      simp only [Bool.not_eq_true', decide_eq_false_iff_not]
      intro hjn
      cases hpj : ps[j]? with
      | none => rw [hpj] at hjn; cases hjn
      | some p' =>
        rw [hpj] at hjn
        obtain ⟨q', hq', hpq'⟩ := param_get' h hpj
        have e1 : (qs.map fun q => q.name.toList)[j]? = some a.key := by
          have : p'.name.toList = a.key := by simpa using hjn
          simp [hq', ← hpq'.name, this]
        have e2 : (qs.map fun q => q.name.toList)[i]? = some a.key := by
          simp [hs.get, hs.named hk]
        have hlj := (List.getElem?_eq_some_iff.mp e1).1
        have := (List.getElem?_inj hlj hn).mp (e1.trans e2.symm)
        omega
    have hf : i ∉ covered := by rw [hc]; exact hs.fresh
    simp only [this, hf, if_false]

theorem matchParameter_err (h : List.Forall₂ ParamIs ps qs) {covered f : List Nat}
    (hc : ∀ x, x ∈ covered ↔ x ∈ f) {a : Argument} {e : Option Error}
    (hm : matchParameter ps covered a = .err e) :
    ∃ code, e = some (a.error code) ∧ ArgumentError qs f a code := by
  have hlen : ps.length = qs.length := h.length_eq
  unfold matchParameter at hm
  by_cases hk : a.key = []
  · simp only [hk, List.isEmpty_nil, if_true, matchPositional, firstIndex] at hm
    cases hf : (List.range ps.length).find? fun i => decide (i ∉ covered) with
    | some j => simp only [hf] at hm; cases hm
    | none =>
      simp only [hf] at hm
      cases hm
      refine ⟨_, rfl, .tooMany hk fun p hp => ?_⟩
      have := List.find?_eq_none.mp hf p (by simpa [hlen] using hp)
      rw [← hc]
      simpa using this
  · have : a.key.isEmpty = false := by simpa using hk
    simp only [this, Bool.false_eq_true, if_false, matchNamed, firstIndex] at hm
    cases hf : (List.range ps.length).find?
        fun i => decide ((ps[i]?.map fun p => p.name.toList) = some a.key) with
    | none =>
      simp only [hf] at hm
      cases hm
      refine ⟨_, rfl, .unknown hk fun q hq he => ?_⟩
      obtain ⟨i, hi⟩ := List.mem_iff_getElem?.mp hq
      obtain ⟨p, hp, hpq⟩ := param_get h hi
      have hl := (List.getElem?_eq_some_iff.mp hp).1
      have := List.find?_eq_none.mp hf i (by simpa using hl)
      simp [hp, hpq.name, he] at this
    | some j =>
      simp only [hf] at hm
      split at hm
      · next hj =>
        cases hm
        rw [List.find?_range_eq_some] at hf
        obtain ⟨h1, h2, -⟩ := hf
        have hl : j < ps.length := by simpa using h2
        obtain ⟨q, hq, hpq⟩ := param_get' h (List.getElem?_eq_getElem hl)
        refine ⟨_, rfl, .duplicate hk hq ?_ ((hc j).mp hj)⟩
        rw [List.getElem?_eq_getElem hl] at h1
        rw [← hpq.name]
        simpa using h1
      · cases hm

theorem matchParameter_calm {covered : List Nat} {a : Argument} :
    matchParameter ps covered a ≠ .throws ∧ matchParameter ps covered a ≠ .ub := by
  unfold matchParameter matchPositional matchNamed
  constructor <;> split <;> split <;> try split
  all_goals simp

/-! ### Values -/

theorem parameterTypeOf_ok {a : Argument} (ha : Argument.Parsed a) :
    ∃ t, parameterTypeOf a.type = .ok t ∧ ArgumentType a t := by
  obtain ⟨k, x, t⟩ := a
  rcases ha with h | h | ⟨h, -⟩
  · refine ⟨.integer, ?_, .integer h⟩
    simp only [integerLiterals, List.mem_cons, List.not_mem_nil, or_false] at h
    rcases h with rfl | rfl | rfl | rfl <;> rfl
  · refine ⟨.boolean, ?_, .boolean h⟩
    simp only [booleanLiterals, List.mem_cons, List.not_mem_nil, or_false] at h
    rcases h with rfl | rfl <;> rfl
  · cases h
    exact ⟨.string, rfl, .string⟩

theorem ArgumentType.unique {a : Argument} {t t' : ParameterType} (h : ArgumentType a t)
    (h' : ArgumentType a t') : t = t' := by
  cases h with
  | boolean h =>
    cases h' with
    | boolean => rfl
    | integer h' =>
      simp only [integerLiterals, booleanLiterals, List.mem_cons, List.not_mem_nil, or_false] at h h'
      rcases h with rfl | rfl <;> simp at h'
    | string => simp [booleanLiterals] at h
  | integer h =>
    cases h' with
    | integer => rfl
    | boolean h' =>
      simp only [integerLiterals, booleanLiterals, List.mem_cons, List.not_mem_nil, or_false] at h h'
      rcases h' with rfl | rfl <;> simp at h
    | string => simp [integerLiterals] at h
  | string =>
    cases h' with
    | string => rfl
    | boolean h => simp [booleanLiterals] at h
    | integer h => simp [integerLiterals] at h

theorem ArgumentValue.unique {a : Argument} {v v' : ArgValue} (h : ArgumentValue a v)
    (h' : ArgumentValue a v') : v = v' := by
  cases h with
  | true_ => cases h' with
    | true_ => rfl
    | integer h => simp [integerLiterals] at h
  | false_ => cases h' with
    | false_ => rfl
    | integer h => simp [integerLiterals] at h
  | string => cases h' with
    | string => rfl
    | integer h => simp [integerLiterals] at h
  | integer h e => cases h' with
    | true_ => simp [integerLiterals] at h
    | false_ => simp [integerLiterals] at h
    | string => simp [integerLiterals] at h
    | integer _ e' => rw [e] at e'; cases e'; rfl

theorem parseArgument_cases {a : Argument} (ha : Argument.Parsed a) :
    (∃ v, parseArgument a = .ok v ∧ ArgumentValue a v) ∨
    (parseArgument a = .err (some (a.error .invalid_integer_literal)) ∧ a.type ∈ integerLiterals ∧
      parseIntegerLiteral a.value = none) := by
  obtain ⟨k, x, t⟩ := a
  rcases ha with h | h | ⟨h, hq⟩
  · have e : parseArgument ⟨k, x, t⟩ = match parseIntegerLiteral x with
        | none => .err (some (Argument.error ⟨k, x, t⟩ .invalid_integer_literal))
        | some n => .ok (.integer n) := by
      have h' := h
      simp only [integerLiterals, List.mem_cons, List.not_mem_nil, or_false] at h'
      rcases h' with rfl | rfl | rfl | rfl <;> rfl
    rw [e]
    simp only
    cases hx : parseIntegerLiteral x with
    | none => exact .inr ⟨rfl, h, rfl⟩
    | some n => exact .inl ⟨_, by simp only [hx], .integer h hx⟩
  · simp only [booleanLiterals, List.mem_cons, List.not_mem_nil, or_false] at h
    rcases h with rfl | rfl
    · exact .inl ⟨_, rfl, .true_⟩
    · exact .inl ⟨_, rfl, .false_⟩
  · cases h
    exact .inl ⟨_, by simp only [parseArgument]; rw [if_neg hq], .string⟩

/-! ### One argument -/

theorem processArgument_cases (h : List.Forall₂ ParamIs ps qs) {covered f : List Nat}
    (hc : ∀ x, x ∈ covered ↔ x ∈ f) {a : Argument} (ha : Argument.Parsed a) :
    (∃ i q v, processArgument ps covered a = .ok (i, v) ∧ Step qs f a i q ∧ ArgumentType a q.type ∧
      ArgumentValue a v ∧ q.allows v) ∨
    (∃ code, processArgument ps covered a = .err (some (a.error code)) ∧ ArgumentError qs f a code) := by
  unfold processArgument
  cases hm : matchParameter ps covered a with
  | throws => exact absurd hm matchParameter_calm.1
  | ub => exact absurd hm matchParameter_calm.2
  | err e =>
    obtain ⟨code, rfl, he⟩ := matchParameter_err h hc hm
    exact .inr ⟨code, rfl, he⟩
  | ok i =>
    obtain ⟨q, hs⟩ := matchParameter_ok h hc hm
    obtain ⟨p, hp, hpq⟩ := param_get h hs.get
    obtain ⟨t, ht, hat⟩ := parameterTypeOf_ok ha
    simp only [Outcome.ok_bind, hp, ht]
    by_cases hty : p.validator.type = t
    · have hat' : ArgumentType a q.type := by rw [← hpq.type, hty]; exact hat
      simp only [hty, ne_eq, not_true_eq_false, if_false]
      rcases parseArgument_cases ha with ⟨v, e, hv⟩ | ⟨e, h1, h2⟩
      · obtain ⟨b, hb, hbv⟩ := hpq.run a v hat' hv
        simp only [e, Outcome.ok_bind, hb]
        cases b with
        | true => exact .inl ⟨i, q, v, rfl, hs, hat', hv, hbv.mp rfl⟩
        | false =>
          exact .inr ⟨_, rfl, .wrongValue hs.get hs.fresh hs.named hs.positional hat' hv
            fun hh => by simpa using hbv.mpr hh⟩
      · refine .inr ⟨_, by simp only [e, Outcome.err_bind], .noValue hs.get hs.fresh hs.named hs.positional ?_ h1 h2⟩
        have : ArgumentType a .integer := .integer h1
        exact ArgumentType.unique hat' this
    · simp only [hty, ne_eq, not_false_eq_true, if_true]
      exact .inr ⟨_, rfl, .wrongType hs.get hs.fresh hs.named hs.positional hat
        (by rw [← hpq.type]; exact Ne.symm hty)⟩

theorem processArgument_complete (h : List.Forall₂ ParamIs ps qs)
    (hn : (qs.map fun q => q.name.toList).Nodup) {covered f : List Nat}
    (hc : ∀ x, x ∈ covered ↔ x ∈ f) {a : Argument} (ha : Argument.Parsed a) {i : Nat}
    {q : AnnotationParameter} {v : ArgValue} (hs : Step qs f a i q) (ht : ArgumentType a q.type)
    (hv : ArgumentValue a v) (hq : q.allows v) : processArgument ps covered a = .ok (i, v) := by
  obtain ⟨p, hp, hpq⟩ := param_get h hs.get
  obtain ⟨t, e, hat⟩ := parameterTypeOf_ok ha
  have hty := ArgumentType.unique ht hat
  unfold processArgument
  simp only [matchParameter_complete h hn hc hs, Outcome.ok_bind, hp, e, hpq.type, hty, ne_eq,
    not_true_eq_false, if_false]
  rcases parseArgument_cases ha with ⟨v', e', hv'⟩ | ⟨-, h1, h2⟩
  · cases ArgumentValue.unique hv hv'
    obtain ⟨b, hb, hbv⟩ := hpq.run a v ht hv
    cases hbv.mpr hq
    simp [e', hb]
  · exfalso
    cases hv with
    | true_ => simp [integerLiterals] at h1
    | false_ => simp [integerLiterals] at h1
    | string => simp [integerLiterals] at h1
    | integer _ e'' => simp only [e''] at h2; cases h2

/-! ### All arguments -/

theorem Assigns.snoc {as : List Argument} {f : List Nat} {a : Argument} {p : Nat} {q : AnnotationParameter}
    (h : Assigns qs as f) (hs : Step qs f a p q) : Assigns qs (as ++ [a]) (f ++ [p]) := by
  have hl := h.length
  have key : ∀ (i : Nat) (b : Argument) (r : Nat), (as ++ [a])[i]? = some b → (f ++ [p])[i]? = some r →
      (i < f.length ∧ as[i]? = some b ∧ f[i]? = some r) ∨ (i = f.length ∧ b = a ∧ r = p) := by
    intro i b r h1 h2
    by_cases hi : i < f.length
    · rw [List.getElem?_append_left (by omega)] at h1
      rw [List.getElem?_append_left hi] at h2
      exact .inl ⟨hi, h1, h2⟩
    · rw [List.getElem?_append_right (by omega)] at h1 h2
      have : i = f.length := by
        have := (List.getElem?_eq_some_iff.mp h2).1
        simp at this
        omega
      subst this
      simp at h2
      simp [hl] at h1
      exact .inr ⟨rfl, h1.symm, h2.symm⟩
  refine ⟨by simp [hl], ?_, ?_, ?_, ?_⟩
  · rw [List.nodup_append]
    refine ⟨h.fresh, by simp, fun x hx y hy => ?_⟩
    have : y = p := by simpa using hy
    subst this
    rintro rfl
    exact hs.fresh hx
  · intro r hr
    rcases List.mem_append.mp hr with hr | hr
    · exact h.inside r hr
    · have : r = p := by simpa using hr
      subst this
      exact (List.getElem?_eq_some_iff.mp hs.get).1
  · intro i b r h1 h2 hk
    rcases key i b r h1 h2 with ⟨-, e1, e2⟩ | ⟨-, rfl, rfl⟩
    · exact h.named i b r e1 e2 hk
    · simp [hs.get, hs.named hk]
  · intro i b r h1 h2 hk r' hr'
    rcases key i b r h1 h2 with ⟨hi, e1, e2⟩ | ⟨rfl, rfl, rfl⟩
    · rw [List.take_append_of_le_length (by omega)]
      exact h.positional i b r e1 e2 hk r' hr'
    · rw [List.take_left]
      exact hs.positional hk r' hr'

/-- What holds for an argument in the middle. -/
theorem Assigns.step {pre post : List Argument} {f g : List Nat} {a : Argument} {p : Nat}
    (h : Assigns qs (pre ++ a :: post) (f ++ p :: g)) (hl : f.length = pre.length) :
    ∃ q, Step qs f a p q := by
  have hp : p < qs.length := h.inside p (by simp)
  have e1 : (pre ++ a :: post)[pre.length]? = some a := by simp
  have e2 : (f ++ p :: g)[pre.length]? = some p := by simp [← hl]
  refine ⟨qs[p], List.getElem?_eq_getElem hp, ?_, fun hk => ?_, fun hk p' hp' => ?_⟩
  · intro hm
    have := h.fresh
    rw [List.nodup_append] at this
    exact this.2.2 p hm p (by simp) rfl
  · have := h.named _ a p e1 e2 hk
    rw [List.getElem?_eq_getElem hp] at this
    simpa using this
  · have := h.positional _ a p e1 e2 hk p' hp'
    rwa [← hl, List.take_left] at this

theorem Allowed.snoc {as : List Argument} {f : List Nat} {vs : List ArgValue} {a : Argument} {p : Nat}
    {q : AnnotationParameter} {v : ArgValue} (hl : f.length = as.length) (h : Allowed qs as f vs)
    (hq : qs[p]? = some q) (ht : ArgumentType a q.type) (hv : ArgumentValue a v) (hw : q.allows v) :
    Allowed qs (as ++ [a]) (f ++ [p]) (vs ++ [v]) := by
  obtain ⟨hvl, h⟩ := h
  refine ⟨by simp [hvl], fun i b r w h1 h2 h3 => ?_⟩
  by_cases hi : i < f.length
  · rw [List.getElem?_append_left (by omega)] at h1 h2 h3
    exact h i b r w h1 h2 h3
  · rw [List.getElem?_append_right (by omega)] at h1 h2 h3
    have : i = f.length := by
      have := (List.getElem?_eq_some_iff.mp h2).1
      simp at this
      omega
    subst this
    simp at h2
    simp [hl] at h1
    simp [hl, hvl] at h3
    subst h1 h2 h3
    exact ⟨q, hq, ht, hv, hw⟩

theorem processLoop_cases (h : List.Forall₂ ParamIs ps qs) :
    ∀ (as pre : List Argument) (covered f : List Nat) (us : List ArgValue),
      (∀ a ∈ as, Argument.Parsed a) → (∀ x, x ∈ covered ↔ x ∈ f) → Assigns qs pre f → Allowed qs pre f us →
      (∃ c' g vs, processLoop ps covered as = .ok (c', vs) ∧ (∀ x, x ∈ c' ↔ x ∈ f ++ g) ∧
        Assigns qs (pre ++ as) (f ++ g) ∧ Allowed qs (pre ++ as) (f ++ g) (us ++ vs)) ∨
      (∃ code as' a post g vs, processLoop ps covered as = .err (some (a.error code)) ∧
        as = as' ++ a :: post ∧ Assigns qs (pre ++ as') (f ++ g) ∧
        Allowed qs (pre ++ as') (f ++ g) (us ++ vs) ∧ ArgumentError qs (f ++ g) a code) := by
  intro as
  induction as with
  | nil =>
    intro pre covered f us _ hc h1 h2
    exact .inl ⟨covered, [], [], rfl, by simpa using hc, by simpa using h1, by simpa using h2⟩
  | cons a as ih =>
    intro pre covered f us hp hc h1 h2
    rcases processArgument_cases h hc (hp a (by simp)) with ⟨i, q, v, e, hs, ht, hv, hw⟩ | ⟨code, e, he⟩
    · have hc' : ∀ x, x ∈ i :: covered ↔ x ∈ f ++ [i] := by
        intro x
        simp only [List.mem_cons, List.mem_append, List.not_mem_nil, or_false, hc]
        exact or_comm
      rcases ih (pre ++ [a]) (i :: covered) (f ++ [i]) (us ++ [v]) (fun b hb => hp b (by simp [hb])) hc'
        (Assigns.snoc h1 hs) (Allowed.snoc h1.length h2 hs.get ht hv hw) with
        ⟨c', g, vs, e', k1, k2, k3⟩ | ⟨code, as', b, post, g, vs, e', rfl, k2, k3, k4⟩
      · exact .inl ⟨c', i :: g, v :: vs, by simp [processLoop, e, e'], by simpa using k1,
          by simpa using k2, by simpa using k3⟩
      · exact .inr ⟨code, a :: as', b, post, i :: g, v :: vs, by simp [processLoop, e, e'], by simp,
          by simpa using k2, by simpa using k3, by simpa using k4⟩
    · exact .inr ⟨code, [], a, as, [], [], by simp [processLoop, e], rfl, by simpa using h1,
        by simpa using h2, by simpa using he⟩

theorem processLoop_complete (h : List.Forall₂ ParamIs ps qs)
    (hn : (qs.map fun q => q.name.toList).Nodup) :
    ∀ (as pre : List Argument) (covered f g : List Nat) (us vs : List ArgValue),
      (∀ a ∈ as, Argument.Parsed a) → (∀ x, x ∈ covered ↔ x ∈ f) → f.length = pre.length →
      us.length = pre.length → Assigns qs (pre ++ as) (f ++ g) →
      Allowed qs (pre ++ as) (f ++ g) (us ++ vs) →
      ∃ c', processLoop ps covered as = .ok (c', vs) ∧ ∀ x, x ∈ c' ↔ x ∈ f ++ g := by
  intro as
  induction as with
  | nil =>
    intro pre covered f g us vs _ hc hl hul h1 h2
    have e1 := h1.length
    have e2 := h2.1
    simp only [List.length_append, List.length_nil] at e1 e2
    have hg : g = [] := List.eq_nil_of_length_eq_zero (by omega)
    have hv : vs = [] := List.eq_nil_of_length_eq_zero (by omega)
    subst hg hv
    exact ⟨covered, rfl, by simpa using hc⟩
  | cons a as ih =>
    intro pre covered f g us vs hp hc hl hul h1 h2
    have e1 := h1.length
    have e2 := h2.1
    simp only [List.length_append, List.length_cons] at e1 e2
    obtain ⟨i, g, rfl⟩ : ∃ i g', g = i :: g' := by
      cases g with
      | nil => simp at e1; omega
      | cons i g => exact ⟨i, g, rfl⟩
    obtain ⟨v, vs, rfl⟩ : ∃ v vs', vs = v :: vs' := by
      cases vs with
      | nil => simp at e2; omega
      | cons i g => exact ⟨i, g, rfl⟩
    obtain ⟨q, hs⟩ := Assigns.step h1 hl
    obtain ⟨q', hq', ht, hv, hw⟩ := h2.2 pre.length a i v (by simp) (by simp [← hl]) (by simp [← hul])
    rw [hs.get] at hq'
    cases hq'
    have e := processArgument_complete h hn hc (hp a (by simp)) hs ht hv hw
    obtain ⟨c', e', hc''⟩ := ih (pre ++ [a]) (i :: covered) (f ++ [i]) g (us ++ [v]) vs
      (fun b hb => hp b (by simp [hb]))
      (fun x => by simp only [List.mem_cons, List.mem_append, List.not_mem_nil, or_false, hc]; exact or_comm)
      (by simp [hl]) (by simp [hul]) (by simpa using h1) (by simpa using h2)
    exact ⟨c', by simp [processLoop, e, e'], by simpa using hc''⟩

theorem missing_iff (h : List.Forall₂ ParamIs ps qs) {covered f : List Nat}
    (hc : ∀ x, x ∈ covered ↔ x ∈ f) :
    missing ps covered = true ↔ ∃ p q, qs[p]? = some q ∧ q.required = true ∧ p ∉ f := by
  unfold missing
  rw [List.any_eq_true]
  constructor
  · rintro ⟨i, hi, hm⟩
    cases hp : ps[i]? with
    | none => simp [hp] at hm
    | some p =>
      obtain ⟨q, hq, hpq⟩ := param_get' h hp
      simp only [hp, hpq.optional, Bool.not_not, Bool.and_eq_true, decide_eq_true_eq, hc] at hm
      exact ⟨i, q, hq, hm.1, hm.2⟩
  · rintro ⟨i, q, hq, hr, hf⟩
    obtain ⟨p, hp, hpq⟩ := param_get h hq
    refine ⟨i, by simpa using (List.getElem?_eq_some_iff.mp hp).1, ?_⟩
    simp [hp, hpq.optional, hr, hc, hf]

theorem Assigns.nil : Assigns qs [] [] :=
  ⟨rfl, .nil, by simp, by simp, by simp⟩

theorem Allowed.nil : Allowed qs [] [] [] := ⟨rfl, by simp⟩

end

/-! ### One annotation -/

theorem processArguments_cases (name : List Char) (t : AnnotationType) {as : List Argument}
    (ha : ∀ a ∈ as, Argument.Parsed a) :
    (∃ f vs, processArguments name t as = .ok vs ∧ Assigns (annotationParameters t) as f ∧
      Allowed (annotationParameters t) as f vs ∧
      ∀ p q, (annotationParameters t)[p]? = some q → q.required = true → p ∈ f) ∨
    (∃ code as' a post f vs, processArguments name t as = .err (some (a.error code)) ∧
      as = as' ++ a :: post ∧ Assigns (annotationParameters t) as' f ∧
      Allowed (annotationParameters t) as' f vs ∧ ArgumentError (annotationParameters t) f a code) ∨
    (∃ f vs p q, processArguments name t as = .err (some ⟨.annotation_missing_argument, .annotation, name⟩) ∧
      Assigns (annotationParameters t) as f ∧ Allowed (annotationParameters t) as f vs ∧
      (annotationParameters t)[p]? = some q ∧ q.required = true ∧ p ∉ f) := by
  unfold processArguments
  split
  · next hi =>
    obtain ⟨rfl, he⟩ := hi
    have : as = [] := by simpa using he
    subst this
    exact .inr (.inr ⟨[], [], 0, _, rfl, Assigns.nil, Allowed.nil, rfl, rfl, by simp⟩)
  · rcases processLoop_cases (params_are t) as [] [] [] [] ha (by simp) Assigns.nil Allowed.nil with
      ⟨c', g, vs, e, k1, k2, k3⟩ | ⟨code, as', a, post, g, vs, e, rfl, k2, k3, k4⟩
    · simp only [List.nil_append] at k1 k2 k3
      simp only [e, Outcome.ok_bind]
      split
      · next hm =>
        obtain ⟨p, q, h1, h2, h3⟩ := (missing_iff (params_are t) k1).mp hm
        exact .inr (.inr ⟨g, vs, p, q, rfl, k2, k3, h1, h2, h3⟩)
      · next hm =>
        refine .inl ⟨g, vs, rfl, k2, k3, fun p q h1 h2 => ?_⟩
        by_contra h3
        exact hm ((missing_iff (params_are t) k1).mpr ⟨p, q, h1, h2, h3⟩)
    · exact .inr (.inl ⟨code, as', a, post, g, vs, by simp [e], rfl, k2, k3, k4⟩)

theorem processArguments_complete (name : List Char) (t : AnnotationType) {as : List Argument}
    (ha : ∀ a ∈ as, Argument.Parsed a) {f : List Nat} {vs : List ArgValue}
    (h1 : Assigns (annotationParameters t) as f) (h2 : Allowed (annotationParameters t) as f vs)
    (h3 : ∀ p q, (annotationParameters t)[p]? = some q → q.required = true → p ∈ f) :
    processArguments name t as = .ok vs := by
  unfold processArguments
  rw [if_neg]
  · obtain ⟨c', e, hc⟩ := processLoop_complete (params_are t) (names_differ t) as [] [] [] f [] vs ha
      (by simp) rfl rfl h1 h2
    simp only [List.nil_append] at hc
    simp only [e, Outcome.ok_bind]
    rw [if_neg]
    intro hm
    obtain ⟨p, q, k1, k2, k3⟩ := (missing_iff (params_are t) hc).mp hm
    exact k3 (h3 p q k1 k2)
  · rintro ⟨rfl, he⟩
    have : as = [] := by simpa using he
    subst this
    have hf : f = [] := List.eq_nil_of_length_eq_zero h1.length
    subst hf
    have := h3 0 _ rfl rfl
    simp at this

theorem typeByName_iff {name : List Char} {t : AnnotationType} :
    typeByName name = some t ↔ (typeName t).toList = name := by
  constructor
  · intro h
    have := List.find?_some h
    simpa using this
  · rintro rfl
    cases t <;> decide

theorem typeByName_none {name : List Char} (h : typeByName name = none) (t : AnnotationType) :
    (typeName t).toList ≠ name := by
  intro e
  rw [typeByName_iff.mpr e] at h
  cases h

/-- The names that are not understood as they should be. -/
def Inline (name : List Char) : Prop := name = "inline".toList ∨ name = "inline_".toList

theorem typeName_iff {name : List Char} (hn : ¬ Inline name) (t : AnnotationType) :
    (typeName t).toList = name ↔ (annotationName t).toList = name := by
  cases t <;> try rfl
  constructor
  · rintro rfl; exact absurd (.inr rfl) hn
  · rintro rfl; exact absurd (.inl rfl) hn

theorem applicable_iff (t : AnnotationType) (c : Construct) :
    applicable t c = true ↔ c ∈ annotationTargets t := by
  cases t <;> simp [applicable, annotationTargets]

theorem resolveOne_complete {c : Construct} {name : List Char} {args : List Argument} {a : Annotation}
    (hn : ¬ Inline name) (ha : ∀ a ∈ args, Argument.Parsed a) (h : AnnotationFits c name args a) :
    resolveOne c name args = .ok a := by
  obtain ⟨h1, h2, f, h3, h4, h5⟩ := h
  unfold resolveOne
  rw [typeByName_iff.mpr ((typeName_iff hn a.type).mpr h1)]
  simp only [(applicable_iff a.type c).mpr h2, Bool.not_true, Bool.false_eq_true, if_false,
    processArguments_complete name a.type ha h3 h4 h5, Outcome.ok_bind]

theorem resolveOne_cases {c : Construct} {name : List Char} {args : List Argument}
    (hn : ¬ Inline name) (ha : ∀ a ∈ args, Argument.Parsed a) :
    (∃ a, resolveOne c name args = .ok a ∧ AnnotationFits c name args a) ∨
    (∃ e, resolveOne c name args = .err (some e) ∧ AnnotationError c name args e) := by
  unfold resolveOne
  cases ht : typeByName name with
  | none =>
    exact .inr ⟨_, rfl, .unknown fun t e => typeByName_none ht t ((typeName_iff hn t).mpr e)⟩
  | some t =>
    have hname := (typeName_iff hn t).mp (typeByName_iff.mp ht)
    simp only
    cases happ : applicable t c with
    | false =>
      refine .inr ⟨_, rfl, .notApplicable hname fun hm => ?_⟩
      rw [(applicable_iff t c).mpr hm] at happ
      cases happ
    | true =>
      have htarget := (applicable_iff t c).mp happ
      simp only [Bool.not_true, Bool.false_eq_true, if_false]
      rcases processArguments_cases name t ha with ⟨f, vs, e, h1, h2, h3⟩ |
        ⟨code, as', a, post, f, vs, e, h1, h2, h3, h4⟩ | ⟨f, vs, p, q, e, h1, h2, h3, h4, h5⟩
      · exact .inl ⟨⟨t, vs⟩, by simp [e], hname, htarget, f, h1, h2, h3⟩
      · exact .inr ⟨_, by simp only [e, Outcome.err_bind]; rfl, .argument hname htarget h1 h2 h3 h4⟩
      · exact .inr ⟨_, by simp only [e, Outcome.err_bind], .missing hname htarget h1 h2 h3 h4 h5⟩

end Annot
end Bms
