import Verif.Spec.Scopes

/-!
# Symbol tables and scopes

The symbol table of a place holds what is visible there, and name lookup does what `verdict` says.
-/

namespace Bms

open Spec

namespace Scopes

/-! ## Verdicts -/

theorem verdict_append (a b : List Item) : verdict (a ++ b) = verdict a >>= fun _ => verdict b := by
  induction a with
  | nil => simp [verdict]
  | cons i is ih =>
    simp only [List.cons_append, verdict]
    split
    · exact ih
    · cases i with
      | use code k name ref visible fatal => cases fatal <;> simp [Item.fault]
      | define => simp [Item.fault]

theorem bind_ok_unit (x : Outcome AErr Unit) : (x >>= fun _ => Outcome.ok ()) = x := by
  cases x <;> simp

theorem map_unit_bind {α β : Type} (x : Outcome AErr α) (f : α → Outcome AErr β) (v : Outcome AErr Unit)
    (h : ∀ a, x = .ok a → (f a).map (fun _ => ()) = v) :
    (x >>= f).map (fun _ => ()) = (x.map fun _ => ()) >>= fun _ => v := by
  cases x <;> simp_all

theorem verdict_ok {is : List Item} (h : verdict is = .ok ()) : ∀ i ∈ is, i.Good := by
  induction is with
  | nil => simp
  | cons i is ih =>
    simp only [verdict] at h
    split at h
    · rename_i hg
      intro j hj
      simp only [List.mem_cons] at hj
      rcases hj with hj | hj
      · exact hj ▸ hg
      · exact ih h j hj
    · exfalso
      cases i with
      | use code k name ref visible fatal => cases fatal <;> simp [Item.fault] at h
      | define => simp [Item.fault] at h

theorem use_good {code : ACode} {k : Key} {name : Name} {ref : Option Lookup} {ρ : Visible}
    {fatal : Bool} {is : List Item} (h : name ∈ ρ.map Prod.fst) :
    verdict (.use code k name ref ρ fatal :: is) = verdict is := by
  simp only [verdict]
  exact if_pos h

theorem use_bad {code : ACode} {k : Key} {name : Name} {ref : Option Lookup} {ρ : Visible}
    {fatal : Bool} {is : List Item} (h : name ∉ ρ.map Prod.fst) :
    verdict (.use code k name ref ρ fatal :: is) = if fatal then .throws else .err ⟨code, k⟩ := by
  simp only [verdict]
  exact if_neg h

theorem define_good {code : ACode} {k : Key} {name : Name} {ρ : Visible} {is : List Item}
    (h : name ∉ ρ.map Prod.fst) : verdict (.define code k name ρ :: is) = verdict is := by
  simp only [verdict]
  exact if_pos h

theorem define_bad {code : ACode} {k : Key} {name : Name} {ρ : Visible} {is : List Item}
    (h : name ∈ ρ.map Prod.fst) : verdict (.define code k name ρ :: is) = .err ⟨code, k⟩ := by
  simp only [verdict]
  exact if_neg (fun hg => hg h)

/-! ## Symbol tables -/

/-- The table holds what is visible. -/
structure Holds (t : SymbolTable) (ρ : Visible) : Prop where
  ne : t ≠ []
  find : ∀ name, t.find name = ρ.lookup name
  nodup : (ρ.map Prod.fst).Nodup

theorem lookup_none {ρ : Visible} {name : Name} :
    ρ.lookup name = none ↔ name ∉ ρ.map Prod.fst := by
  induction ρ with
  | nil => simp
  | cons p ρ ih =>
    obtain ⟨a, r⟩ := p
    by_cases h : name = a
    · subst h
      simp [List.lookup]
    · have : (name == a) = false := by simpa using h
      simp only [List.lookup, this, ih, List.map_cons, List.mem_cons, not_or]
      exact ⟨fun h' => ⟨h, h'⟩, fun h' => h'.2⟩

theorem lookup_mem {ρ : Visible} {name : Name} {r : Lookup} (h : ρ.lookup name = some r) :
    (name, r) ∈ ρ := by
  induction ρ with
  | nil => simp at h
  | cons p ρ ih =>
    obtain ⟨a, r'⟩ := p
    by_cases hn : name = a
    · subst hn
      simp [List.lookup] at h
      simp [h]
    · have : (name == a) = false := by simpa using hn
      simp only [List.lookup, this] at h
      exact List.mem_cons_of_mem _ (ih h)

theorem lookup_unique {ρ : Visible} {name : Name} {r : Lookup} (hn : (ρ.map Prod.fst).Nodup)
    (h : ρ.lookup name = some r) : ∀ r', (name, r') ∈ ρ → r' = r := by
  induction ρ with
  | nil => simp at h
  | cons p ρ ih =>
    obtain ⟨a, s⟩ := p
    simp only [List.map_cons, List.nodup_cons] at hn
    intro r' hr'
    by_cases hna : name = a
    · subst hna
      simp [List.lookup] at h
      simp only [List.mem_cons, Prod.mk.injEq, true_and] at hr'
      rcases hr' with h' | h'
      · rw [h', h]
      · exact absurd (List.mem_map_of_mem (f := Prod.fst) h') hn.1
    · have : (name == a) = false := by simpa using hna
      simp only [List.lookup, this] at h
      simp only [List.mem_cons, Prod.mk.injEq, hna, false_and, false_or] at hr'
      exact ih hn.2 h r' hr'

theorem find_cons_nil (t : SymbolTable) (name : Name) : SymbolTable.find ([] :: t) name = t.find name := by
  simp only [SymbolTable.find]
  cases SymbolTable.find t name <;> simp

theorem Holds.push {t : SymbolTable} {ρ : Visible} (h : Holds t ρ) : Holds ([] :: t) ρ :=
  ⟨by simp, fun name => by rw [find_cons_nil, h.find], h.nodup⟩

/-- Definition of a name that is visible. -/
theorem Holds.emplace_old {t : SymbolTable} {ρ : Visible} (h : Holds t ρ) {name : Name} {r : Lookup}
    (hv : name ∈ ρ.map Prod.fst) : ∃ old, t.emplace name r shadowing = .inl old := by
  have hf : t.find name ≠ none := by
    rw [h.find]
    exact fun hn => (lookup_none.mp hn) hv
  cases t with
  | nil => exact absurd rfl h.ne
  | cons m parent =>
    simp only [SymbolTable.find] at hf
    simp only [SymbolTable.emplace, shadowing, Bool.false_eq_true, if_false]
    cases hp : SymbolTable.find parent name with
    | some old => exact ⟨old, by simp⟩
    | none =>
      simp only [hp] at hf
      cases hm : List.lookup name m with
      | some old => exact ⟨old, by simp⟩
      | none => exact absurd hm hf

/-- Definition of a name that is not visible. -/
theorem Holds.emplace_new {t : SymbolTable} {ρ : Visible} (h : Holds t ρ) {name : Name} {r : Lookup}
    (hv : name ∉ ρ.map Prod.fst) :
    ∃ t', t.emplace name r shadowing = .inr t' ∧ t'.tail = t.tail ∧ Holds t' ((name, r) :: ρ) := by
  have hf : t.find name = none := by
    rw [h.find]
    exact lookup_none.mpr hv
  cases t with
  | nil => exact absurd rfl h.ne
  | cons m parent =>
    simp only [SymbolTable.find] at hf
    simp only [SymbolTable.emplace, shadowing, Bool.false_eq_true, if_false]
    cases hp : SymbolTable.find parent name with
    | some old => simp [hp] at hf
    | none =>
      simp only [hp] at hf
      simp only [hf]
      refine ⟨_, rfl, rfl, by simp, fun name' => ?_, ?_⟩
      · have := h.find name'
        simp only [SymbolTable.find] at this
        simp only [SymbolTable.find, List.lookup]
        by_cases hn : name' = name
        · subst hn
          simp [hp]
        · have hb : (name' == name) = false := by simpa using hn
          simp only [hb]
          exact this
      · simp only [List.map_cons, List.nodup_cons]
        exact ⟨hv, h.nodup⟩

/-! ## Expressions -/

variable {t : SymbolTable} {ρ : Visible}

theorem use_ok {h : Holds t ρ} {name : Name} {r : Lookup} (hr : t.find name = some r) {code : ACode}
    {k : Key} {fatal : Bool} : (Item.use code k name (some r) ρ fatal).Bound := by
  rw [h.find] at hr
  exact ⟨r, rfl, lookup_mem hr, lookup_unique h.nodup hr⟩

theorem find_good (h : Holds t ρ) (name : Name) : t.find name ≠ none ↔ name ∈ ρ.map Prod.fst := by
  rw [h.find, ne_eq, lookup_none]
  simp

mutual

theorem expr_verdict (h : Holds t ρ) : (e : AExpr) →
    (Names.expr t e).map (fun _ => ()) = verdict (itemsE ρ e)
  | .literal .. => by simp [Names.expr, itemsE, verdict]
  | .id k cv name ref generic => by
    have := find_good h name
    simp only [Names.expr, itemsE]
    cases hf : t.find name with
    | none =>
      rw [use_bad (fun hg => this.mpr hg hf)]
      simp
    | some r =>
      rw [use_good (this.mp (by simp [hf]))]
      simp [verdict]
  | .conversion k cv e to => by
    simp only [Names.expr, itemsE, verdict_append, ← expr_verdict h e, ← type_verdict h to]
    refine map_unit_bind _ _ _ (fun _ _ => ?_)
    rw [map_unit_bind _ _ (.ok ()) (fun _ _ => rfl), bind_ok_unit]
  | .ite k cv l c r => by
    simp only [Names.expr, itemsE, verdict_append, ← expr_verdict h l, ← expr_verdict h c,
      ← expr_verdict h r]
    refine map_unit_bind _ _ _ (fun _ _ => ?_)
    refine map_unit_bind _ _ _ (fun _ _ => ?_)
    rw [map_unit_bind _ _ (.ok ()) (fun _ _ => rfl), bind_ok_unit]
  | .binary k cv op l r => by
    simp only [Names.expr, itemsE, verdict_append, ← expr_verdict h l, ← expr_verdict h r]
    refine map_unit_bind _ _ _ (fun _ _ => ?_)
    rw [map_unit_bind _ _ (.ok ()) (fun _ _ => rfl), bind_ok_unit]
  | .prefix k cv op e => by
    simp only [Names.expr, itemsE, ← expr_verdict h e]
    rw [map_unit_bind _ _ (.ok ()) (fun _ _ => rfl), bind_ok_unit]
  | .call k cv stmt name ref args => by
    have := find_good h name
    simp only [Names.expr, itemsE]
    cases hf : t.find name with
    | none =>
      rw [use_bad (fun hg => this.mpr hg hf)]
      simp
    | some r =>
      rw [use_good (this.mp (by simp [hf])), ← exprs_verdict h args]
      simp only
      rw [map_unit_bind _ _ (.ok ()) (fun _ _ => rfl), bind_ok_unit]

theorem type_verdict (h : Holds t ρ) : (ty : AType) →
    (Names.type t ty).map (fun _ => ()) = verdict (itemsT ρ ty)
  | .base .. => by simp [Names.type, itemsT, verdict]
  | .uint k cv c w => by
    simp only [Names.type, itemsT, ← expr_verdict h w]
    rw [map_unit_bind _ _ (.ok ()) (fun _ _ => rfl), bind_ok_unit]

theorem exprs_verdict (h : Holds t ρ) : (es : List AExpr) →
    (Names.exprs t es).map (fun _ => ()) = verdict (itemsEs ρ es)
  | [] => by simp [Names.exprs, itemsEs, verdict]
  | e :: es => by
    simp only [Names.exprs, itemsEs, verdict_append, ← expr_verdict h e, ← exprs_verdict h es]
    refine map_unit_bind _ _ _ (fun _ _ => ?_)
    rw [map_unit_bind _ _ (.ok ()) (fun _ _ => rfl), bind_ok_unit]

end

mutual

theorem expr_bound (h : Holds t ρ) : (e e' : AExpr) → Names.expr t e = .ok e' →
    (∀ i ∈ itemsE ρ e', i.Bound) ∧ stripE e' = stripE e
  | .literal .., e', he => by
    simp only [Names.expr, Outcome.ok.injEq] at he
    subst he
    simp [itemsE, stripE]
  | .id k cv name ref generic, e', he => by
    simp only [Names.expr] at he
    cases hf : t.find name with
    | none => simp [hf] at he
    | some r =>
      simp only [hf, Outcome.ok.injEq] at he
      subst he
      simp only [itemsE, stripE, List.mem_singleton, forall_eq, and_true]
      exact use_ok (h := h) hf
  | .conversion k cv e to, e', he => by
    simp only [Names.expr, Outcome.bind_eq_ok, Outcome.ok.injEq] at he
    obtain ⟨a, ha, b, hb, rfl⟩ := he
    have h1 := expr_bound h e a ha
    have h2 := type_bound h to b hb
    refine ⟨?_, by simp [stripE, h1.2, h2.2]⟩
    simp only [itemsE, List.mem_append]
    rintro i (hi | hi)
    · exact h1.1 i hi
    · exact h2.1 i hi
  | .ite k cv l c r, e', he => by
    simp only [Names.expr, Outcome.bind_eq_ok, Outcome.ok.injEq] at he
    obtain ⟨a, ha, b, hb, d, hd, rfl⟩ := he
    have h1 := expr_bound h l a ha
    have h2 := expr_bound h c b hb
    have h3 := expr_bound h r d hd
    refine ⟨?_, by simp [stripE, h1.2, h2.2, h3.2]⟩
    simp only [itemsE, List.mem_append]
    rintro i (hi | hi | hi)
    · exact h1.1 i hi
    · exact h2.1 i hi
    · exact h3.1 i hi
  | .binary k cv op l r, e', he => by
    simp only [Names.expr, Outcome.bind_eq_ok, Outcome.ok.injEq] at he
    obtain ⟨a, ha, b, hb, rfl⟩ := he
    have h1 := expr_bound h l a ha
    have h2 := expr_bound h r b hb
    refine ⟨?_, by simp [stripE, h1.2, h2.2]⟩
    simp only [itemsE, List.mem_append]
    rintro i (hi | hi)
    · exact h1.1 i hi
    · exact h2.1 i hi
  | .prefix k cv op e, e', he => by
    simp only [Names.expr, Outcome.bind_eq_ok, Outcome.ok.injEq] at he
    obtain ⟨a, ha, rfl⟩ := he
    have h1 := expr_bound h e a ha
    exact ⟨by simpa only [itemsE] using h1.1, by simp [stripE, h1.2]⟩
  | .call k cv stmt name ref args, e', he => by
    simp only [Names.expr] at he
    cases hf : t.find name with
    | none => simp [hf] at he
    | some r =>
      simp only [hf, Outcome.bind_eq_ok, Outcome.ok.injEq] at he
      obtain ⟨a, ha, rfl⟩ := he
      have h1 := exprs_bound h args a ha
      refine ⟨?_, by simp [stripE, h1.2]⟩
      simp only [itemsE, List.mem_cons]
      rintro i (rfl | hi)
      · exact use_ok (h := h) hf
      · exact h1.1 i hi

theorem type_bound (h : Holds t ρ) : (ty ty' : AType) → Names.type t ty = .ok ty' →
    (∀ i ∈ itemsT ρ ty', i.Bound) ∧ stripT ty' = stripT ty
  | .base .., ty', he => by
    simp only [Names.type, Outcome.ok.injEq] at he
    subst he
    simp [itemsT, stripT]
  | .uint k cv c w, ty', he => by
    simp only [Names.type, Outcome.bind_eq_ok, Outcome.ok.injEq] at he
    obtain ⟨a, ha, rfl⟩ := he
    have h1 := expr_bound h w a ha
    exact ⟨by simpa only [itemsT] using h1.1, by simp [stripT, h1.2]⟩

theorem exprs_bound (h : Holds t ρ) : (es es' : List AExpr) → Names.exprs t es = .ok es' →
    (∀ i ∈ itemsEs ρ es', i.Bound) ∧ stripEs es' = stripEs es
  | [], es', he => by
    simp only [Names.exprs, Outcome.ok.injEq] at he
    subst he
    simp [itemsEs, stripEs]
  | e :: es, es', he => by
    simp only [Names.exprs, Outcome.bind_eq_ok, Outcome.ok.injEq] at he
    obtain ⟨a, ha, b, hb, rfl⟩ := he
    have h1 := expr_bound h e a ha
    have h2 := exprs_bound h es b hb
    refine ⟨?_, by simp [stripEs, h1.2, h2.2]⟩
    simp only [itemsEs, List.mem_append]
    rintro i (hi | hi)
    · exact h1.1 i hi
    · exact h2.1 i hi

end

/-! ## Optional parts -/

theorem optional_verdict {α : Type} {f : α → Outcome AErr α} {g : α → List Item}
    (h : ∀ x, (f x).map (fun _ => ()) = verdict (g x)) (o : Option α) :
    (Names.optional f o).map (fun _ => ()) = verdict (itemsO g o) := by
  cases o with
  | none => simp [Names.optional, itemsO, verdict]
  | some x =>
    simp only [Names.optional, itemsO, ← h]
    rw [map_unit_bind _ _ (.ok ()) (fun _ _ => rfl), bind_ok_unit]

theorem optional_bound {α : Type} {f : α → Outcome AErr α} {g : α → List Item} {st : α → α}
    (h : ∀ x x', f x = .ok x' → (∀ i ∈ g x', i.Bound) ∧ st x' = st x) (o o' : Option α)
    (ho : Names.optional f o = .ok o') : (∀ i ∈ itemsO g o', i.Bound) ∧ o'.map st = o.map st := by
  cases o with
  | none =>
    simp only [Names.optional, Outcome.ok.injEq] at ho
    subst ho
    simp [itemsO]
  | some x =>
    simp only [Names.optional, Outcome.bind_eq_ok, Outcome.ok.injEq] at ho
    obtain ⟨a, ha, rfl⟩ := ho
    have := h x a ha
    exact ⟨this.1, by simp [this.2]⟩

/-! ## Statements -/

mutual

/-- Lookup in a statement: verdict, bindings, and the table afterwards. -/
theorem stmt_ok {t : SymbolTable} {ρ : Visible} (h : Holds t ρ) : (s : AStmt) → (t' : SymbolTable) → (s' : AStmt) →
    Names.stmt t s = .ok (t', s') →
    Holds t' (after ρ s) ∧ t'.tail = t.tail ∧ (∀ i ∈ itemsS ρ s', i.Bound) ∧ stripS s' = stripS s ∧
      after ρ s' = after ρ s
  | .const_ k cv name ty init, t', s', he => by
    simp only [Names.stmt] at he
    by_cases hv : name ∈ ρ.map Prod.fst
    · obtain ⟨old, ho⟩ := h.emplace_old (r := .node k) hv
      simp [ho] at he
    · obtain ⟨t1, ht1, htl, hh⟩ := h.emplace_new (r := .node k) hv
      simp only [ht1, Outcome.bind_eq_ok, Outcome.ok.injEq, Prod.mk.injEq] at he
      obtain ⟨a, ha, b, hb, rfl, rfl⟩ := he
      have h1 := optional_bound (type_bound hh) ty a ha
      have h2 := expr_bound hh init b hb
      refine ⟨by simpa only [after] using hh, htl, ?_, by simp [stripS, h1.2, h2.2], by simp [after]⟩
      simp only [itemsS, List.mem_cons, List.mem_append]
      rintro i (rfl | hi | hi)
      · exact hv
      · exact h1.1 i hi
      · exact h2.1 i hi
  | .let_ k cv name ty init, t', s', he => by
    simp only [Names.stmt] at he
    by_cases hv : name ∈ ρ.map Prod.fst
    · obtain ⟨old, ho⟩ := h.emplace_old (r := .node k) hv
      simp [ho] at he
    · obtain ⟨t1, ht1, htl, hh⟩ := h.emplace_new (r := .node k) hv
      simp only [ht1, Outcome.bind_eq_ok, Outcome.ok.injEq, Prod.mk.injEq] at he
      obtain ⟨a, ha, b, hb, rfl, rfl⟩ := he
      have h1 := optional_bound (type_bound hh) ty a ha
      have h2 := optional_bound (expr_bound hh) init b hb
      refine ⟨by simpa only [after] using hh, htl, ?_, by simp [stripS, h1.2, h2.2], by simp [after]⟩
      simp only [itemsS, List.mem_cons, List.mem_append]
      rintro i (rfl | hi | hi)
      · exact hv
      · exact h1.1 i hi
      · exact h2.1 i hi
  | .staticAssert k cv e, t', s', he => by
    simp only [Names.stmt, Outcome.bind_eq_ok, Outcome.ok.injEq, Prod.mk.injEq] at he
    obtain ⟨a, ha, rfl, rfl⟩ := he
    have h1 := expr_bound h e a ha
    exact ⟨by simpa only [after] using h, rfl, by simpa only [itemsS] using h1.1,
      by simp [stripS, h1.2], by simp [after]⟩
  | .ifThen k cv c th, t', s', he => by
    simp only [Names.stmt, Outcome.bind_eq_ok, Outcome.ok.injEq, Prod.mk.injEq] at he
    obtain ⟨a, ha, ⟨t1, b⟩, hb, rfl, rfl⟩ := he
    have h1 := expr_bound h c a ha
    obtain ⟨hh, htl, hb1, hb2, hb3⟩ := stmt_ok h th t1 b hb
    refine ⟨by simpa only [after] using hh, htl, ?_, by simp [stripS, h1.2, hb2], by simp [after, hb3]⟩
    simp only [itemsS, List.mem_append]
    rintro i (hi | hi)
    · exact h1.1 i hi
    · exact hb1 i hi
  | .ifElse k cv c th el, t', s', he => by
    simp only [Names.stmt, Outcome.bind_eq_ok, Outcome.ok.injEq, Prod.mk.injEq] at he
    obtain ⟨a, ha, ⟨t1, b⟩, hb, ⟨t2, d⟩, hd, rfl, rfl⟩ := he
    have h1 := expr_bound h c a ha
    obtain ⟨hh, htl, hb1, hb2, hb3⟩ := stmt_ok h th t1 b hb
    obtain ⟨hh', htl', hd1, hd2, hd3⟩ := stmt_ok hh el t2 d hd
    refine ⟨by simpa only [after] using hh', by rw [htl', htl], ?_, by simp [stripS, h1.2, hb2, hd2],
      by simp [after, hb3, hd3]⟩
    simp only [itemsS, List.mem_append, hb3]
    rintro i (hi | hi | hi)
    · exact h1.1 i hi
    · exact hb1 i hi
    · exact hd1 i hi
  | .while_ k cv c b, t', s', he => by
    simp only [Names.stmt, Outcome.bind_eq_ok, Outcome.ok.injEq, Prod.mk.injEq] at he
    obtain ⟨a, ha, ⟨t1, d⟩, hd, rfl, rfl⟩ := he
    have h1 := expr_bound h c a ha
    obtain ⟨hh, htl, hb1, hb2, hb3⟩ := stmt_ok h b t1 d hd
    refine ⟨by simpa only [after] using hh, htl, ?_, by simp [stripS, h1.2, hb2], by simp [after, hb3]⟩
    simp only [itemsS, List.mem_append]
    rintro i (hi | hi)
    · exact h1.1 i hi
    · exact hb1 i hi
  | .control k cv c e, t', s', he => by
    simp only [Names.stmt, Outcome.bind_eq_ok, Outcome.ok.injEq, Prod.mk.injEq] at he
    obtain ⟨a, ha, rfl, rfl⟩ := he
    have h1 := optional_bound (expr_bound h) e a ha
    exact ⟨by simpa only [after] using h, rfl, by simpa only [itemsS] using h1.1,
      by simp [stripS, h1.2], by simp [after]⟩
  | .assign k cv name ref e, t', s', he => by
    simp only [Names.stmt] at he
    cases hf : t.find name with
    | none => simp [hf] at he
    | some r =>
      simp only [hf, Outcome.bind_eq_ok, Outcome.ok.injEq, Prod.mk.injEq] at he
      obtain ⟨a, ha, rfl, rfl⟩ := he
      have h1 := expr_bound h e a ha
      refine ⟨by simpa only [after] using h, rfl, ?_, by simp [stripS, h1.2], by simp [after]⟩
      simp only [itemsS, List.mem_cons]
      rintro i (rfl | hi)
      · exact use_ok (h := h) hf
      · exact h1.1 i hi
  | .block k cv ss, t', s', he => by
    simp only [Names.stmt, Outcome.bind_eq_ok, Outcome.ok.injEq, Prod.mk.injEq] at he
    obtain ⟨⟨t1, a⟩, ha, rfl, rfl⟩ := he
    obtain ⟨h1, h2, _⟩ := stmts_ok h.push ss t1 a ha
    exact ⟨by simpa only [after] using h, rfl, by simpa only [itemsS] using h1, by simp [stripS, h2],
      by simp [after]⟩
  | .call e, t', s', he => by
    simp only [Names.stmt, Outcome.bind_eq_ok, Outcome.ok.injEq, Prod.mk.injEq] at he
    obtain ⟨a, ha, rfl, rfl⟩ := he
    have h1 := expr_bound h e a ha
    exact ⟨by simpa only [after] using h, rfl, by simpa only [itemsS] using h1.1,
      by simp [stripS, h1.2], by simp [after]⟩

theorem stmts_ok {t : SymbolTable} {ρ : Visible} (h : Holds t ρ) : (ss : List AStmt) →
    (t' : SymbolTable) → (ss' : List AStmt) → Names.stmts t ss = .ok (t', ss') →
    (∀ i ∈ itemsSs ρ ss', i.Bound) ∧ stripSs ss' = stripSs ss ∧ t'.tail = t.tail
  | [], t', ss', he => by
    simp only [Names.stmts, Outcome.ok.injEq, Prod.mk.injEq] at he
    obtain ⟨rfl, rfl⟩ := he
    simp [itemsSs, stripSs]
  | s :: ss, t', ss', he => by
    simp only [Names.stmts, Outcome.bind_eq_ok, Outcome.ok.injEq, Prod.mk.injEq] at he
    obtain ⟨⟨t1, a⟩, ha, ⟨t2, b⟩, hb, rfl, rfl⟩ := he
    obtain ⟨hh, htl, h1, h2, h3⟩ := stmt_ok h s t1 a ha
    obtain ⟨g1, g2, g3⟩ := stmts_ok hh ss t2 b hb
    refine ⟨?_, by simp [stripSs, h2, g2], by rw [g3, htl]⟩
    simp only [itemsSs, List.mem_append, h3]
    rintro i (hi | hi)
    · exact h1 i hi
    · exact g1 i hi

end

mutual

theorem stmt_verdict {t : SymbolTable} {ρ : Visible} (h : Holds t ρ) : (s : AStmt) →
    (Names.stmt t s).map (fun _ => ()) = verdict (itemsS ρ s)
  | .const_ k cv name ty init => by
    simp only [Names.stmt, itemsS]
    by_cases hv : name ∈ ρ.map Prod.fst
    · obtain ⟨old, ho⟩ := h.emplace_old (r := .node k) hv
      rw [define_bad hv]
      simp [ho]
    · obtain ⟨t1, ht1, -, hh⟩ := h.emplace_new (r := .node k) hv
      rw [define_good hv]
      simp only [ht1, verdict_append, ← optional_verdict (type_verdict hh) ty, ← expr_verdict hh init]
      refine map_unit_bind _ _ _ (fun _ _ => ?_)
      rw [map_unit_bind _ _ (.ok ()) (fun _ _ => rfl), bind_ok_unit]
  | .let_ k cv name ty init => by
    simp only [Names.stmt, itemsS]
    by_cases hv : name ∈ ρ.map Prod.fst
    · obtain ⟨old, ho⟩ := h.emplace_old (r := .node k) hv
      rw [define_bad hv]
      simp [ho]
    · obtain ⟨t1, ht1, -, hh⟩ := h.emplace_new (r := .node k) hv
      rw [define_good hv]
      simp only [ht1, verdict_append, ← optional_verdict (type_verdict hh) ty,
        ← optional_verdict (expr_verdict hh) init]
      refine map_unit_bind _ _ _ (fun _ _ => ?_)
      rw [map_unit_bind _ _ (.ok ()) (fun _ _ => rfl), bind_ok_unit]
  | .staticAssert k cv e => by
    simp only [Names.stmt, itemsS, ← expr_verdict h e]
    rw [map_unit_bind _ _ (.ok ()) (fun _ _ => rfl), bind_ok_unit]
  | .ifThen k cv c th => by
    simp only [Names.stmt, itemsS, verdict_append, ← expr_verdict h c, ← stmt_verdict h th]
    refine map_unit_bind _ _ _ (fun _ _ => ?_)
    rw [map_unit_bind _ _ (.ok ()) (fun _ _ => rfl), bind_ok_unit]
  | .ifElse k cv c th el => by
    simp only [Names.stmt, itemsS, verdict_append, ← expr_verdict h c, ← stmt_verdict h th]
    refine map_unit_bind _ _ _ (fun _ _ => ?_)
    refine map_unit_bind _ _ _ (fun a ha => ?_)
    obtain ⟨t1, b⟩ := a
    obtain ⟨hh, -⟩ := stmt_ok h th t1 b ha
    simp only
    rw [← stmt_verdict hh el, map_unit_bind _ _ (.ok ()) (fun _ _ => rfl), bind_ok_unit]
  | .while_ k cv c b => by
    simp only [Names.stmt, itemsS, verdict_append, ← expr_verdict h c, ← stmt_verdict h b]
    refine map_unit_bind _ _ _ (fun _ _ => ?_)
    rw [map_unit_bind _ _ (.ok ()) (fun _ _ => rfl), bind_ok_unit]
  | .control k cv c e => by
    simp only [Names.stmt, itemsS, ← optional_verdict (expr_verdict h) e]
    rw [map_unit_bind _ _ (.ok ()) (fun _ _ => rfl), bind_ok_unit]
  | .assign k cv name ref e => by
    have := find_good h name
    simp only [Names.stmt, itemsS]
    cases hf : t.find name with
    | none =>
      rw [use_bad (fun hg => this.mpr hg hf)]
      simp
    | some r =>
      rw [use_good (this.mp (by simp [hf])), ← expr_verdict h e]
      simp only
      rw [map_unit_bind _ _ (.ok ()) (fun _ _ => rfl), bind_ok_unit]
  | .block k cv ss => by
    simp only [Names.stmt, itemsS, ← stmts_verdict h.push ss]
    rw [map_unit_bind _ _ (.ok ()) (fun _ _ => rfl), bind_ok_unit]
  | .call e => by
    simp only [Names.stmt, itemsS, ← expr_verdict h e]
    rw [map_unit_bind _ _ (.ok ()) (fun _ _ => rfl), bind_ok_unit]

theorem stmts_verdict {t : SymbolTable} {ρ : Visible} (h : Holds t ρ) : (ss : List AStmt) →
    (Names.stmts t ss).map (fun _ => ()) = verdict (itemsSs ρ ss)
  | [] => by simp [Names.stmts, itemsSs, verdict]
  | s :: ss => by
    simp only [Names.stmts, itemsSs, verdict_append, ← stmt_verdict h s]
    refine map_unit_bind _ _ _ (fun a ha => ?_)
    obtain ⟨t1, b⟩ := a
    obtain ⟨hh, -⟩ := stmt_ok h s t1 b ha
    simp only
    rw [← stmts_verdict hh ss, map_unit_bind _ _ (.ok ()) (fun _ _ => rfl), bind_ok_unit]

end

/-! ## Parameters -/

mutual

theorem codesE : (e : AExpr) → ∀ i ∈ itemsE ρ e, ∃ code k name ref,
    i = .use code k name ref ρ false ∧
      (code = .reference_to_undefined_variable ∨ code = .call_to_undefined_function)
  | .literal .., i, hi => by simp [itemsE] at hi
  | .id .., i, hi => by
    simp only [itemsE, List.mem_singleton] at hi
    exact ⟨_, _, _, _, hi, .inl rfl⟩
  | .conversion _ _ e to, i, hi => by
    simp only [itemsE, List.mem_append] at hi
    rcases hi with hi | hi
    · exact codesE e i hi
    · exact codesT to i hi
  | .ite _ _ l c r, i, hi => by
    simp only [itemsE, List.mem_append] at hi
    rcases hi with hi | hi | hi
    · exact codesE l i hi
    · exact codesE c i hi
    · exact codesE r i hi
  | .binary _ _ _ l r, i, hi => by
    simp only [itemsE, List.mem_append] at hi
    rcases hi with hi | hi
    · exact codesE l i hi
    · exact codesE r i hi
  | .prefix _ _ _ e, i, hi => by
    simp only [itemsE] at hi
    exact codesE e i hi
  | .call _ _ _ _ _ args, i, hi => by
    simp only [itemsE, List.mem_cons] at hi
    rcases hi with hi | hi
    · exact ⟨_, _, _, _, hi, .inr rfl⟩
    · exact codesEs args i hi

theorem codesT : (ty : AType) → ∀ i ∈ itemsT ρ ty, ∃ code k name ref,
    i = .use code k name ref ρ false ∧
      (code = .reference_to_undefined_variable ∨ code = .call_to_undefined_function)
  | .base .., i, hi => by simp [itemsT] at hi
  | .uint _ _ _ w, i, hi => by
    simp only [itemsT] at hi
    exact codesE w i hi

theorem codesEs : (es : List AExpr) → ∀ i ∈ itemsEs ρ es, ∃ code k name ref,
    i = .use code k name ref ρ false ∧
      (code = .reference_to_undefined_variable ∨ code = .call_to_undefined_function)
  | [], i, hi => by simp [itemsEs] at hi
  | e :: es, i, hi => by
    simp only [itemsEs, List.mem_append] at hi
    rcases hi with hi | hi
    · exact codesE e i hi
    · exact codesEs es i hi

end

/-- What the width of a parameter makes of errors. -/
def widthFault : Outcome AErr Unit → Outcome AErr Unit
  | .err e => if e.code = .call_to_undefined_function then .throws else .err e
  | x => x

theorem verdict_inWidth (is : List Item)
    (h : ∀ i ∈ is, ∃ code k name ref ρ, i = Item.use code k name ref ρ false) :
    verdict (is.map Item.inWidth) = widthFault (verdict is) := by
  induction is with
  | nil => rfl
  | cons i is ih =>
    obtain ⟨code, k, name, ref, ρ', rfl⟩ := h i (by simp)
    have ih := ih (fun j hj => h j (by simp [hj]))
    simp only [List.map_cons]
    by_cases hg : name ∈ ρ'.map Prod.fst
    · rw [use_good hg, ← ih]
      exact use_good hg
    · rw [use_bad hg]
      refine (use_bad hg).trans ?_
      by_cases hc : code = .call_to_undefined_function <;> simp [hc, widthFault]

theorem bound_inWidth (is : List Item) (h : ∀ i ∈ is, i.Bound) :
    ∀ i ∈ is.map Item.inWidth, i.Bound := by
  intro i hi
  obtain ⟨j, hj, rfl⟩ := List.mem_map.mp hi
  have := h j hj
  cases j <;> simpa only [Item.inWidth, Item.Bound] using this

theorem verdict_code {e : AExpr} {x : AErr} (h : verdict (itemsE ρ e) = .err x) :
    x.code = .reference_to_undefined_variable ∨ x.code = .call_to_undefined_function := by
  have hc : ∀ i ∈ itemsE ρ e, ∃ code k name ref, i = .use code k name ref ρ false ∧
      (code = .reference_to_undefined_variable ∨ code = .call_to_undefined_function) := codesE e
  revert h hc
  generalize itemsE ρ e = is
  intro h hc
  induction is with
  | nil => simp [verdict] at h
  | cons i is ih =>
    obtain ⟨code, k, name, ref, rfl, hcode⟩ := hc i (by simp)
    simp only [verdict] at h
    split at h
    · exact ih h (fun j hj => hc j (by simp [hj]))
    · simp only [Item.fault, Bool.false_eq_true, if_false, Outcome.err.injEq] at h
      subst h
      exact hcode

/-- A width that is no deduced width. -/
theorem widthName_none {p : AParam} {k : Key} {cv : Option Value} {c : Option Nat} {w : AExpr}
    (hp : p.type = .uint k cv c w) (hn : widthName ρ p.type = none) {x : AErr}
    (hv : verdict (itemsE ρ w) = .err x) : ∀ k cv name ref g, w ≠ .id k cv name ref g := by
  intro k' cv' name ref g hw
  subst hw
  rw [hp] at hn
  simp only [widthName] at hn
  split at hn
  · rename_i hm
    rw [itemsE, use_good hm] at hv
    simp [verdict] at hv
  · simp at hn

/-- Lookup in a parameter. -/
theorem param_verdict (h : Holds t ρ) (p : AParam) :
    (Names.param t p).map (fun _ => ()) = verdict (itemsParam ρ p) := by
  simp only [Names.param, itemsParam]
  by_cases hv : p.name ∈ ρ.map Prod.fst
  · obtain ⟨old, ho⟩ := h.emplace_old (r := .param p.k) hv
    rw [define_bad hv]
    simp [ho]
  · obtain ⟨t1, ht1, -, hh⟩ := h.emplace_new (r := .param p.k) hv
    rw [define_good hv]
    simp only [ht1]
    cases hp : p.type with
    | base k cv b => simp [widthName, itemsT, verdict]
    | uint k cv c w =>
      have hw := expr_verdict hh w
      cases hn : widthName ((p.name, .param p.k) :: ρ) (.uint k cv c w) with
      | some nk =>
        cases w <;> simp only [widthName, reduceCtorEq] at hn
        rename_i kw cvw name ref g
        have hv' : name ∉ ((p.name, Lookup.param p.k) :: ρ).map Prod.fst := by
          intro hm
          rw [if_pos hm] at hn
          cases hn
        have hf : t1.find name = none := by
          rw [hh.find]
          exact lookup_none.mpr hv'
        obtain ⟨t2, ht2, -⟩ := hh.emplace_new (r := .node kw) hv'
        simp [Names.expr, hf, ht2, verdict]
      | none =>
        simp only [itemsT]
        rw [verdict_inWidth _ (fun i hi => by
          obtain ⟨a, b, c, d, h1, _⟩ := codesE w i hi
          exact ⟨a, b, c, d, _, h1⟩), ← hw]
        cases he : Names.expr t1 w with
        | ok w' => simp [widthFault]
        | throws => simp [widthFault]
        | ub => simp [widthFault]
        | err x =>
          rw [he] at hw
          simp only [Outcome.map_err, widthFault]
          rcases verdict_code hw.symm with hc | hc
          · have := widthName_none (p := p) hp (hp ▸ hn) hw.symm
            simp only [hc, ne_eq, not_true_eq_false, if_false, reduceCtorEq]
            cases w with
            | id k' cv' name ref g => exact absurd rfl (this _ _ _ _ _)
            | _ => rfl
          · simp [hc]

/-- A parameter after lookup. -/
theorem param_ok (h : Holds t ρ) (p : AParam) (t' : SymbolTable) (p' : AParam) (g : Bool)
    (he : Names.param t p = .ok (t', p', g)) :
    Holds t' (afterParam ρ p) ∧ t'.tail = t.tail ∧ (∀ i ∈ itemsParam ρ p', i.Bound) ∧
      stripParam p' = stripParam p ∧ afterParam ρ p' = afterParam ρ p ∧
      g = (widthName ((p.name, .param p.k) :: ρ) p.type).isSome := by
  simp only [Names.param] at he
  by_cases hv : p.name ∈ ρ.map Prod.fst
  · obtain ⟨old, ho⟩ := h.emplace_old (r := .param p.k) hv
    simp [ho] at he
  · obtain ⟨t1, ht1, htl, hh⟩ := h.emplace_new (r := .param p.k) hv
    simp only [ht1] at he
    cases hp : p.type with
    | base k cv b =>
      simp only [hp, Outcome.ok.injEq, Prod.mk.injEq] at he
      obtain ⟨rfl, rfl, rfl⟩ := he
      refine ⟨by simpa only [afterParam, hp, widthName] using hh, htl, ?_, rfl, rfl,
        by simp [widthName]⟩
      simp only [itemsParam, hp, widthName, itemsT, List.map_nil, List.mem_singleton]
      rintro i rfl
      exact hv
    | uint k cv c w =>
      simp only [hp] at he
      cases hw : Names.expr t1 w with
      | ok w' =>
        simp only [hw, Outcome.ok.injEq, Prod.mk.injEq] at he
        obtain ⟨rfl, rfl, rfl⟩ := he
        obtain ⟨hb, hs⟩ := expr_bound hh w w' hw
        have hn : ∀ cv' c', widthName ((p.name, .param p.k) :: ρ) (.uint k cv' c' w) = none := by
          intro cv' c'
          cases w <;> simp only [widthName]
          rename_i kw cvw name ref gg
          have hgood := find_good hh name
          simp only [Names.expr] at hw
          cases hf : t1.find name with
          | none => simp [hf] at hw
          | some r =>
            rw [if_pos (hgood.mp (by simp [hf]))]
        have hn' : ∀ cv' c', widthName ((p.name, .param p.k) :: ρ) (.uint k cv' c' w') = none := by
          intro cv' c'
          cases w' <;> simp only [widthName]
          rename_i kw cvw name ref gg
          obtain ⟨r, _, hm, _⟩ := hb _ (by simp [itemsE]; rfl)
          rw [if_pos (List.mem_map_of_mem (f := Prod.fst) hm)]
        refine ⟨by simpa only [afterParam, hp, hn] using hh, htl, ?_,
          by simp [stripParam, hp, stripT, hs], ?_, by simp [hn]⟩
        · simp only [itemsParam, hn', List.mem_cons, itemsT]
          rintro i (rfl | hi)
          · exact hv
          · exact bound_inWidth _ hb i hi
        · simp only [afterParam, hn, hn', hp]
      | err x =>
        simp only [hw] at he
        split at he
        · simp at he
        · cases w <;> simp only [reduceCtorEq] at he
          rename_i kw cvw name ref gg
          have hf : t1.find name = none := by
            cases hf : t1.find name with
            | none => rfl
            | some r => simp [Names.expr, hf] at hw
          have hv' : name ∉ ((p.name, Lookup.param p.k) :: ρ).map Prod.fst := by
            rw [hh.find] at hf
            exact lookup_none.mp hf
          obtain ⟨t2, ht2, htl2, hh2⟩ := hh.emplace_new (r := .node kw) hv'
          simp only [ht2, Outcome.ok.injEq, Prod.mk.injEq] at he
          obtain ⟨rfl, rfl, rfl⟩ := he
          have hn : ∀ g' ref' cv', widthName ((p.name, .param p.k) :: ρ)
              (.uint k cv c (.id kw cv' name ref' g')) = some (name, kw) := by
            intro g' ref' cv'
            simp only [widthName]
            rw [if_neg hv']
          refine ⟨by simpa only [afterParam, hp, hn] using hh2, by rw [htl2, htl], ?_,
            by simp [stripParam, hp, stripT, stripE], ?_, by simp [hn]⟩
          · simp only [itemsParam, hn, List.mem_singleton]
            rintro i rfl
            exact hv
          · simp only [afterParam, hn, hp]
      | throws => simp [hw] at he
      | ub => simp [hw] at he

theorem params_ok {t : SymbolTable} {ρ : Visible} (h : Holds t ρ) (ps : List AParam) :
    ∀ (t' : SymbolTable) (ps' : List AParam) (g : Bool), Names.params t ps = .ok (t', ps', g) →
    Holds t' (afterParams ρ ps) ∧ t'.tail = t.tail ∧ (∀ i ∈ itemsParams ρ ps', i.Bound) ∧
      ps'.map stripParam = ps.map stripParam ∧ afterParams ρ ps' = afterParams ρ ps ∧
      g = isGeneric ρ ps := by
  induction ps generalizing t ρ with
  | nil =>
    intro t' ps' g he
    simp only [Names.params, Outcome.ok.injEq, Prod.mk.injEq] at he
    obtain ⟨rfl, rfl, rfl⟩ := he
    simp [afterParams, itemsParams, isGeneric, h]
  | cons p ps ih =>
    intro t' ps' g he
    simp only [Names.params, Outcome.bind_eq_ok, Outcome.ok.injEq, Prod.mk.injEq] at he
    obtain ⟨⟨t1, p', g1⟩, h1, ⟨t2, ps1, g2⟩, h2, rfl, rfl, rfl⟩ := he
    obtain ⟨a1, a2, a3, a4, a5, a6⟩ := param_ok h p t1 p' g1 h1
    obtain ⟨b1, b2, b3, b4, b5, b6⟩ := ih a1 t2 ps1 g2 h2
    refine ⟨by simpa only [afterParams] using b1, by rw [b2, a2], ?_, by simp [a4, b4],
      by simp [afterParams, a5, b5], by simp [isGeneric, a6, b6]⟩
    simp only [itemsParams, List.mem_append, a5]
    rintro i (hi | hi)
    · exact a3 i hi
    · exact b3 i hi

theorem params_verdict {t : SymbolTable} {ρ : Visible} (h : Holds t ρ) (ps : List AParam) :
    (Names.params t ps).map (fun _ => ()) = verdict (itemsParams ρ ps) := by
  induction ps generalizing t ρ with
  | nil => simp [Names.params, itemsParams, verdict]
  | cons p ps ih =>
    simp only [Names.params, itemsParams, verdict_append, ← param_verdict h p]
    refine map_unit_bind _ _ _ (fun a ha => ?_)
    obtain ⟨t1, p', g1⟩ := a
    obtain ⟨a1, -⟩ := param_ok h p t1 p' g1 ha
    simp only
    rw [← ih a1, map_unit_bind _ _ (.ok ()) (fun _ _ => rfl), bind_ok_unit]

/-! ## Functions and programs -/

theorem function_verdict (h : Holds t ρ) (f : AFn) :
    (Names.function t f).map (fun _ => ()) = verdict (itemsF ρ f) := by
  simp only [Names.function, itemsF, verdict_append, ← params_verdict h.push f.params]
  refine map_unit_bind _ _ _ (fun a ha => ?_)
  obtain ⟨t1, ps, g⟩ := a
  obtain ⟨hh, -⟩ := params_ok h.push f.params t1 ps g ha
  simp only
  rw [← type_verdict hh, ← optional_verdict (expr_verdict hh), ← stmts_verdict hh.push]
  refine map_unit_bind _ _ _ (fun _ _ => ?_)
  refine map_unit_bind _ _ _ (fun _ _ => ?_)
  rw [map_unit_bind _ _ (.ok ()) (fun _ _ => rfl), bind_ok_unit]

theorem function_ok (h : Holds t ρ) (f f' : AFn) (he : Names.function t f = .ok f') :
    (∀ i ∈ itemsF ρ f', i.Bound) ∧ stripF f' = stripF f ∧
      f'.generic = (f.generic || isGeneric ρ f.params) := by
  simp only [Names.function, Outcome.bind_eq_ok, Outcome.ok.injEq] at he
  obtain ⟨⟨t1, ps, g⟩, h1, ret, h2, req, h3, ⟨t2, body⟩, h4, rfl⟩ := he
  obtain ⟨a1, a2, a3, a4, a5, a6⟩ := params_ok h.push f.params t1 ps g h1
  have b := type_bound a1 f.ret ret h2
  have c := optional_bound (expr_bound a1) f.requires_ req h3
  obtain ⟨d1, d2, d3⟩ := stmts_ok a1.push f.body t2 body h4
  refine ⟨?_, by simp [stripF, a4, b.2, c.2, d2], by simp [a6]⟩
  simp only [itemsF, a5, List.mem_append]
  rintro i (hi | hi | hi | hi)
  · exact a3 i hi
  · exact b.1 i hi
  · exact c.1 i hi
  · exact d1 i hi

theorem register_verdict {t : SymbolTable} {ρ : Visible} (h : Holds t ρ) (ds : List ADecl) :
    (Names.register t ds).map (fun _ => ()) = verdict (itemsGlobal ρ ds) := by
  induction ds generalizing t ρ with
  | nil => simp [Names.register, itemsGlobal, verdict]
  | cons d ds ih =>
    cases d with
    | const_ k cv name ty init =>
      simp only [Names.register, itemsGlobal]
      by_cases hv : name ∈ ρ.map Prod.fst
      · obtain ⟨old, ho⟩ := h.emplace_old (r := .node k) hv
        rw [define_bad hv]
        simp [ho]
      · obtain ⟨t1, ht1, -, hh⟩ := h.emplace_new (r := .node k) hv
        rw [define_good hv]
        simp only [ht1, afterGlobal]
        exact ih hh
    | staticAssert k cv e =>
      simp only [Names.register, itemsGlobal]
      exact ih h
    | function f =>
      simp only [Names.register, itemsGlobal]
      by_cases hv : f.name ∈ ρ.map Prod.fst
      · obtain ⟨old, ho⟩ := h.emplace_old (r := .node f.k) hv
        rw [define_bad hv]
        simp [ho]
      · obtain ⟨t1, ht1, -, hh⟩ := h.emplace_new (r := .node f.k) hv
        rw [define_good hv]
        simp only [ht1, afterGlobal]
        exact ih hh

theorem mem_globals {ρ : Visible} (ds : List ADecl) {p : Name × Lookup} (h : p ∈ ρ) :
    p ∈ globals ρ ds := by
  induction ds generalizing ρ with
  | nil => exact h
  | cons d ds ih =>
    simp only [globals]
    refine ih ?_
    cases d <;> simp [afterGlobal, h]

theorem register_ok {t : SymbolTable} {ρ : Visible} (h : Holds t ρ) (ds : List ADecl) :
    ∀ t', Names.register t ds = .ok t' → Holds t' (globals ρ ds) ∧
      (∀ i ∈ itemsGlobal ρ ds, i.Bound) := by
  induction ds generalizing t ρ with
  | nil =>
    intro t' he
    simp only [Names.register, Outcome.ok.injEq] at he
    subst he
    simp [globals, itemsGlobal, h]
  | cons d ds ih =>
    intro t' he
    cases d with
    | const_ k cv name ty init =>
      simp only [Names.register] at he
      by_cases hv : name ∈ ρ.map Prod.fst
      · obtain ⟨old, ho⟩ := h.emplace_old (r := .node k) hv
        simp [ho] at he
      · obtain ⟨t1, ht1, -, hh⟩ := h.emplace_new (r := .node k) hv
        simp only [ht1] at he
        obtain ⟨a, b⟩ := ih hh t' he
        refine ⟨a, ?_⟩
        simp only [itemsGlobal, List.mem_cons, afterGlobal]
        rintro i (rfl | hi)
        · exact hv
        · exact b i hi
    | staticAssert k cv e =>
      simp only [Names.register] at he
      exact ih h t' he
    | function f =>
      simp only [Names.register] at he
      by_cases hv : f.name ∈ ρ.map Prod.fst
      · obtain ⟨old, ho⟩ := h.emplace_old (r := .node f.k) hv
        simp [ho] at he
      · obtain ⟨t1, ht1, -, hh⟩ := h.emplace_new (r := .node f.k) hv
        simp only [ht1] at he
        obtain ⟨a, b⟩ := ih hh t' he
        refine ⟨a, ?_⟩
        simp only [itemsGlobal, List.mem_cons, afterGlobal]
        rintro i (rfl | hi)
        · exact hv
        · exact b i hi

/-- The declared global names are visible. -/
def declared : ADecl → Option (Name × Lookup)
  | .const_ k _ name _ _ => some (name, .node k)
  | .function f => some (f.name, .node f.k)
  | .staticAssert .. => none

theorem declared_mem {ρ : Visible} (ds : List ADecl) :
    ∀ d ∈ ds, ∀ p, declared d = some p → p ∈ globals ρ ds := by
  induction ds generalizing ρ with
  | nil => simp
  | cons d ds ih =>
    intro d' hd p hp
    simp only [List.mem_cons] at hd
    simp only [globals]
    rcases hd with rfl | hd
    · refine mem_globals ds ?_
      cases d' <;> simp_all [declared, afterGlobal]
    · exact ih d' hd p hp

theorem find_declared (h : Holds t ρ) {name : Name} {r : Lookup} (hm : (name, r) ∈ ρ) :
    t.find name = some r := by
  rw [h.find]
  cases hl : ρ.lookup name with
  | none => exact absurd (List.mem_map_of_mem (f := Prod.fst) hm) (lookup_none.mp hl)
  | some r' => rw [lookup_unique h.nodup hl r hm]

theorem decl_verdict (h : Holds t ρ) (d : ADecl) (hd : ∀ p, declared d = some p → p ∈ ρ) :
    (Names.decl t d).map (fun _ => ()) = verdict (itemsD ρ d) := by
  cases d with
  | const_ k cv name ty init =>
    have hf := find_declared h (hd _ rfl)
    simp only [Names.decl, itemsD, hf, decide_true, Outcome.assert, if_true, Outcome.ok_bind,
      verdict_append, ← optional_verdict (type_verdict h) ty, ← expr_verdict h init]
    refine map_unit_bind _ _ _ (fun _ _ => ?_)
    rw [map_unit_bind _ _ (.ok ()) (fun _ _ => rfl), bind_ok_unit]
  | staticAssert k cv e =>
    simp only [Names.decl, itemsD, ← expr_verdict h e]
    rw [map_unit_bind _ _ (.ok ()) (fun _ _ => rfl), bind_ok_unit]
  | function f =>
    have hf := find_declared h (hd _ rfl)
    simp only [Names.decl, itemsD, hf, decide_true, Outcome.assert, if_true, Outcome.ok_bind,
      ← function_verdict h f]
    rw [map_unit_bind _ _ (.ok ()) (fun _ _ => rfl), bind_ok_unit]

theorem decl_ok (h : Holds t ρ) (d d' : ADecl) (he : Names.decl t d = .ok d') :
    (∀ i ∈ itemsD ρ d', i.Bound) ∧ stripD d' = stripD d ∧ declared d' = declared d := by
  cases d with
  | const_ k cv name ty init =>
    simp only [Names.decl, Outcome.bind_eq_ok, Outcome.ok.injEq] at he
    obtain ⟨_, -, a, ha, b, hb, rfl⟩ := he
    have h1 := optional_bound (type_bound h) ty a ha
    have h2 := expr_bound h init b hb
    refine ⟨?_, by simp [stripD, h1.2, h2.2], rfl⟩
    simp only [itemsD, List.mem_append]
    rintro i (hi | hi)
    · exact h1.1 i hi
    · exact h2.1 i hi
  | staticAssert k cv e =>
    simp only [Names.decl, Outcome.bind_eq_ok, Outcome.ok.injEq] at he
    obtain ⟨a, ha, rfl⟩ := he
    have h1 := expr_bound h e a ha
    exact ⟨by simpa only [itemsD] using h1.1, by simp [stripD, h1.2], rfl⟩
  | function f =>
    simp only [Names.decl, Outcome.bind_eq_ok, Outcome.ok.injEq] at he
    obtain ⟨_, -, a, ha, rfl⟩ := he
    obtain ⟨h1, h2, _⟩ := function_ok h f a ha
    refine ⟨by simpa only [itemsD] using h1, by simp [stripD, h2], ?_⟩
    have hk := congrArg AFn.k h2
    have hn := congrArg AFn.name h2
    simp only [stripF] at hk hn
    simp [declared, hk, hn]

theorem decls_verdict (h : Holds t ρ) (ds : List ADecl)
    (hd : ∀ d ∈ ds, ∀ p, declared d = some p → p ∈ ρ) :
    (Names.decls t ds).map (fun _ => ()) = verdict (itemsDs ρ ds) := by
  induction ds with
  | nil => simp [Names.decls, itemsDs, verdict]
  | cons d ds ih =>
    simp only [Names.decls, itemsDs, verdict_append, ← decl_verdict h d (hd d (by simp)),
      ← ih (fun d' h' => hd d' (by simp [h']))]
    refine map_unit_bind _ _ _ (fun _ _ => ?_)
    rw [map_unit_bind _ _ (.ok ()) (fun _ _ => rfl), bind_ok_unit]

theorem decls_ok (h : Holds t ρ) (ds : List ADecl) : ∀ ds', Names.decls t ds = .ok ds' →
    (∀ i ∈ itemsDs ρ ds', i.Bound) ∧ ds'.map stripD = ds.map stripD ∧
      ds'.map declared = ds.map declared := by
  induction ds with
  | nil =>
    intro ds' he
    simp only [Names.decls, Outcome.ok.injEq] at he
    subst he
    simp [itemsDs]
  | cons d ds ih =>
    intro ds' he
    simp only [Names.decls, Outcome.bind_eq_ok, Outcome.ok.injEq] at he
    obtain ⟨a, ha, b, hb, rfl⟩ := he
    obtain ⟨h1, h2, h3⟩ := decl_ok h d a ha
    obtain ⟨g1, g2, g3⟩ := ih b hb
    refine ⟨?_, by simp [h2, g2], by simp [h3, g3]⟩
    simp only [itemsDs, List.mem_append]
    rintro i (hi | hi)
    · exact h1 i hi
    · exact g1 i hi

theorem globals_declared {ρ : Visible} (ds ds' : List ADecl)
    (h : ds'.map declared = ds.map declared) : globals ρ ds' = globals ρ ds := by
  induction ds generalizing ρ ds' with
  | nil => simp at h; simp [h]
  | cons d ds ih =>
    cases ds' with
    | nil => simp at h
    | cons d' ds' =>
      simp only [List.map_cons, List.cons.injEq] at h
      have hd : afterGlobal ρ d' = afterGlobal ρ d := by
        cases d <;> cases d' <;> simp_all [declared, afterGlobal]
      simp only [globals, hd]
      exact ih ds' h.2

theorem initial_holds : Holds [[], builtinSymbols] predefined :=
  ⟨by simp, fun name => by
    simp only [SymbolTable.find, builtinSymbols, predefined]
    cases List.lookup name [("assert".toList, Lookup.builtin .assert)] <;> simp,
   by simp [predefined]⟩

end Scopes

end Bms
