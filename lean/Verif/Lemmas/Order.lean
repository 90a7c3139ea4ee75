import Verif.Props.Accepted

/-!
# Moving functions (C89)

Two tables of symbols that give the same answers, and two descriptions of a program that give the same
answers, lead to the same results.
-/

namespace Bms

open Spec

/-! ## Name lookup -/

/-- Tables of symbols in which the same is found on each level. -/
inductive LikeTable : SymbolTable → SymbolTable → Prop
  | nil : LikeTable [] []
  | cons {m m' : Symbols} {t t' : SymbolTable} (h : ∀ name, m'.lookup name = m.lookup name)
      (hs : LikeTable t t') : LikeTable (m :: t) (m' :: t')

theorem LikeTable.refl (t : SymbolTable) : LikeTable t t := by
  induction t with
  | nil => exact .nil
  | cons m t ih => exact .cons (fun _ => rfl) ih

theorem LikeTable.find {t t' : SymbolTable} (h : LikeTable t t') (name : Name) :
    t'.find name = t.find name := by
  induction h with
  | nil => rfl
  | cons h _ ih => simp only [SymbolTable.find, ih, h]

theorem lookup_cons_congr {m m' : Symbols} (h : ∀ name, m'.lookup name = m.lookup name) (x : Name)
    (r : Lookup) (name : Name) : List.lookup name ((x, r) :: m') = List.lookup name ((x, r) :: m) := by
  simp only [List.lookup_cons, h]

theorem LikeTable.emplace {t t' t1 : SymbolTable} (h : LikeTable t t') {name : Name} {r : Lookup}
    (he : t.emplace name r shadowing = .inr t1) :
    ∃ t1', t'.emplace name r shadowing = .inr t1' ∧ LikeTable t1 t1' := by
  cases h with
  | nil => exact ⟨[], rfl, by cases he; exact .nil⟩
  | @cons m m' p p' hm hp =>
    simp only [SymbolTable.emplace, shadowing, Bool.false_eq_true, if_false] at he ⊢
    rw [hp.find, hm]
    cases hf : SymbolTable.find p name with
    | some _ => rw [hf] at he; cases he
    | none =>
      rw [hf] at he
      simp only at he ⊢
      cases hl : m.lookup name with
      | some _ => rw [hl] at he; cases he
      | none =>
        rw [hl] at he
        cases he
        exact ⟨_, rfl, .cons (lookup_cons_congr hm name r) hp⟩

theorem LikeTable.emplace_not {t t' : SymbolTable} (h : LikeTable t t') {name : Name} {r old : Lookup}
    (he : t.emplace name r shadowing = .inl old) : t'.emplace name r shadowing = .inl old := by
  cases h with
  | nil => cases he
  | @cons m m' p p' hm hp =>
    simp only [SymbolTable.emplace, shadowing, Bool.false_eq_true, if_false] at he ⊢
    rw [hp.find, hm]
    cases hf : SymbolTable.find p name with
    | some _ => rw [hf] at he; exact he
    | none =>
      rw [hf] at he
      simp only at he ⊢
      cases hl : m.lookup name with
      | some _ => rw [hl] at he; exact he
      | none => rw [hl] at he; cases he

mutual

theorem expr_like {t t' : SymbolTable} (h : LikeTable t t') :
    (e : AExpr) → Names.expr t' e = Names.expr t e
  | .literal .. => by simp [Names.expr]
  | .id .. => by simp only [Names.expr, h.find]
  | .conversion _ _ e ty => by simp only [Names.expr, expr_like h e, type_like h ty]
  | .ite _ _ l c r => by simp only [Names.expr, expr_like h l, expr_like h c, expr_like h r]
  | .binary _ _ _ l r => by simp only [Names.expr, expr_like h l, expr_like h r]
  | .prefix _ _ _ e => by simp only [Names.expr, expr_like h e]
  | .call _ _ _ _ _ args => by simp only [Names.expr, h.find, exprs_like h args]

theorem type_like {t t' : SymbolTable} (h : LikeTable t t') :
    (ty : AType) → Names.type t' ty = Names.type t ty
  | .base .. => by simp [Names.type]
  | .uint _ _ _ w => by simp only [Names.type, expr_like h w]

theorem exprs_like {t t' : SymbolTable} (h : LikeTable t t') :
    (es : List AExpr) → Names.exprs t' es = Names.exprs t es
  | [] => by simp [Names.exprs]
  | e :: es => by simp only [Names.exprs, expr_like h e, exprs_like h es]

end

theorem optional_expr_like {t t' : SymbolTable} (h : LikeTable t t') (e : Option AExpr) :
    Names.optional (Names.expr t') e = Names.optional (Names.expr t) e := by
  cases e <;> simp only [Names.optional, expr_like h]

theorem optional_type_like {t t' : SymbolTable} (h : LikeTable t t') (e : Option AType) :
    Names.optional (Names.type t') e = Names.optional (Names.type t) e := by
  cases e <;> simp only [Names.optional, type_like h]

mutual

theorem stmt_like : (s : AStmt) → {t t' t1 : SymbolTable} → {s1 : AStmt} → LikeTable t t' →
    Names.stmt t s = .ok (t1, s1) → ∃ t1', Names.stmt t' s = .ok (t1', s1) ∧ LikeTable t1 t1'
  | .const_ k cv name ty init, t, t', t1, s1, h, hx => by
    simp only [Names.stmt] at hx ⊢
    cases he : t.emplace name (.node k) shadowing with
    | inl _ => rw [he] at hx; cases hx
    | inr t2 =>
      obtain ⟨t2', h1, h2⟩ := h.emplace he
      rw [he] at hx
      rw [h1]
      simp only [optional_type_like h2, expr_like h2] at hx ⊢
      obtain ⟨ty', hy, hx⟩ := Outcome.bind_eq_ok.1 hx
      obtain ⟨i', hi, hx⟩ := Outcome.bind_eq_ok.1 hx
      cases hx
      exact ⟨t2', by rw [hy, hi]; rfl, h2⟩
  | .let_ k cv name ty init, t, t', t1, s1, h, hx => by
    simp only [Names.stmt] at hx ⊢
    cases he : t.emplace name (.node k) shadowing with
    | inl _ => rw [he] at hx; cases hx
    | inr t2 =>
      obtain ⟨t2', h1, h2⟩ := h.emplace he
      rw [he] at hx
      rw [h1]
      simp only [optional_type_like h2, optional_expr_like h2] at hx ⊢
      obtain ⟨ty', hy, hx⟩ := Outcome.bind_eq_ok.1 hx
      obtain ⟨i', hi, hx⟩ := Outcome.bind_eq_ok.1 hx
      cases hx
      exact ⟨t2', by rw [hy, hi]; rfl, h2⟩
  | .staticAssert k cv e, t, t', t1, s1, h, hx => by
    simp only [Names.stmt, expr_like h] at hx ⊢
    obtain ⟨e', he, hx⟩ := Outcome.bind_eq_ok.1 hx
    cases hx
    exact ⟨t', by rw [he]; rfl, h⟩
  | .ifThen k cv c th, t, t', t1, s1, h, hx => by
    simp only [Names.stmt, expr_like h] at hx ⊢
    obtain ⟨c', hc, hx⟩ := Outcome.bind_eq_ok.1 hx
    obtain ⟨⟨t2, th'⟩, ht, hx⟩ := Outcome.bind_eq_ok.1 hx
    cases hx
    obtain ⟨t2', h1, h2⟩ := stmt_like th h ht
    exact ⟨t2', by rw [hc]; simp only [h1, Outcome.ok_bind], h2⟩
  | .ifElse k cv c th el, t, t', t1, s1, h, hx => by
    simp only [Names.stmt, expr_like h] at hx ⊢
    obtain ⟨c', hc, hx⟩ := Outcome.bind_eq_ok.1 hx
    obtain ⟨⟨t2, th'⟩, ht, hx⟩ := Outcome.bind_eq_ok.1 hx
    obtain ⟨⟨t3, el'⟩, hl, hx⟩ := Outcome.bind_eq_ok.1 hx
    cases hx
    obtain ⟨t2', h1, h2⟩ := stmt_like th h ht
    obtain ⟨t3', h3, h4⟩ := stmt_like el h2 hl
    exact ⟨t3', by rw [hc]; simp only [h1, h3, Outcome.ok_bind], h4⟩
  | .while_ k cv c b, t, t', t1, s1, h, hx => by
    simp only [Names.stmt, expr_like h] at hx ⊢
    obtain ⟨c', hc, hx⟩ := Outcome.bind_eq_ok.1 hx
    obtain ⟨⟨t2, b'⟩, hb, hx⟩ := Outcome.bind_eq_ok.1 hx
    cases hx
    obtain ⟨t2', h1, h2⟩ := stmt_like b h hb
    exact ⟨t2', by rw [hc]; simp only [h1, Outcome.ok_bind], h2⟩
  | .control k cv c e, t, t', t1, s1, h, hx => by
    simp only [Names.stmt, optional_expr_like h] at hx ⊢
    obtain ⟨e', he, hx⟩ := Outcome.bind_eq_ok.1 hx
    cases hx
    exact ⟨t', by rw [he]; rfl, h⟩
  | .assign k cv name ref e, t, t', t1, s1, h, hx => by
    simp only [Names.stmt, expr_like h, h.find] at hx ⊢
    cases hf : t.find name with
    | none => rw [hf] at hx; cases hx
    | some r =>
      rw [hf] at hx
      obtain ⟨e', he, hx⟩ := Outcome.bind_eq_ok.1 hx
      cases hx
      exact ⟨t', by simp only [he, Outcome.ok_bind], h⟩
  | .block k cv ss, t, t', t1, s1, h, hx => by
    simp only [Names.stmt] at hx ⊢
    obtain ⟨⟨t2, ss'⟩, hs, hx⟩ := Outcome.bind_eq_ok.1 hx
    cases hx
    obtain ⟨t2', h1, -⟩ := stmts_like ss (.cons (fun _ => rfl) h) hs
    exact ⟨t', by simp only [h1, Outcome.ok_bind], h⟩
  | .call e, t, t', t1, s1, h, hx => by
    simp only [Names.stmt, expr_like h] at hx ⊢
    obtain ⟨e', he, hx⟩ := Outcome.bind_eq_ok.1 hx
    cases hx
    exact ⟨t', by rw [he]; rfl, h⟩

theorem stmts_like : (ss : List AStmt) → {t t' t1 : SymbolTable} → {ss1 : List AStmt} → LikeTable t t' →
    Names.stmts t ss = .ok (t1, ss1) → ∃ t1', Names.stmts t' ss = .ok (t1', ss1) ∧ LikeTable t1 t1'
  | [], t, t', t1, s1, h, hx => by
    simp only [Names.stmts] at hx ⊢
    cases hx
    exact ⟨t', rfl, h⟩
  | s :: ss, t, t', t1, s1, h, hx => by
    simp only [Names.stmts] at hx ⊢
    obtain ⟨⟨t2, s'⟩, hs, hx⟩ := Outcome.bind_eq_ok.1 hx
    obtain ⟨⟨t3, ss'⟩, hss, hx⟩ := Outcome.bind_eq_ok.1 hx
    cases hx
    obtain ⟨t2', h1, h2⟩ := stmt_like s h hs
    obtain ⟨t3', h3, h4⟩ := stmts_like ss h2 hss
    exact ⟨t3', by simp only [h1, h3, Outcome.ok_bind], h4⟩

end

theorem param_like {p p1 : AParam} {g : Bool} {t t' t1 : SymbolTable} (h : LikeTable t t')
    (hx : Names.param t p = .ok (t1, p1, g)) :
    ∃ t1', Names.param t' p = .ok (t1', p1, g) ∧ LikeTable t1 t1' := by
  unfold Names.param at hx ⊢
  cases he : t.emplace p.name (.param p.k) shadowing with
  | inl _ => rw [he] at hx; cases hx
  | inr t2 =>
    obtain ⟨t2', h1, h2⟩ := h.emplace he
    rw [he] at hx
    rw [h1]
    simp only at hx ⊢
    cases hp : p.type with
    | base k cv b =>
      rw [hp] at hx
      cases hx
      exact ⟨t2', rfl, h2⟩
    | uint k cv c w =>
      rw [hp] at hx
      simp only [expr_like h2] at hx ⊢
      cases hw : Names.expr t2 w with
      | ok w' =>
        rw [hw] at hx
        cases hx
        exact ⟨t2', rfl, h2⟩
      | err e =>
        rw [hw] at hx
        simp only at hx ⊢
        by_cases hc : e.code ≠ .reference_to_undefined_variable
        · rw [if_pos hc] at hx; cases hx
        · rw [if_neg hc] at hx ⊢
          cases w with
          | id kw cvw name ref gen =>
            simp only at hx ⊢
            cases hn : t2.emplace name (.node kw) shadowing with
            | inl old =>
              rw [hn] at hx
              cases hx
              rw [h2.emplace_not hn]
              exact ⟨t2', rfl, h2⟩
            | inr t3 =>
              obtain ⟨t3', h3, h4⟩ := h2.emplace hn
              rw [hn] at hx
              cases hx
              rw [h3]
              exact ⟨t3', rfl, h4⟩
          | _ => cases hx
      | throws => rw [hw] at hx; cases hx
      | ub => rw [hw] at hx; cases hx

theorem params_like (ps : List AParam) {ps1 : List AParam} {g : Bool} {t t' t1 : SymbolTable}
    (h : LikeTable t t') (hx : Names.params t ps = .ok (t1, ps1, g)) :
    ∃ t1', Names.params t' ps = .ok (t1', ps1, g) ∧ LikeTable t1 t1' := by
  induction ps generalizing t t' t1 ps1 g with
  | nil =>
    simp only [Names.params] at hx ⊢
    cases hx
    exact ⟨t', rfl, h⟩
  | cons p ps ih =>
    simp only [Names.params] at hx ⊢
    obtain ⟨⟨t2, p', g1⟩, hp, hx⟩ := Outcome.bind_eq_ok.1 hx
    obtain ⟨⟨t3, ps', g2⟩, hps, hx⟩ := Outcome.bind_eq_ok.1 hx
    cases hx
    obtain ⟨t2', h1, h2⟩ := param_like h hp
    obtain ⟨t3', h3, h4⟩ := ih h2 hps
    exact ⟨t3', by simp only [h1, h3, Outcome.ok_bind], h4⟩

theorem function_like {f f1 : AFn} {t t' : SymbolTable} (h : LikeTable t t')
    (hx : Names.function t f = .ok f1) : Names.function t' f = .ok f1 := by
  simp only [Names.function] at hx ⊢
  obtain ⟨⟨t2, ps, g⟩, hp, hx⟩ := Outcome.bind_eq_ok.1 hx
  obtain ⟨t2', h1, h2⟩ := params_like f.params (.cons (fun _ => rfl) h) hp
  simp only [h1, Outcome.ok_bind, type_like h2, optional_expr_like h2] at hx ⊢
  obtain ⟨r, hr, hx⟩ := Outcome.bind_eq_ok.1 hx
  obtain ⟨q, hq, hx⟩ := Outcome.bind_eq_ok.1 hx
  obtain ⟨⟨t3, b⟩, hb, hx⟩ := Outcome.bind_eq_ok.1 hx
  obtain ⟨t3', h3, -⟩ := stmts_like f.body (.cons (fun _ => rfl) h2) hb
  rw [hr, Outcome.ok_bind, hq, Outcome.ok_bind, h3]
  exact hx

theorem decl_like {d d1 : ADecl} {t t' : SymbolTable} (h : LikeTable t t')
    (hx : Names.decl t d = .ok d1) : Names.decl t' d = .ok d1 := by
  cases d with
  | const_ k cv name ty init =>
    simpa only [Names.decl, h.find, optional_type_like h, expr_like h] using hx
  | staticAssert k cv e => simpa only [Names.decl, expr_like h] using hx
  | function f =>
    simp only [Names.decl, h.find] at hx ⊢
    obtain ⟨_, ha, hx⟩ := Outcome.bind_eq_ok.1 hx
    obtain ⟨f1, hf, hx⟩ := Outcome.bind_eq_ok.1 hx
    rw [ha, Outcome.ok_bind, function_like h hf]
    exact hx

theorem decls_like {ds ds1 : List ADecl} {t t' : SymbolTable} (h : LikeTable t t')
    (hx : Names.decls t ds = .ok ds1) : Names.decls t' ds = .ok ds1 := by
  induction ds generalizing ds1 with
  | nil => exact hx
  | cons d ds ih =>
    simp only [Names.decls] at hx ⊢
    obtain ⟨d1, hd, hx⟩ := Outcome.bind_eq_ok.1 hx
    obtain ⟨ds2, hds, hx⟩ := Outcome.bind_eq_ok.1 hx
    rw [decl_like h hd, Outcome.ok_bind, ih hds]
    exact hx

/-! ## Declarations in another order -/

/-- The name that a global declaration defines. -/
def symbolOf : ADecl → Option (Name × Lookup)
  | .const_ k _ name _ _ => some (name, .node k)
  | .function f => some (f.name, .node f.k)
  | .staticAssert .. => none

/-- `t'` is `t` with the name of the declaration. -/
def Places (t : SymbolTable) (d : ADecl) (t' : SymbolTable) : Prop :=
  (symbolOf d = none ∧ t' = t) ∨ ∃ name r, symbolOf d = some (name, r) ∧ t.emplace name r shadowing = .inr t'

theorem register_cons {t t1 : SymbolTable} {d : ADecl} {ds : List ADecl} :
    Names.register t (d :: ds) = .ok t1 ↔ ∃ t2, Places t d t2 ∧ Names.register t2 ds = .ok t1 := by
  cases d with
  | staticAssert k cv e =>
    simp only [Names.register, Places, symbolOf]
    constructor
    · exact fun h => ⟨t, .inl ⟨trivial, rfl⟩, h⟩
    · rintro ⟨t2, ⟨-, rfl⟩ | ⟨_, _, h, -⟩, h2⟩
      · exact h2
      · cases h
  | const_ k cv name ty init =>
    simp only [Names.register, Places, symbolOf]
    constructor
    · intro h
      cases he : t.emplace name (.node k) shadowing with
      | inl _ => rw [he] at h; cases h
      | inr t2 => rw [he] at h; exact ⟨t2, .inr ⟨name, _, rfl, he⟩, h⟩
    · rintro ⟨t2, ⟨h, -⟩ | ⟨_, _, h, he⟩, h2⟩
      · cases h
      · cases h
        rw [he]
        exact h2
  | function f =>
    simp only [Names.register, Places, symbolOf]
    constructor
    · intro h
      cases he : t.emplace f.name (.node f.k) shadowing with
      | inl _ => rw [he] at h; cases h
      | inr t2 => rw [he] at h; exact ⟨t2, .inr ⟨f.name, _, rfl, he⟩, h⟩
    · rintro ⟨t2, ⟨h, -⟩ | ⟨_, _, h, he⟩, h2⟩
      · cases h
      · cases h
        rw [he]
        exact h2

theorem Places.like {t t' t1 : SymbolTable} {d : ADecl} (h : LikeTable t t') (hp : Places t d t1) :
    ∃ t1', Places t' d t1' ∧ LikeTable t1 t1' := by
  rcases hp with ⟨h1, rfl⟩ | ⟨n, r, h1, h2⟩
  · exact ⟨t', .inl ⟨h1, rfl⟩, h⟩
  · obtain ⟨t1', h3, h4⟩ := h.emplace h2
    exact ⟨t1', .inr ⟨n, r, h1, h3⟩, h4⟩

theorem register_like {ds : List ADecl} {t t' t1 : SymbolTable} (h : LikeTable t t')
    (hx : Names.register t ds = .ok t1) : ∃ t1', Names.register t' ds = .ok t1' ∧ LikeTable t1 t1' := by
  induction ds generalizing t t' with
  | nil => cases hx; exact ⟨t', rfl, h⟩
  | cons d ds ih =>
    obtain ⟨t2, h1, h2⟩ := register_cons.1 hx
    obtain ⟨t2', h3, h4⟩ := h1.like h
    obtain ⟨t3', h5, h6⟩ := ih h4 h2
    exact ⟨t3', register_cons.2 ⟨t2', h3, h5⟩, h6⟩

theorem emplace_cons {m : Symbols} {p t1 : SymbolTable} {name : Name} {r : Lookup} :
    SymbolTable.emplace (m :: p) name r shadowing = .inr t1 ↔
      SymbolTable.find p name = none ∧ m.lookup name = none ∧ t1 = ((name, r) :: m) :: p := by
  simp only [SymbolTable.emplace, shadowing, Bool.false_eq_true, if_false]
  cases SymbolTable.find p name with
  | some _ => simp
  | none =>
    simp only
    cases m.lookup name with
    | some _ => simp
    | none => simp [eq_comm]

theorem Places.swap {t t2 t3 : SymbolTable} {a b : ADecl} (h1 : Places t a t2) (h2 : Places t2 b t3) :
    ∃ t2' t3', Places t b t2' ∧ Places t2' a t3' ∧ LikeTable t3 t3' := by
  rcases h1 with ⟨ha, rfl⟩ | ⟨na, ra, ha, h1⟩
  · exact ⟨t3, t3, h2, .inl ⟨ha, rfl⟩, .refl _⟩
  · rcases h2 with ⟨hb, rfl⟩ | ⟨nb, rb, hb, h2⟩
    · exact ⟨t, t3, .inl ⟨hb, rfl⟩, .inr ⟨na, ra, ha, h1⟩, .refl _⟩
    · cases t with
      | nil =>
        cases h1
        cases h2
        exact ⟨[], [], .inr ⟨nb, rb, hb, rfl⟩, .inr ⟨na, ra, ha, rfl⟩, .nil⟩
      | cons m p =>
        obtain ⟨f1, l1, rfl⟩ := emplace_cons.1 h1
        obtain ⟨f2, l2, rfl⟩ := emplace_cons.1 h2
        rw [List.lookup_cons] at l2
        by_cases hn : nb = na
        · subst hn
          simp at l2
        · have hf : (nb == na) = false := by simpa using hn
          have hf' : (na == nb) = false := by simpa using fun h => hn h.symm
          rw [hf] at l2
          refine ⟨((nb, rb) :: m) :: p, ((na, ra) :: (nb, rb) :: m) :: p,
            .inr ⟨nb, rb, hb, emplace_cons.2 ⟨f2, l2, rfl⟩⟩,
            .inr ⟨na, ra, ha, emplace_cons.2 ⟨f1, ?_, rfl⟩⟩, .cons ?_ (.refl _)⟩
          · rw [List.lookup_cons, hf']
            exact l1
          · intro name
            simp only [List.lookup_cons]
            by_cases h3 : name = na
            · subst h3
              simp [hf']
            · have : (name == na) = false := by simpa using h3
              simp [this]

theorem register_swap {l r : List ADecl} {a b : ADecl} {t t1 : SymbolTable}
    (hx : Names.register t (l ++ a :: b :: r) = .ok t1) :
    ∃ t1', Names.register t (l ++ b :: a :: r) = .ok t1' ∧ LikeTable t1 t1' := by
  induction l generalizing t with
  | nil =>
    obtain ⟨t2, h1, h2⟩ := register_cons.1 hx
    obtain ⟨t3, h3, h4⟩ := register_cons.1 h2
    obtain ⟨t2', t3', h5, h6, h7⟩ := h1.swap h3
    obtain ⟨t4, h8, h9⟩ := register_like h7 h4
    exact ⟨t4, register_cons.2 ⟨t2', h5, register_cons.2 ⟨t3', h6, h8⟩⟩, h9⟩
  | cons d l ih =>
    obtain ⟨t2, h1, h2⟩ := register_cons.1 hx
    obtain ⟨t3, h3, h4⟩ := ih h2
    exact ⟨t3, register_cons.2 ⟨t2, h1, h3⟩, h4⟩

theorem decls_cons {t : SymbolTable} {d : ADecl} {ds ds1 : List ADecl} :
    Names.decls t (d :: ds) = .ok ds1 ↔
      ∃ d' ds', Names.decl t d = .ok d' ∧ Names.decls t ds = .ok ds' ∧ ds1 = d' :: ds' := by
  simp only [Names.decls]
  constructor
  · intro h
    obtain ⟨d', h1, h⟩ := Outcome.bind_eq_ok.1 h
    obtain ⟨ds', h2, h⟩ := Outcome.bind_eq_ok.1 h
    cases h
    exact ⟨d', ds', h1, h2, rfl⟩
  · rintro ⟨d', ds', h1, h2, rfl⟩
    rw [h1, Outcome.ok_bind, h2]
    rfl

theorem decls_append {t : SymbolTable} {l r ds1 : List ADecl} :
    Names.decls t (l ++ r) = .ok ds1 ↔
      ∃ l' r', Names.decls t l = .ok l' ∧ Names.decls t r = .ok r' ∧ ds1 = l' ++ r' := by
  induction l generalizing ds1 with
  | nil => simp [Names.decls]
  | cons d l ih =>
    rw [List.cons_append, decls_cons]
    constructor
    · rintro ⟨d', ds', h1, h2, rfl⟩
      obtain ⟨l', r', h3, h4, rfl⟩ := ih.1 h2
      exact ⟨d' :: l', r', decls_cons.2 ⟨d', l', h1, h3, rfl⟩, h4, rfl⟩
    · rintro ⟨l', r', h1, h2, rfl⟩
      obtain ⟨d', l', h3, h4, rfl⟩ := decls_cons.1 h1
      exact ⟨d', l' ++ r', h3, ih.2 ⟨l', r', h4, h2, rfl⟩, rfl⟩

/-- Names are found in the same way if two global declarations change places. -/
theorem names_swap {l r ds1 : List ADecl} {a b : ADecl}
    (hx : Names.program (l ++ a :: b :: r) = .ok ds1) :
    ∃ l' a' b' r', ds1 = l' ++ a' :: b' :: r' ∧
      Names.program (l ++ b :: a :: r) = .ok (l' ++ b' :: a' :: r') ∧
      ∃ t, Names.decl t a = .ok a' := by
  unfold Names.program at hx ⊢
  obtain ⟨t, h1, h2⟩ := Outcome.bind_eq_ok.1 hx
  obtain ⟨t', h3, h4⟩ := register_swap h1
  obtain ⟨l', r1, h5, h6, rfl⟩ := decls_append.1 h2
  obtain ⟨a', r2, h7, h8, rfl⟩ := decls_cons.1 h6
  obtain ⟨b', r', h9, h10, rfl⟩ := decls_cons.1 h8
  refine ⟨l', a', b', r', rfl, ?_, t, h7⟩
  rw [h3, Outcome.ok_bind]
  exact decls_append.2 ⟨l', _, decls_like h4 h5, decls_cons.2 ⟨b', _, decl_like h4 h9,
    decls_cons.2 ⟨a', r', decl_like h4 h7, decls_like h4 h10, rfl⟩, rfl⟩, rfl⟩

/-! ## Calm programs -/

/-- The same is known about names. -/
structure SameFacts (K K' : Facts) : Prop where
  kinds : ∀ x, K'.kinds.contains x = K.kinds.contains x
  fns : ∀ j, K'.fns.contains j = K.fns.contains j
  value : ∀ j, K'.value j = K.value j

theorem SameFacts.declared {K K' : Facts} (h : SameFacts K K') (j : Key) : K'.declared j = K.declared j := by
  simp only [Facts.declared, h.kinds, h.fns]

mutual

theorem constE_same {K K' : Facts} (h : SameFacts K K') : (e : AExpr) → constE K' e = constE K e
  | .literal .. => by simp only [constE]
  | .id .. => by simp only [constE, h.kinds, h.value, h.declared]
  | .conversion _ _ e ty => by simp only [constE, constE_same h e, constT_same h ty]
  | .ite _ _ l c r => by simp only [constE, constE_same h l, constE_same h c, constE_same h r]
  | .binary _ _ _ l r => by simp only [constE, constE_same h l, constE_same h r]
  | .prefix _ _ _ e => by simp only [constE, constE_same h e]
  | .call .. => by simp only [constE]

theorem constT_same {K K' : Facts} (h : SameFacts K K') : (ty : AType) → constT K' ty = constT K ty
  | .base .. => by simp only [constT]
  | .uint _ _ _ w => by simp only [constT, constE_same h w]

end

theorem openE_same {K K' : Facts} (h : SameFacts K K') : (e : AExpr) → openE K' e = openE K e
  | .literal .. => by simp only [openE]
  | .id .. => by simp only [openE, h.kinds]
  | .conversion _ _ e _ => by simp only [openE, openE_same h e]
  | .ite _ _ l c r => by simp only [openE, openE_same h l, openE_same h c, openE_same h r]
  | .binary _ _ _ l r => by simp only [openE, openE_same h l, openE_same h r]
  | .prefix _ _ _ e => by simp only [openE, openE_same h e]
  | .call .. => by simp only [openE]

mutual

theorem calmE_same {K K' : Facts} (h : SameFacts K K') (own : List Key) (bad : Option Key) :
    (e : AExpr) → calmE K' own bad e = calmE K own bad e
  | .literal .. => by simp only [calmE]
  | .id .. => by simp only [calmE, h.declared]
  | .conversion _ _ e ty => by simp only [calmE, calmE_same h own bad e, constT_same h ty]
  | .ite _ _ l c r => by
    simp only [calmE, calmE_same h own bad l, calmE_same h own bad c, calmE_same h own bad r]
  | .binary _ _ _ l r => by
    simp only [calmE, calmE_same h own bad l, calmE_same h own bad r, calmOp, openE_same h, constE_same h]
  | .prefix _ _ _ e => by
    simp only [calmE, calmE_same h own bad e, calmPrefix, openE_same h, constE_same h]
  | .call _ _ _ _ _ args => by simp only [calmE, h.declared, calmEs_same h own bad args]

theorem calmEs_same {K K' : Facts} (h : SameFacts K K') (own : List Key) (bad : Option Key) :
    (es : List AExpr) → calmEs K' own bad es = calmEs K own bad es
  | [] => by simp only [calmEs]
  | e :: es => by simp only [calmEs, calmE_same h own bad e, calmEs_same h own bad es]

end

theorem calmConst_same {K K' : Facts} (h : SameFacts K K') (k : Key) (ty : Option AType) (e : AExpr) :
    calmConst K' k ty e = calmConst K k ty e := by
  cases ty <;> simp only [calmConst, constE_same h, constT_same h, h.value]

theorem calmE_same' {K K' : Facts} (h : SameFacts K K') (own : List Key) (bad : Option Key) :
    calmE K' own bad = calmE K own bad := funext (calmE_same h own bad)

mutual

theorem calmS_same {K K' : Facts} (h : SameFacts K K') (own : List Key) (bad : Option Key) :
    (s : AStmt) → (seen : List Key) → calmS K' own bad seen s = calmS K own bad seen s
  | .const_ .., seen => by simp only [calmS, calmConst_same h]
  | .let_ .., seen => by simp only [calmS, constT_same h, calmE_same' h]
  | .staticAssert .., seen => by simp only [calmS, constE_same h]
  | .ifThen _ _ c t, seen => by simp only [calmS, calmE_same h, calmS_same h own bad t]
  | .ifElse _ _ c t e, seen => by
    simp only [calmS, calmE_same h, calmS_same h own bad t, calmS_same h own bad e]
  | .while_ _ _ c b, seen => by simp only [calmS, calmE_same h, calmS_same h own bad b]
  | .control .., seen => by simp only [calmS, calmE_same' h]
  | .assign .., seen => by simp only [calmS, calmE_same h, h.declared, h.kinds]
  | .block _ _ ss, seen => by simp only [calmS, calmSs_same h own bad ss]
  | .call e, seen => by simp only [calmS, calmE_same h]

theorem calmSs_same {K K' : Facts} (h : SameFacts K K') (own : List Key) (bad : Option Key) :
    (ss : List AStmt) → (seen : List Key) → calmSs K' own bad seen ss = calmSs K own bad seen ss
  | [], seen => by simp only [calmSs]
  | s :: ss, seen => by simp only [calmSs, calmS_same h own bad s, calmSs_same h own bad ss]

end

theorem calmD_same {K K' : Facts} (h : SameFacts K K') (d : ADecl) : calmD K' d = calmD K d := by
  cases d with
  | const_ => simp only [calmD, calmConst_same h]
  | staticAssert => simp only [calmD, constE_same h]
  | function f => simp only [calmD, calmF, constT_same h, constE_same h, calmSs_same h]

theorem factsOf_perm {ds ds' : List ADecl} (h : ds.Perm ds') (value : Key → Option CVal) :
    SameFacts (factsOf ds value) (factsOf ds' value) := by
  refine ⟨fun x => ?_, fun j => ?_, fun _ => rfl⟩
  · exact (List.Perm.flatMap_right _ h).contains_eq.symm
  · exact (List.Perm.flatMap_right _ h).contains_eq.symm

end Bms
