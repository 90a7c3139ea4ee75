import Verif.Lemmas.Scopes

/-!
# C34, C35: symbol tables and name lookup
-/

namespace Bms

open Spec

/-! ## C34 -/

/-- Defining a name fails exactly if it is visible, and then tells what it stands for. -/
theorem C34_define (t : SymbolTable) (h : t ≠ []) (name : Name) (r old : Lookup) :
    t.emplace name r false = .inl old ↔ t.find name = some old := by
  cases t with
  | nil => exact absurd rfl h
  | cons m parent =>
    simp only [SymbolTable.emplace, SymbolTable.find, Bool.false_eq_true, if_false]
    cases SymbolTable.find parent name with
    | some o => simp
    | none => cases List.lookup name m <;> simp

/-- A successful definition makes exactly this name visible, in its scope and in all scopes in it
(`inner` are scopes in it, whether they were opened before or after), and changes nothing in the
scopes around it. -/
theorem C34_visible (t t' : SymbolTable) (h : t ≠ []) (name : Name) (r : Lookup)
    (he : t.emplace name r false = .inr t') :
    t'.tail = t.tail ∧ ∀ (inner : SymbolTable) (x : Name),
      SymbolTable.find (inner ++ t') x = if x = name then some r else SymbolTable.find (inner ++ t) x := by
  cases t with
  | nil => exact absurd rfl h
  | cons m parent =>
    simp only [SymbolTable.emplace, Bool.false_eq_true, if_false] at he
    cases hp : SymbolTable.find parent name with
    | some o => simp [hp] at he
    | none =>
      cases hm : List.lookup name m with
      | some o => simp [hp, hm] at he
      | none =>
        simp only [hp, hm, Sum.inr.injEq] at he
        subst he
        refine ⟨rfl, fun inner x => ?_⟩
        induction inner with
        | nil =>
          simp only [List.nil_append, SymbolTable.find]
          by_cases hx : x = name
          · subst hx
            simp [hp, List.lookup]
          · have hb : (x == name) = false := by simpa using hx
            simp [hx, List.lookup, hb]
        | cons i inner ih =>
          simp only [List.cons_append, SymbolTable.find, ih]
          by_cases hx : x = name <;> simp [hx]

/-- Operations on nested scopes. -/
inductive ScopeOp where
  | enter
  | leave
  | define (name : Name) (r : Lookup)

/-- The operation on symbol tables: a failed definition changes nothing. -/
def ScopeOp.run (t : SymbolTable) : ScopeOp → SymbolTable
  | .enter => [] :: t
  | .leave => if t.length ≤ 1 then t else t.tail
  | .define name r =>
    match t.emplace name r shadowing with
    | .inl _ => t
    | .inr t => t

/-- The operation as specified, on the lists of names that are visible in the current scope, in the
scope around it, and so on. -/
def ScopeOp.spec (vs : List Visible) (op : ScopeOp) : List Visible :=
  match vs, op with
  | [], _ => []
  | v :: vs, .enter => v :: v :: vs
  | v :: vs, .leave => if vs = [] then [v] else vs
  | v :: vs, .define name r => if name ∈ v.map Prod.fst then v :: vs else ((name, r) :: v) :: vs

/-- The table agrees with the specification, in all scopes. -/
inductive ScopesAgree : SymbolTable → List Visible → Prop
  | root {t v} : t.length = 1 → Scopes.Holds t v → ScopesAgree t [v]
  | inner {m t v vs} : Scopes.Holds (m :: t) v → ScopesAgree t vs → ScopesAgree (m :: t) (v :: vs)

theorem ScopesAgree.holds {t : SymbolTable} {v : Visible} {vs : List Visible}
    (h : ScopesAgree t (v :: vs)) : Scopes.Holds t v := by
  cases h <;> assumption

theorem ScopesAgree.length {t : SymbolTable} {vs : List Visible} (h : ScopesAgree t vs) :
    t.length = vs.length := by
  induction h with
  | root h _ => simpa using h
  | inner _ _ ih => simp [ih]

theorem ScopesAgree.step {t : SymbolTable} {vs : List Visible} (h : ScopesAgree t vs) (op : ScopeOp) :
    ScopesAgree (op.run t) (op.spec vs) := by
  cases vs with
  | nil => cases h
  | cons v vs =>
    cases op with
    | enter => exact .inner h.holds.push h
    | leave =>
      simp only [ScopeOp.run, ScopeOp.spec]
      have hl := h.length
      cases h with
      | root h1 h2 =>
        rw [if_pos (by omega)]
        exact .root h1 h2
      | inner h1 h2 =>
        cases h2 with
        | root a b =>
          rw [if_neg (by simp [a])]
          exact .root a b
        | inner a b =>
          rw [if_neg (by simp)]
          exact .inner a b
    | define name r =>
      simp only [ScopeOp.run, ScopeOp.spec]
      by_cases hv : name ∈ v.map Prod.fst
      · obtain ⟨old, ho⟩ := h.holds.emplace_old (r := r) hv
        rw [if_pos hv]
        simpa only [ho] using h
      · obtain ⟨t', ht, htl, hh⟩ := h.holds.emplace_new (r := r) hv
        rw [if_neg hv]
        simp only [ht]
        cases h with
        | root h1 h2 =>
          refine .root ?_ hh
          have := congrArg List.length htl
          cases t' with
          | nil => exact absurd rfl hh.ne
          | cons => simp_all
        | inner h1 h2 =>
          cases t' with
          | nil => exact absurd rfl hh.ne
          | cons m' t' =>
            simp only [List.tail_cons] at htl
            subst htl
            exact .inner hh h2

/-- After every history of operations, a name stands for what the specification says. -/
theorem C34_history (ops : List ScopeOp) (name : Name) :
    SymbolTable.find (ops.foldl ScopeOp.run [[]]) name =
      ((ops.foldl ScopeOp.spec [[]]).headD []).lookup name := by
  have key : ∀ (ops : List ScopeOp) (t : SymbolTable) (vs : List Visible), ScopesAgree t vs →
      ScopesAgree (ops.foldl ScopeOp.run t) (ops.foldl ScopeOp.spec vs) := by
    intro ops
    induction ops with
    | nil => exact fun _ _ h => h
    | cons op ops ih => exact fun _ _ h => ih _ _ (h.step op)
  have h := key ops [[]] [[]]
    (.root rfl ⟨by simp, fun name => by simp [SymbolTable.find], by simp⟩)
  revert h
  generalize ops.foldl ScopeOp.run [[]] = t
  generalize ops.foldl ScopeOp.spec [[]] = vs
  intro h
  cases vs with
  | nil => cases h
  | cons v vs => exact h.holds.find name

/-- A history with a name that is defined, redefined without success in a nested scope, and another
name that is gone after its scope. -/
example : SymbolTable.find ([ScopeOp.define ['x'] (.node 1), .enter, .define ['x'] (.node 2),
    .define ['y'] (.node 3)].foldl ScopeOp.run [[]]) ['x'] = some (.node 1) ∧
    SymbolTable.find ([ScopeOp.define ['x'] (.node 1), .enter, .define ['x'] (.node 2),
    .define ['y'] (.node 3)].foldl ScopeOp.run [[]]) ['y'] = some (.node 3) ∧
    SymbolTable.find ([ScopeOp.define ['x'] (.node 1), .enter, .define ['x'] (.node 2),
    .define ['y'] (.node 3), .leave].foldl ScopeOp.run [[]]) ['y'] = none := by decide

/-- With shadowing, which the analyzer does not use, a definition can succeed without making the name
visible: `find` prefers the outer one. -/
theorem C34_shadowing_violation :
    ∃ (t t' : SymbolTable), t.emplace ['x'] (.node 2) true = .inr t' ∧
      t'.find ['x'] = some (.node 1) :=
  ⟨[[], [(['x'], .node 1)]], [[(['x'], .node 2)], [(['x'], .node 1)]], rfl, rfl⟩

/-! ## C35 -/

/-- Name lookup succeeds exactly if every used name is visible where it is used and every declared name
is not yet visible where it is declared; otherwise, it reports the first place where this is not so
(or throws, if this is a call in the width of a parameter). -/
theorem C35_verdict (ds : List ADecl) :
    (Names.program ds).map (fun _ => ()) = verdict (items ds) := by
  simp only [Names.program, items, verdict_append', ← Scopes.register_verdict Scopes.initial_holds ds]
  refine Scopes.map_unit_bind _ _ _ (fun t ht => ?_)
  obtain ⟨h, -⟩ := Scopes.register_ok Scopes.initial_holds ds t ht
  exact Scopes.decls_verdict h ds (Scopes.declared_mem ds)
where
  verdict_append' (a b : List Item) : verdict (a ++ b) = verdict a >>= fun _ => verdict b :=
    Scopes.verdict_append a b

/-- After name lookup, every used name is bound to the only visible declaration of it, and nothing but
bindings has changed. -/
theorem C35_bound (ds ds' : List ADecl) (h : Names.program ds = .ok ds') :
    (∀ i ∈ itemsDs (globals predefined ds) ds', i.Bound) ∧ ds'.map stripD = ds.map stripD := by
  simp only [Names.program, Outcome.bind_eq_ok] at h
  obtain ⟨t, ht, h⟩ := h
  obtain ⟨hh, -⟩ := Scopes.register_ok Scopes.initial_holds ds t ht
  obtain ⟨a, b, -⟩ := Scopes.decls_ok hh ds ds' h
  exact ⟨a, b⟩

/-- The first place that is wrong is reported. -/
theorem C35_error (ds : List ADecl) (e : AErr) :
    Names.program ds = .err e ↔ ∃ before i after, items ds = before ++ i :: after ∧
      (∀ j ∈ before, j.Good) ∧ ¬ i.Good ∧ i.fault = .err e := by
  have hv := C35_verdict ds
  have key : ∀ is : List Item, verdict is = .err e ↔ ∃ before i after, is = before ++ i :: after ∧
      (∀ j ∈ before, j.Good) ∧ ¬ i.Good ∧ i.fault = .err e := by
    intro is
    induction is with
    | nil => simp [verdict]
    | cons i is ih =>
      simp only [verdict]
      by_cases hg : i.Good
      · rw [if_pos hg, ih]
        constructor
        · rintro ⟨b, j, a, rfl, h1, h2, h3⟩
          exact ⟨i :: b, j, a, rfl, by simpa using ⟨hg, h1⟩, h2, h3⟩
        · rintro ⟨b, j, a, h0, h1, h2, h3⟩
          cases b with
          | nil =>
            simp only [List.nil_append, List.cons.injEq] at h0
            exact absurd (h0.1 ▸ hg) h2
          | cons b bs =>
            simp only [List.cons_append, List.cons.injEq] at h0
            exact ⟨bs, j, a, h0.2, fun k hk => h1 k (by simp [hk]), h2, h3⟩
      · rw [if_neg hg]
        constructor
        · intro h
          exact ⟨[], i, is, rfl, by simp, hg, h⟩
        · rintro ⟨b, j, a, h0, h1, h2, h3⟩
          cases b with
          | nil =>
            simp only [List.nil_append, List.cons.injEq] at h0
            rw [h0.1]
            exact h3
          | cons b bs =>
            simp only [List.cons_append, List.cons.injEq] at h0
            exact absurd (h0.1 ▸ h1 b (by simp)) hg
  rw [← key, ← hv]
  cases Names.program ds <;> simp

/-- A function becomes generic exactly if the width of a parameter is a name that is not visible. -/
theorem C35_generic (t : SymbolTable) (ρ : Visible) (h : Scopes.Holds t ρ) (f f' : AFn)
    (he : Names.function t f = .ok f') : f'.generic = (f.generic || isGeneric ρ f.params) :=
  (Scopes.function_ok h f f' he).2.2

/-- `function f(x: Uint(N)) -> Uint(N) { let y = x; return g(y); }` with keys 1 to 10. -/
def scopesExampleF : AFn where
  k := 1
  cv := none
  name := ['f']
  params := [⟨2, ['x'], .uint 3 none none (.id 4 none ['N'] none false)⟩]
  ret := .uint 5 none none (.id 6 none ['N'] none false)
  requires_ := none
  bodyKey := 7
  body := [.let_ 8 none ['y'] none (some (.id 9 none ['x'] none false)),
    .control 10 none .return_ (some (.call 11 none false ['g'] none [.id 12 none ['y'] none false]))]
  instances := []
  generic := false
  address := none
  level := .unanalyzed

/-- `function g(z: Int) -> Int { return z; }`. -/
def scopesExampleG : AFn where
  k := 20
  cv := none
  name := ['g']
  params := [⟨21, ['z'], .base 22 none .int⟩]
  ret := .base 23 none .int
  requires_ := none
  bodyKey := 24
  body := [.control 25 none .return_ (some (.id 26 none ['z'] none false))]
  instances := []
  generic := false
  address := none
  level := .unanalyzed

/-- Lookup in a program with two functions: the parameter `N` is found, the function becomes generic,
and `g` is found although it is declared later. -/
example : Names.program [.function scopesExampleF, .function scopesExampleG] = .ok
    [.function { scopesExampleF with
      params := [⟨2, ['x'], .uint 3 none none (.id 4 none ['N'] none true)⟩]
      ret := .uint 5 none none (.id 6 none ['N'] (some (.node 4)) false)
      body := [.let_ 8 none ['y'] none (some (.id 9 none ['x'] (some (.param 2)) false)),
        .control 10 none .return_ (some (.call 11 none false ['g'] (some (.node 20))
          [.id 12 none ['y'] (some (.node 8)) false]))]
      generic := true },
     .function { scopesExampleG with
      body := [.control 25 none .return_ (some (.id 26 none ['z'] (some (.param 21)) false))] }] := by
  rfl

/-- Without `g`, the call is reported. -/
example : Names.program [.function scopesExampleF] = .err ⟨.call_to_undefined_function, 11⟩ := by rfl

/-- A call of a function that does not exist makes lookup throw if it is in the width of a parameter:
`function f(x: Uint(g())) -> Int { }`. -/
theorem C35_width_violation :
    Names.program [.function { scopesExampleG with
      params := [⟨2, ['x'], .uint 3 none none (.call 4 none false ['h'] none [])⟩] }] = .throws := by
  rfl

end Bms
