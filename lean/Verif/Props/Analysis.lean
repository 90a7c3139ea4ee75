import Verif.Lemmas.AnalyzeNames
import Verif.Lemmas.AnalyzeShape
import Verif.Props.Compile

/-!
# C54 to C56: what a program is after analysis

`analyze` (src/bms/analyze.cpp:1115-1127) looks names up and then analyzes types. Here: what holds of
all functions of a program for which it succeeds.
-/

namespace Bms

open Spec

/-- Functions with a requires-clause do not refer to themselves after name lookup. (The requires-clause
overwrites the result type of such a function while it is being analyzed; see
`C54_recursion_violation`.) -/
def NoSelfReference (ds : List ADecl) : Prop :=
  ∀ ds', Names.program ds = .ok ds' → ∀ f, .function f ∈ ds' → f.requires_ ≠ none → .node f.k ∉ refsSs f.body

theorem program_split {n : Nat} {ds : List ADecl} {next : Nat} {s : ASt}
    (h : Ana.program n ds next = .ok () s) :
    ∃ ds', Names.program ds = .ok ds' ∧ Ana.decls n ds' (Ana.initial ds' next) = .ok () s := by
  unfold Ana.program at h
  cases hn : Names.program ds with
  | ok ds' => rw [hn] at h; exact ⟨ds', rfl, h⟩
  | err e => simp [hn] at h
  | throws => simp [hn] at h
  | ub => simp [hn] at h

theorem forConst_rank {l : Level} : Level.forConst.rank ≤ l.rank ↔ l = .forConst := by
  cases l <;> decide

theorem progOf_ctx (s : ASt) : (progOf s).ctx (fun k => (s.decl k).bind declVar) = ctxOf .forConst s := by
  simp only [Prog.ctx, progOf, ctxOf, Ctx.mk.injEq, true_and]
  funext k
  cases s.fns k with
  | none => rfl
  | some f =>
    simp only [Option.bind_some, forConst_rank]
    split
    · simp [fnDef, signature, Function.comp_def]
    · rfl

theorem Inv.params {N : Nat} {s : ASt} (h : Inv N s) {k : Key} {f : AFn} (hf : s.fns k = some f)
    (hg : f.generic = false) (hl : f.level ≠ .unanalyzed) {p : AParam} (hp : p ∈ f.params) :
    (s.decl p.k).bind declVar = some (typeOf p.type) := by
  obtain ⟨t, ht⟩ := ((h.fn k f hf).plain hg).sigParams hl p hp
  rw [(h.fn k f hf).paramDecl p hp, ht.typeOf, ht.1]
  rfl

theorem Inv.prog {N : Nat} {s : ASt} (h : Inv N s) : (progOf s).Typed := by
  intro k d hd
  simp only [progOf] at hd
  cases hf : s.fns k with
  | none => simp [hf] at hd
  | some f =>
    simp only [hf, Option.bind_some] at hd
    split at hd
    · rename_i hc
      simp only [Option.some.injEq] at hd
      subst hd
      refine ⟨fun k => (s.decl k).bind declVar, ?_, ?_, ?_⟩
      · rw [progOf_ctx]; exact h.ctx (by decide)
      · intro p hp
        simp only [fnDef, List.mem_map] at hp
        obtain ⟨q, hq, rfl⟩ := hp
        exact h.params hf hc.1 (by rw [hc.2]; decide) hq
      · rw [progOf_ctx]
        exact (((h.fn k f hf).plain hc.1).typedConst hc.2).1
    · cases hd

/-- **C54** (partial). If analysis of a program succeeds, then every declared function that is not
generic is well-typed: the types of its parameters and its result are known, and its body is well-typed
among all declarations and functions of the analyzed program, which are what name lookup found. Missing
are generic functions (instances that are created late are not analyzed; see `C54_instance_violation`),
programs with calls in the types of parameters and results, and functions with a requires-clause that
refer to themselves (`C54_recursion_violation`). -/
theorem C54_well_typed_partial {n : Nat} {ds : List ADecl} {next : Nat} {s : ASt} (h : RawProgram ds next)
    (hs : NoSelfReference ds) (hx : Ana.program n ds next = .ok () s) :
    (ctxOf .shallow s).WF ∧ ∃ ds', Names.program ds = .ok ds' ∧
      ∀ f, .function f ∈ ds' → f.generic = false → ∃ f', s.fns f.k = some f' ∧ SameF (Redirect s) f f' ∧
        Level.full.rank ≤ f'.level.rank ∧ (typeOf f'.ret).WF ∧
        (∀ p ∈ f'.params, (ctxOf .shallow s).vars p.k = some (typeOf p.type)) ∧
        TypedSs (ctxOf .shallow s) (typeOf f'.ret) false (eraseStmts f'.body) := by
  obtain ⟨ds', hn, hd⟩ := program_split hx
  have hr := lookup_resolved h hn (hs ds' hn)
  obtain ⟨hi, -, -, ha⟩ := analysis_ok hr hd
  refine ⟨hi.ctx (by decide), ds', hn, fun f hf hg => ?_⟩
  obtain ⟨f', h1, h2, h3⟩ := ha _ hf hg
  obtain ⟨h0, -, h4, h5, -⟩ := initial_inv hr
  have hk : KeyInv (Ana.initial ds' next) :=
    ⟨fun k f hf => (h0.fn k f hf).key, fun k f hf i hi => by
      have := (hr.raw _ (h5 k f hf).1).instances
      rw [this] at hi
      cases hi⟩
  obtain ⟨f'', h6, h7⟩ := (shape_decls hk hd).fns _ _ (h4 f hf)
  rw [h1] at h6
  cases h6
  have hl : f'.level ≠ .unanalyzed := by
    intro e
    rw [e] at h3
    exact absurd h3 (by decide)
  have hp := (hi.fn _ _ h1).plain h2
  obtain ⟨t, ht⟩ := hp.sigRet hl
  refine ⟨f', h1, h7, h3, by rw [ht.typeOf]; exact ht.2.2, fun p hp => hi.params h1 h2 hl hp, (hp.typed h3).1⟩

/-- The functions of a program. -/
def functionsOf (ds : List ADecl) : List AFn :=
  ds.filterMap fun
    | .function f => some f
    | _ => none

theorem mem_functionsOf {ds : List ADecl} {f : AFn} : f ∈ functionsOf ds ↔ .function f ∈ ds := by
  simp only [functionsOf, List.mem_filterMap]
  constructor
  · rintro ⟨d, hd, h⟩
    cases d <;> simp at h
    subst h
    exact hd
  · intro h
    exact ⟨_, h, rfl⟩

theorem initStep_fns (s : ASt) (d : ADecl) (j : Key) : (initStep s d).fns j = match d with
    | .function f => if j = f.k then some f else s.fns j
    | _ => s.fns j := by
  cases d <;> rfl

theorem initFold_other : ∀ (ds : List ADecl) (s : ASt) (j : Key), j ∉ (functionsOf ds).map AFn.k →
    (ds.foldl initStep s).fns j = s.fns j
  | [], _, _, _ => rfl
  | d :: ds, s, j, h => by
    rw [List.foldl_cons, initFold_other ds _ j fun hm => h ?_, initStep_fns]
    · cases d with
      | function f =>
        have : j ≠ f.k := fun e => h (by simp [functionsOf, e])
        simp [this]
      | _ => rfl
    · cases d <;> simp_all [functionsOf]

theorem initFold_fns : ∀ (ds : List ADecl) (s : ASt), ((functionsOf ds).map AFn.k).Nodup →
    ∀ f ∈ functionsOf ds, (ds.foldl initStep s).fns f.k = some f
  | [], _, _, f, hf => by simp [functionsOf] at hf
  | d :: ds, s, h, f, hf => by
    rw [List.foldl_cons]
    cases d with
    | function g =>
      have e : functionsOf (.function g :: ds) = g :: functionsOf ds := by simp [functionsOf]
      rw [e] at hf h
      rw [List.map_cons, List.nodup_cons] at h
      rcases List.mem_cons.1 hf with rfl | hf
      · rw [initFold_other ds _ _ h.1, initStep_fns]
        simp
      · exact initFold_fns ds _ h.2 f hf
    | const_ k cv name ty init => exact initFold_fns ds _ (by simpa [functionsOf] using h) f (by simpa [functionsOf] using hf)
    | staticAssert k cv e => exact initFold_fns ds _ (by simpa [functionsOf] using h) f (by simpa [functionsOf] using hf)

theorem initial_key {ds : List ADecl} {next : Nat} (h : ((functionsOf ds).map AFn.k).Nodup)
    (hf : ∀ f ∈ functionsOf ds, f.k < next ∧ f.instances = []) : KeyInv (Ana.initial ds next) := by
  have hnext : (Ana.initial ds next).next = next := by
    rw [initial_eq]
    have : ∀ (ds : List ADecl) (s : ASt), (ds.foldl initStep s).next = s.next := by
      intro ds
      induction ds with
      | nil => intro s; rfl
      | cons d ds ih => intro s; rw [List.foldl_cons, ih]; cases d <;> rfl
    rw [this]
  have key : ∀ k f, (Ana.initial ds next).fns k = some f → f ∈ functionsOf ds ∧ f.k = k := by
    intro k f hk
    by_cases hm : k ∈ (functionsOf ds).map AFn.k
    · obtain ⟨g, hg, rfl⟩ := List.mem_map.1 hm
      rw [initial_eq, initFold_fns ds _ h g hg] at hk
      cases hk
      exact ⟨hg, rfl⟩
    · rw [initial_eq, initFold_other ds _ k hm] at hk
      cases hk
  refine ⟨fun k f hk => ⟨(key k f hk).2, ?_⟩, fun k f hk i hi => ?_⟩
  · obtain ⟨h1, rfl⟩ := key k f hk
    rw [hnext]
    exact (hf f h1).1
  · rw [(hf f (key k f hk).1).2] at hi
    cases hi

/-- **C55.** Analysis changes nothing in a function but values and types of nodes, adds instances to
generic functions, and redirects calls of generic functions to instances of them; parameters, names,
operators and the order of everything stay. -/
theorem C55_shape {n : Nat} {ds : List ADecl} {next : Nat} {s : ASt}
    (hk : ((functionsOf ds).map AFn.k).Nodup)
    (hf : ∀ f ∈ functionsOf ds, f.k < next ∧ f.instances = [])
    (hx : Ana.program n ds next = .ok () s) :
    ∃ ds', Names.program ds = .ok ds' ∧ ds'.map stripD = ds.map stripD ∧ ∀ f, .function f ∈ ds' →
      ∃ f', s.fns f.k = some f' ∧ SameF (Redirect s) f f' := by
  obtain ⟨ds', hn, hd⟩ := program_split hx
  have he : ds'.map stripD = ds.map stripD := by
    have := hn
    simp only [Names.program, Outcome.bind_eq_ok] at this
    obtain ⟨t, ht, hn⟩ := this
    obtain ⟨hh, -⟩ := Scopes.register_ok Scopes.initial_holds ds t ht
    exact (Scopes.decls_ok hh ds ds' hn).2.1
  have hs : (functionsOf ds').map stripF = (functionsOf ds).map stripF := by
    have : ∀ l : List ADecl, (functionsOf l).map stripF = functionsOf (l.map stripD) := by
      intro l
      simp only [functionsOf, List.filterMap_map, List.map_filterMap]
      congr 1
      funext d
      cases d <;> rfl
    rw [this, this, he]
  have hk' : ((functionsOf ds').map AFn.k).Nodup := by
    have e : ∀ l : List AFn, l.map AFn.k = (l.map stripF).map AFn.k := by
      intro l
      simp only [List.map_map]
      congr 1
    rw [e, hs, ← e]
    exact hk
  have hf' : ∀ f ∈ functionsOf ds', f.k < next ∧ f.instances = [] := by
    intro f hm
    have : stripF f ∈ (functionsOf ds).map stripF := hs ▸ List.mem_map_of_mem hm
    obtain ⟨g, hg, e⟩ := List.mem_map.1 this
    have h1 : (stripF g).k = (stripF f).k := congrArg AFn.k e
    have h2 : (stripF g).instances = (stripF f).instances := congrArg AFn.instances e
    exact ⟨h1 ▸ (hf g hg).1, h2 ▸ (hf g hg).2⟩
  refine ⟨ds', hn, he, fun f hm => ?_⟩
  have := initFold_fns ds' { decl := fun _ => none, fns := fun _ => none, code := [], stack := [], next := next }
    hk' f (mem_functionsOf.2 hm)
  rw [← initial_eq] at this
  exact (shape_decls (initial_key hk' hf') hd).fns _ _ this

/-- **C56** (partial). After analysis, the code in the machine is that of the functions that constant
expressions call, these are well-typed, and a call of one of them runs as the source says: exactly the
outcomes of the machine are those of the source semantics. Under the conditions of C31 on these
functions, and those of C54 on the program. -/
theorem C56_machine_partial {n : Nat} {ds : List ADecl} {next : Nat} {s : ASt} (h : RawProgram ds next)
    (hs : NoSelfReference ds) (hx : Ana.program n ds next = .ok () s) :
    (progOf s).Typed ∧ Loaded (progOf s) (addrOf s) s.code ∧ OperandsOk s.code ∧
      (∀ k d, (progOf s).fns k = some d → ∃ a, addrOf s k = some a) ∧
      ((progOf s).Homogeneous → (progOf s).Ends → (progOf s).Fresh → s.code.length ≤ 2 ^ 62 →
        ∀ k d a vs o, (progOf s).fns k = some d → addrOf s k = some a →
          List.Forall₂ (fun (v : CVal) t => v.type = t ∧ WF v) vs (d.params.map Prod.snd) →
          ((∃ m, constantCall { Vm.initial with instructions := s.code } a vs m = some o) ↔
            ∃ m, ((progOf s).callN m k vs).outcome = some o)) := by
  obtain ⟨ds', hn, hd⟩ := program_split hx
  have hr := lookup_resolved h hn (hs ds' hn)
  obtain ⟨hi, -, -, ha⟩ := analysis_ok hr hd
  have hl : Loaded (progOf s) (addrOf s) s.code := hi.loaded _ fun _ _ h => h
  refine ⟨hi.prog, hl, hi.code, fun k d hd => ?_, fun hH hE hF hlen k d a vs o hd ha hvs => ?_⟩
  · simp only [progOf] at hd
    cases hf : s.fns k with
    | none => simp [hf] at hd
    | some f =>
      simp only [hf, Option.bind_some] at hd
      split at hd
      · rename_i hc
        have := (((hi.fn k f hf).plain hc.1).typedConst hc.2).2.1
        obtain ⟨a, ha⟩ := Option.isSome_iff_exists.1 this
        exact ⟨a, by simp [addrOf, hf, hc, ha]⟩
      · cases hd
  · exact C31_calls_partial hi.prog hH hE hF (vm := { Vm.initial with instructions := s.code }) hl hlen hd ha hvs o

end Bms
