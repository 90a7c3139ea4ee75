import Verif.Lemmas.Annotations
import Verif.Lemmas.Build

/-!
# Annotations of a program
-/

namespace Bms
namespace Annot

open Spec
open Parse (Kind Node Handle)
open Build (readsAll_some readsAll_none readsAll_nil readsAll_cons readsAll_split reads_inv ReadsO)

/-! ## Sites -/

/-- Resolving the annotations at one place. -/
def runList (c : Construct) : List WrittenAnnotation → Outcome (Option Error) (List Annotation)
  | [] => .ok []
  | w :: ws => do
    let a ← resolveOne c w.1 w.2
    let as ← runList c ws
    .ok (a :: as)

/-- Resolving the annotations at several places. -/
def runSites : List Site → Outcome (Option Error) (List (Construct × List Annotation))
  | [] => .ok []
  | s :: ss => do
    let as ← runList s.1 s.2
    let rs ← runSites ss
    .ok ((s.1, as) :: rs)

theorem runSites_append (ss ss' : List Site) :
    runSites (ss ++ ss') = (do
      let r ← runSites ss
      let r' ← runSites ss'
      .ok (r ++ r')) := by
  induction ss with
  | nil =>
    simp only [List.nil_append, runSites, Outcome.ok_bind]
    cases runSites ss' <;> rfl
  | cons s ss ih =>
    simp only [List.cons_append, runSites, ih]
    cases runList s.1 s.2 <;> simp
    cases runSites ss <;> simp
    cases runSites ss' <;> simp

/-! ## Shapes of trees -/

/-- The argument of an annotation. -/
def ArgTree (o : Option Tree) : Prop :=
  ∃ k x t, o = some (.node (.annotation_argument k x t) []) ∧ Argument.Parsed ⟨k, x, t⟩

/-- An annotation. -/
def AnnTree (o : Option Tree) : Prop := ∃ x args, o = some (.node (.annotation x) args) ∧ ∀ a ∈ args, ArgTree a

/-- A list of annotations, which may be absent. -/
def ListTree (o : Option Tree) : Prop :=
  o = none ∨ ∃ as, o = some (.node .annotation_list as) ∧ ∀ a ∈ as, AnnTree a

/-- Not a list of annotations. -/
def Other (o : Option Tree) : Prop := listOf o = []

/-- A parameter. -/
def ParamTree (o : Option Tree) : Prop := ∃ x t, o = some (.node (.parameter x) [some t])

/-- A list of parameters, which may be absent. -/
def ParamsTree (o : Option Tree) : Prop :=
  o = none ∨ ∃ ps, o = some (.node .parameter_list ps) ∧ ∀ p ∈ ps, ParamTree p

/-- The annotations of a node are where they belong. -/
def Placed : Kind → List (Option Tree) → Prop
  | .function _, cs => ∃ a ps ret req body, cs = [a, ps, ret, req, body] ∧ ListTree a ∧ ParamsTree ps ∧
      Other ret ∧ Other req ∧ Other body
  | .function_call_expression _ _, cs => ∃ args a, cs = args ++ [a] ∧ ListTree a ∧ ∀ o ∈ args, Other o
  | .const _, cs | .let _, cs | .if_statement, cs | .while_statement, cs | .assignment _, cs =>
      ∃ a rest, cs = a :: rest ∧ ListTree a ∧ ∀ o ∈ rest, Other o
  | _, _ => True

mutual

/-- The annotations of all nodes are where they belong. -/
def Shaped : Tree → Prop
  | .node k cs => Placed k cs ∧ ShapedAll cs

def ShapedAll : List (Option Tree) → Prop
  | [] => True
  | none :: ts => ShapedAll ts
  | some t :: ts => Shaped t ∧ ShapedAll ts

end

theorem shapedAll_append {ts ts' : List (Option Tree)} :
    ShapedAll (ts ++ ts') ↔ ShapedAll ts ∧ ShapedAll ts' := by
  induction ts with
  | nil => simp [ShapedAll]
  | cons o ts ih =>
    cases o <;> simp [ShapedAll, ih, and_assoc]

theorem sitesAll_append (ts ts' : List (Option Tree)) :
    sitesAll (ts ++ ts') = sitesAll ts ++ sitesAll ts' := by
  induction ts with
  | nil => simp [sitesAll]
  | cons o ts ih => cases o <;> simp [sitesAll, ih]

theorem argTree_sites {args : List (Option Tree)} (h : ∀ a ∈ args, ArgTree a) : sitesAll args = [] := by
  induction args with
  | nil => simp [sitesAll]
  | cons a as ih =>
    obtain ⟨k, x, t, rfl, -⟩ := h a (by simp)
    simp [sitesAll, Tree.sites, targetOf, ih fun b hb => h b (by simp [hb])]

theorem annTree_sites {as : List (Option Tree)} (h : ∀ a ∈ as, AnnTree a) : sitesAll as = [] := by
  induction as with
  | nil => simp [sitesAll]
  | cons a as ih =>
    obtain ⟨x, args, rfl, ha⟩ := h a (by simp)
    simp [sitesAll, Tree.sites, targetOf, ih fun b hb => h b (by simp [hb]), argTree_sites ha]

theorem listTree_sites {a : Option Tree} (h : ListTree a) : sitesAll [a] = [] := by
  rcases h with rfl | ⟨as, rfl, h⟩
  · simp [sitesAll]
  · simp [sitesAll, Tree.sites, targetOf, annTree_sites h]

theorem others {os : List (Option Tree)} (h : ∀ o ∈ os, Other o) : os.flatMap listOf = [] := by
  rw [List.flatMap_eq_nil_iff]
  exact h

/-! ## Reading annotations -/

variable {ns : List Node}

theorem argumentsAt_ok {b : Nat} : ∀ {args : List (Option Tree)} {hs : List Handle},
    ReadsAll ns b hs args → (∀ a ∈ args, ArgTree a) →
    argumentsAt ns hs = .ok (args.flatMap argumentOf)
  | [], hs, hr, _ => by rw [readsAll_nil hr]; rfl
  | o :: args, hs, hr, h => by
    obtain ⟨k, x, t, rfl, -⟩ := h o (by simp)
    obtain ⟨c, hs', rfl, -, h1, h2⟩ := readsAll_some hr
    have ih := argumentsAt_ok h2 fun a ha => h a (by simp [ha])
    obtain ⟨pos, children, hn, hcs⟩ := reads_inv h1
    simp [argumentsAt, argumentAt, hn, ih, argumentOf]

theorem resolveList_ok {c : Construct} {b : Nat} : ∀ {as : List (Option Tree)} {hs : List Handle},
    ReadsAll ns b hs as → (∀ a ∈ as, AnnTree a) →
    resolveList ns c hs = runList c (as.flatMap writtenOf)
  | [], hs, hr, _ => by rw [readsAll_nil hr]; rfl
  | o :: as, hs, hr, h => by
    obtain ⟨x, args, rfl, ha⟩ := h o (by simp)
    obtain ⟨i, hs', rfl, -, h1, h2⟩ := readsAll_some hr
    have ih := resolveList_ok (c := c) h2 fun a ha => h a (by simp [ha])
    obtain ⟨pos, children, hn, hcs⟩ := reads_inv h1
    simp [resolveList, hn, argumentsAt_ok hcs ha, ih, writtenOf, runList]

theorem resolveAt_ok {c : Construct} {b : Nat} {h : Handle} {o : Option Tree} (hr : ReadsO ns b h o)
    (ho : ListTree o) : resolveAt ns c h = runSites [(c, listOf o)] := by
  rcases ho with rfl | ⟨as, rfl, ha⟩
  · cases h with
    | some _ => exact absurd hr (by simp [ReadsO])
    | none => simp [resolveAt, listOf, runSites, runList]
  · cases h with
    | none => exact absurd hr (by simp [ReadsO])
    | some i =>
      obtain ⟨pos, children, hn, hcs⟩ := reads_inv hr.2
      simp [resolveAt, hn, resolveList_ok hcs ha, listOf, runSites]

/-! ## Visiting -/

/-- Visiting a tree resolves its annotations. -/
def Good (ns : List Node) (b : Nat) (f : Nat → Outcome (Option Error) (List (Construct × List Annotation))) :
    Prop := ∀ h, h < b → ∀ t, Shaped t → Reads ns h t → f h = runSites t.sites

theorem visitAll_ok {b : Nat} {f : Nat → Outcome (Option Error) (List (Construct × List Annotation))}
    (hf : Good ns b f) : ∀ {ts : List (Option Tree)} {hs : List Handle}, ReadsAll ns b hs ts →
    ShapedAll ts → visitAll f hs = runSites (sitesAll ts)
  | [], hs, hr, _ => by rw [readsAll_nil hr]; simp [visitAll, sitesAll, runSites]
  | none :: ts, hs, hr, h => by
    obtain ⟨hs', rfl, h2⟩ := readsAll_none hr
    simp only [ShapedAll] at h
    simp [visitAll, sitesAll, visitAll_ok hf h2 h]
  | some t :: ts, hs, hr, h => by
    obtain ⟨i, hs', rfl, hi, h1, h2⟩ := readsAll_some hr
    simp only [ShapedAll] at h
    rw [visitAll, sitesAll, runSites_append, hf i hi t h.1 h1, visitAll_ok hf h2 h.2]

theorem visitParameters_ok {b : Nat} {f : Nat → Outcome (Option Error) (List (Construct × List Annotation))}
    (hf : Good ns b f) : ∀ {ts : List (Option Tree)} {hs : List Handle}, ReadsAll ns b hs ts →
    ShapedAll ts → (∀ o ∈ ts, ParamTree o) → visitParameters ns f hs = runSites (sitesAll ts)
  | [], hs, hr, _, _ => by rw [readsAll_nil hr]; simp [visitParameters, sitesAll, runSites]
  | o :: ts, hs, hr, h, hp => by
    obtain ⟨x, t, rfl⟩ := hp o (by simp)
    obtain ⟨i, hs', rfl, hi, h1, h2⟩ := readsAll_some hr
    simp only [ShapedAll, Shaped] at h
    obtain ⟨pos, children, hn, hcs⟩ := reads_inv h1
    obtain ⟨j, hs'', he, hj, h3, h4⟩ := readsAll_some hcs
    cases readsAll_nil h4
    cases he
    have ih := visitParameters_ok hf h2 h.2 fun o ho => hp o (by simp [ho])
    simp only [visitParameters, hn, sitesAll, Tree.sites, targetOf, List.nil_append, List.append_nil]
    rw [runSites_append, hf j (by omega) t h.1.2.1 h3, ih]

theorem readsAll_mono_bound {b b' : Nat} (hb : b ≤ b') {hs : List Handle} {ts : List (Option Tree)}
    (h : ReadsAll ns b hs ts) : ReadsAll ns b' hs ts   := Parse.readsAll_mono (List.prefix_refl _) hb h

theorem sites_node (k : Kind) (cs : List (Option Tree)) :
    (Tree.node k cs).sites = (match targetOf k with
      | some c => [(c, cs.flatMap listOf)]
      | none => []) ++ sitesAll cs := by rw [Tree.sites]; rfl

theorem visit_ok : ∀ n, Good ns n (visit ns n) := by
  intro n
  induction n with
  | zero => intro h hh; omega
  | succ n ih =>
    intro h hh t hs hr
    obtain ⟨kind, cs⟩ := t
    obtain ⟨pos, hs', hn, hcs⟩ := reads_inv hr
    have hcs := readsAll_mono_bound (by omega : h ≤ n) hcs
    simp only [Shaped] at hs
    obtain ⟨hp, hall⟩ := hs
    have front : ∀ c, constructOf kind = some c → targetOf kind = some c →
        (∃ a rest, cs = a :: rest ∧ ListTree a ∧ ∀ o ∈ rest, Other o) →
        (match (constructOf kind), hs' with
          | some c, a :: cs => (do
            let r ← resolveAt ns c a
            let rs ← visitAll (visit ns n) cs
            .ok (r ++ rs))
          | _, _ => .err none) = runSites (Tree.node kind cs).sites := by
      rintro c hc ht ⟨a, rest, rfl, ha, ho⟩
      obtain ⟨a', hs'', rfl, h1, h2⟩ := readsAll_cons hcs
      rw [sites_node, ht]
      simp only [hc, List.flatMap_cons, others ho, List.append_nil]
      rw [runSites_append, resolveAt_ok h1 ha]
      have e : sitesAll (a :: rest) = sitesAll rest := by
        have := sitesAll_append [a] rest
        rw [listTree_sites ha] at this
        simpa using this
      rw [e, visitAll_ok ih h2]
      have : a :: rest = [a] ++ rest := rfl
      rw [this, shapedAll_append] at hall
      exact hall.2
    cases kind with
    | function x =>
      obtain ⟨a, ps, ret, req, body, rfl, ha, hps, o1, o2, o3⟩ := hp
      obtain ⟨a', hs1, rfl, k1, k2⟩ := readsAll_cons hcs
      obtain ⟨p', hs2, rfl, k3, k4⟩ := readsAll_cons k2
      obtain ⟨b1, hs3, rfl, k5, k6⟩ := readsAll_cons k4
      obtain ⟨b2, hs4, rfl, k7, k8⟩ := readsAll_cons k6
      obtain ⟨b3, hs5, rfl, k9, k10⟩ := readsAll_cons k8
      cases readsAll_nil k10
      have e : [a, ps, ret, req, body] = [a] ++ [ps] ++ [ret, req, body] := rfl
      rw [e, shapedAll_append, shapedAll_append] at hall
      have hv := visitAll_ok ih k4 hall.2
      have hl : [a, ps, ret, req, body].flatMap listOf = listOf a := by
        have hp0 : listOf ps = [] := by
          rcases hps with rfl | ⟨_, rfl, -⟩ <;> rfl
        have o1 : listOf ret = [] := o1
        have o2 : listOf req = [] := o2
        have o3 : listOf body = [] := o3
        simp [hp0, o1, o2, o3]
      rw [sites_node]
      simp only [targetOf]
      rw [hl, e, sitesAll_append, sitesAll_append, listTree_sites ha, runSites_append, List.nil_append,
        runSites_append, ← resolveAt_ok k1 ha, ← hv]
      simp only [visit, hn]
      rcases hps with rfl | ⟨pl, rfl, hpl⟩
      · cases p' with
        | some _ => exact absurd k3 (by simp [ReadsO])
        | none =>
          simp only [sitesAll, runSites, Outcome.ok_bind, List.append_nil]
          cases resolveAt ns .function a' <;> simp
          cases visitAll (visit ns n) [b1, b2, b3] <;> simp
      · cases p' with
        | none => exact absurd k3 (by simp [ReadsO])
        | some p' =>
          obtain ⟨posp, hsp, hnp, hcp⟩ := reads_inv k3.2
          have hcp := readsAll_mono_bound (by have := k3.1; omega : p' ≤ n) hcp
          simp only [ShapedAll, Shaped] at hall
          have hv' := visitParameters_ok ih hcp hall.1.2.1.2 hpl
          have e' : sitesAll [some (Tree.node .parameter_list pl)] = sitesAll pl := by
            simp [sitesAll, Tree.sites, targetOf]
          rw [e', ← hv']
          simp only [hnp]
          cases resolveAt ns .function a' <;> simp
          cases visitParameters ns (visit ns n) hsp <;> simp
          cases visitAll (visit ns n) [b1, b2, b3] <;> simp
    | function_call_expression x st =>
      obtain ⟨args, a, rfl, ha, ho⟩ := hp
      obtain ⟨hs1, hs2, rfl, k1, k2⟩ := readsAll_split hcs
      obtain ⟨a', hs3, rfl, k3, k4⟩ := readsAll_cons k2
      cases readsAll_nil k4
      rw [shapedAll_append] at hall
      rw [sites_node, targetOf, sitesAll_append, listTree_sites ha]
      simp only [List.flatMap_append, others ho, List.nil_append, List.flatMap_cons, List.flatMap_nil,
        List.append_nil]
      rw [runSites_append, ← resolveAt_ok k3 ha, ← visitAll_ok ih k1 hall.1]
      simp [visit, hn]
    | const x =>
      rw [← front _ rfl rfl hp]
      simp only [visit, hn, constructOf]
      cases hs' <;> rfl
    | «let» x =>
      rw [← front _ rfl rfl hp]
      simp only [visit, hn, constructOf]
      cases hs' <;> rfl
    | if_statement =>
      rw [← front _ rfl rfl hp]
      simp only [visit, hn, constructOf]
      cases hs' <;> rfl
    | while_statement =>
      rw [← front _ rfl rfl hp]
      simp only [visit, hn, constructOf]
      cases hs' <;> rfl
    | assignment x =>
      rw [← front _ rfl rfl hp]
      simp only [visit, hn, constructOf]
      cases hs' <;> rfl
    | program | parameter_list | parameter _ | type _ | static_assert | annotation_list | annotation _
    | annotation_argument _ _ _ | «break» | «continue» | return_statement | block_statement
    | conversion_expression | if_expression | binary_expression _ | prefix_expression _
    | id_expression _ | literal _ _ =>
      rw [sites_node]
      simp only [targetOf, List.nil_append, visit, hn, constructOf]
      exact visitAll_ok ih hcs hall

/-! ## Trees of the grammar -/

/-- String literals are in quotes. -/
def Quoted (w : List Terminal) : Prop :=
  ∀ x, (.string_literal, x) ∈ w → ∃ body, x = '"' :: body ++ ['"'] ∧ body.head? ≠ some '"'

theorem Quoted.left {w w' : List Terminal} (h : Quoted (w ++ w')) : Quoted w :=
  fun x hx => h x (by simp [hx])

theorem Quoted.sub {w w' : List Terminal} (h : Quoted w) (hs : ∀ x ∈ w', x ∈ w) : Quoted w' :=
  fun x hx => h x (hs _ hx)

/-- What is known about the trees that a nonterminal stands for. -/
def Made : Sym → List (Option Tree) → Prop
  | .optAnnotations => fun ts => ∃ a, ts = [a] ∧ ListTree a
  | .annotations | .annotation => fun ts => ∀ a ∈ ts, AnnTree a
  | .annotationArguments | .annotationArgument => fun ts => ∀ a ∈ ts, ArgTree a
  | .optParameters => fun ts => ∃ o, ts = [o] ∧ ParamsTree o
  | .parameters | .parameter => fun ts => ∀ a ∈ ts, ParamTree a
  | .optArguments | .arguments | .statements | .declarations => fun ts => ∀ o ∈ ts, Other o
  | .optRequires | .optType | .optElse => fun ts => ∃ o, ts = [o] ∧ Other o
  | _ => fun ts => ∃ t, ts = [some t] ∧ Other (some t)

theorem other_of {o : Option Tree} {ts : List (Option Tree)} (h : ∃ t, ts = [some t] ∧ Other (some t))
    (ho : o ∈ ts) : Other o := by
  obtain ⟨t, rfl, h⟩ := h
  have : o = some t := by simpa using ho
  rw [this]
  exact h

theorem shaped_node {k : Kind} {cs : List (Option Tree)} (hp : Placed k cs) (h : ShapedAll cs) :
    ShapedAll [some (.node k cs)] := by
  simp only [ShapedAll, Shaped]
  exact ⟨⟨hp, h⟩, trivial⟩

theorem one_node {k : Kind} {cs : List (Option Tree)} (hk : k ≠ .annotation_list) :
    ∃ t, [some (Tree.node k cs)] = [some t] ∧ Other (some t) := by
  refine ⟨_, rfl, ?_⟩
  cases k <;> first | rfl | exact absurd rfl hk

theorem Other.none : Other none := rfl

theorem all_append {P : Option Tree → Prop} {l r : List (Option Tree)} (hl : ∀ o ∈ l, P o)
    (hr : ∀ o ∈ r, P o) : ∀ o ∈ l ++ r, P o := fun o ho => (List.mem_append.mp ho).elim (hl o) (hr o)

/-- Annotations in front. -/
theorem placed_front {a rest : List (Option Tree)} (ha : ∃ o, a = [o] ∧ ListTree o)
    (hr : ∀ o ∈ rest, Other o) : ∃ x xs, a ++ rest = x :: xs ∧ ListTree x ∧ ∀ o ∈ xs, Other o := by
  obtain ⟨o, rfl, ho⟩ := ha
  exact ⟨o, rest, rfl, ho, hr⟩

theorem other_opt {ts : List (Option Tree)} (h : ∃ o, ts = [o] ∧ Other o) : ∀ o ∈ ts, Other o := by
  obtain ⟨o, rfl, h⟩ := h
  intro x hx
  have : x = o := by simpa using hx
  rw [this]
  exact h

theorem opt_of_one {ts : List (Option Tree)} (h : ∃ t, ts = [some t] ∧ Other (some t)) :
    ∃ o, ts = [o] ∧ Other o := by
  obtain ⟨t, e, h⟩ := h
  exact ⟨_, e, h⟩

theorem quoted_argument {k q x q' : _} (h : ∃ body, q :: x ++ [q'] = '"' :: body ++ ['"'] ∧ body.head? ≠ some '"') :
    Argument.Parsed ⟨k, x, .string_literal⟩ := by
  obtain ⟨body, e, hb⟩ := h
  simp only [List.cons_append, List.cons.injEq] at e
  obtain ⟨-, e⟩ := e
  have := List.append_inj_left' e rfl
  subst this
  exact .inr (.inr ⟨rfl, hb⟩)

theorem value_argument {k x : List Char} {t : TokenType} (h : t ∈ integerLiterals ++ booleanLiterals) :
    Argument.Parsed ⟨k, x, t⟩ :=
  (List.mem_append.mp h).elim .inl fun h => .inr (.inl h)

theorem arg_made {k x : List Char} {t : TokenType} (h : Argument.Parsed ⟨k, x, t⟩) :
    ShapedAll [some (.node (.annotation_argument k x t) [])] ∧
    ∀ a ∈ [some (Tree.node (.annotation_argument k x t) [])], ArgTree a := by
  refine ⟨shaped_node trivial trivial, fun a ha => ?_⟩
  have : a = some (.node (.annotation_argument k x t) []) := by simpa using ha
  rw [this]
  exact ⟨k, x, t, rfl, h⟩

theorem ann_made {x : List Char} {args : List (Option Tree)} (hs : ShapedAll args)
    (h : ∀ a ∈ args, ArgTree a) :
    ShapedAll [some (.node (.annotation x) args)] ∧
    ∀ a ∈ [some (Tree.node (.annotation x) args)], AnnTree a := by
  refine ⟨shaped_node trivial hs, fun a ha => ?_⟩
  have : a = some (.node (.annotation x) args) := by simpa using ha
  rw [this]
  exact ⟨x, args, rfl, h⟩

theorem shaped_made {lenient : Bool} {sym : Sym} {w : List Terminal} {ts : List (Option Tree)}
    (h : Derives lenient sym w ts) (hq : Quoted w) : ShapedAll ts ∧ Made sym ts := by
  induction h with
  | integer _ | boolean _ | string _ | id => exact ⟨shaped_node trivial trivial, one_node (by simp)⟩
  | paren _ ih | someArguments _ ih | callPostfix _ ih | primary _ ih | prefixPostfix _ ih
  | arithmeticPrefix _ ih | binaryComparison _ ih | binaryPrefix _ ih | ifBinary _ ih
  | expressionConversion _ ih | expressionIf _ ih | lastAnnotation _ ih | annotationArgument _ ih
  | lastParameter _ ih | declConst _ ih | declFunction _ ih | declStaticAssert _ ih | stmtLet _ ih
  | stmtConst _ ih | stmtStaticAssert _ ih | stmtIf _ ih | stmtBlock _ ih => exact ih hq
  | parenthesized _ ih => exact ih (hq.sub fun x hx => by simp [hx])
  | noArguments | noStatements | noDeclarations => exact ⟨trivial, by intro o ho; cases ho⟩
  | argument _ ih =>
    obtain ⟨h1, h2⟩ := ih hq
    exact ⟨h1, fun o ho => other_of h2 ho⟩
  | argumentsComma _ _ ih ih' | argumentsNoComma _ _ _ ih ih' | declarations _ _ ih ih'
  | statements _ _ ih ih' =>
    obtain ⟨h1, h2⟩ := ih (hq.sub fun x hx => by simp [hx])
    obtain ⟨h3, h4⟩ := ih' (hq.sub fun x hx => by simp [hx])
    exact ⟨shapedAll_append.mpr ⟨h1, h3⟩, all_append (fun o ho => other_of h2 ho) h4⟩
  | call _ _ ih ih' =>
    obtain ⟨h1, h2⟩ := ih (hq.sub fun x hx => by simp [hx])
    obtain ⟨h3, a, rfl, h4⟩ := ih' (hq.sub fun x hx => by simp [hx])
    exact ⟨shaped_node ⟨_, a, rfl, h4, h2⟩ (shapedAll_append.mpr ⟨h1, h3⟩), one_node (by simp)⟩
  | unary _ _ ih =>
    obtain ⟨h1, -⟩ := ih (hq.sub fun x hx => by simp [hx])
    exact ⟨shaped_node trivial h1, one_node (by simp)⟩
  | arithmetic _ _ _ ih ih' | comparison _ _ _ ih ih' | binary _ _ _ ih ih' | conversion _ _ ih ih' =>
    obtain ⟨h1, -⟩ := ih (hq.sub fun x hx => by simp [hx])
    obtain ⟨h3, -⟩ := ih' (hq.sub fun x hx => by simp [hx])
    exact ⟨shaped_node trivial (shapedAll_append.mpr ⟨h1, h3⟩), one_node (by simp)⟩
  | ifExpression _ _ _ ih1 ih2 ih3 =>
    obtain ⟨h1, -⟩ := ih1 (hq.sub fun x hx => by simp [hx])
    obtain ⟨h2, -⟩ := ih2 (hq.sub fun x hx => by simp [hx])
    obtain ⟨h3, -⟩ := ih3 (hq.sub fun x hx => by simp [hx])
    exact ⟨shaped_node trivial (shapedAll_append.mpr ⟨shapedAll_append.mpr ⟨h1, h2⟩, h3⟩), one_node (by simp)⟩
  | typeVoid | typeBool | typeInt => exact ⟨shaped_node trivial trivial, one_node (by simp)⟩
  | typeUint _ ih | staticAssert _ ih | return_ _ ih =>
    obtain ⟨h1, -⟩ := ih (hq.sub fun x hx => by simp [hx])
    exact ⟨shaped_node trivial h1, one_node (by simp)⟩
  | block _ ih =>
    obtain ⟨h1, -⟩ := ih (hq.sub fun x hx => by simp [hx])
    exact ⟨shaped_node trivial h1, one_node (by simp)⟩
  | noType | noRequires | noElse => exact ⟨trivial, none, rfl, Other.none⟩
  | someType _ ih | someRequires _ ih | elseIf _ ih | elseBlock _ ih =>
    obtain ⟨h1, h2⟩ := ih (hq.sub fun x hx => by simp at hx ⊢; tauto)
    exact ⟨h1, opt_of_one h2⟩
  | noAnnotations => exact ⟨trivial, none, rfl, .inl rfl⟩
  | someAnnotations _ ih =>
    obtain ⟨h1, h2⟩ := ih hq
    exact ⟨shaped_node trivial h1, _, rfl, .inr ⟨_, rfl, h2⟩⟩
  | annotations _ _ ih ih' | annotationArguments _ _ ih ih' =>
    obtain ⟨h1, h2⟩ := ih (hq.sub fun x hx => by simp [hx])
    obtain ⟨h3, h4⟩ := ih' (hq.sub fun x hx => by simp [hx])
    exact ⟨shapedAll_append.mpr ⟨h1, h3⟩, all_append h2 h4⟩
  | annotation | annotationEmpty => exact ann_made trivial (by intro o ho; cases ho)
  | annotationArgs _ ih =>
    obtain ⟨h1, h2⟩ := ih (hq.sub fun x hx => by simp [hx])
    exact ann_made h1 h2
  | argumentValue h | keyValue h => exact arg_made (value_argument h)
  | argumentString | keyString =>
    exact arg_made (quoted_argument (hq _ (by first | exact List.mem_cons_self | simp only [List.mem_cons, List.mem_singleton]; exact .inr (.inr (.inl rfl)))))
  | initializer _ ih => exact ih (hq.sub fun x hx => by simp [hx])
  | const _ _ _ ih1 ih2 ih3 | letInit _ _ _ ih1 ih2 ih3 =>
    obtain ⟨h1, h2⟩ := ih1 (hq.sub fun x hx => by simp [hx])
    obtain ⟨h3, h4⟩ := ih2 (hq.sub fun x hx => by simp [hx])
    obtain ⟨h5, h6⟩ := ih3 (hq.sub fun x hx => by simp [hx])
    rw [List.append_assoc]
    exact ⟨shaped_node (placed_front h2 (all_append (other_opt h4) (fun o ho => other_of h6 ho)))
      (shapedAll_append.mpr ⟨h1, shapedAll_append.mpr ⟨h3, h5⟩⟩), one_node (by simp)⟩
  | letType _ _ ih1 ih2 =>
    obtain ⟨h1, h2⟩ := ih1 (hq.sub fun x hx => by simp [hx])
    obtain ⟨h3, h4⟩ := ih2 (hq.sub fun x hx => by simp [hx])
    rw [List.append_assoc]
    exact ⟨shaped_node (placed_front h2 (all_append (fun o ho => other_of h4 ho)
        (by intro o ho; rw [List.mem_singleton.mp ho]; exact Other.none)))
      (shapedAll_append.mpr ⟨h1, shapedAll_append.mpr ⟨h3, trivial⟩⟩), one_node (by simp)⟩
  | parameter _ ih =>
    obtain ⟨h1, t, rfl, -⟩ := ih (hq.sub fun x hx => by simp [hx])
    refine ⟨shaped_node trivial h1, fun a ha => ?_⟩
    rw [List.mem_singleton.mp ha]
    exact ⟨_, t, rfl⟩
  | parameters _ _ ih ih' =>
    obtain ⟨h1, h2⟩ := ih (hq.sub fun x hx => by simp [hx])
    obtain ⟨h3, h4⟩ := ih' (hq.sub fun x hx => by simp [hx])
    exact ⟨shapedAll_append.mpr ⟨h1, h3⟩, all_append h2 h4⟩
  | noParameters => exact ⟨trivial, none, rfl, .inl rfl⟩
  | someParameters _ ih =>
    obtain ⟨h1, h2⟩ := ih hq
    exact ⟨shaped_node trivial h1, _, rfl, .inr ⟨_, rfl, h2⟩⟩
  | function _ _ _ _ _ ih1 ih2 ih3 ih4 ih5 =>
    obtain ⟨h1, a, rfl, ha⟩ := ih1 (hq.sub fun x hx => by simp [hx])
    obtain ⟨h2, p, rfl, hp⟩ := ih2 (hq.sub fun x hx => by simp [hx])
    obtain ⟨h3, r, rfl, hr⟩ := ih3 (hq.sub fun x hx => by simp [hx])
    obtain ⟨h4, q, rfl, hq'⟩ := ih4 (hq.sub fun x hx => by simp [hx])
    obtain ⟨h5, b, rfl, hb⟩ := ih5 (hq.sub fun x hx => by simp [hx])
    refine ⟨shaped_node ⟨a, p, some r, q, some b, rfl, ha, hp, hr, hq', hb⟩ ?_, one_node (by simp)⟩
    simp only [shapedAll_append]
    exact ⟨⟨⟨⟨h1, h2⟩, h3⟩, h4⟩, h5⟩
  | program _ _ ih ih' =>
    obtain ⟨h1, -⟩ := ih (hq.sub fun x hx => by simp [hx])
    obtain ⟨h3, -⟩ := ih' (hq.sub fun x hx => by simp [hx])
    exact ⟨shaped_node trivial (shapedAll_append.mpr ⟨h1, h3⟩), one_node (by simp)⟩
  | assignment _ _ ih1 ih2 =>
    obtain ⟨h1, h2⟩ := ih1 (hq.sub fun x hx => by simp [hx])
    obtain ⟨h3, h4⟩ := ih2 (hq.sub fun x hx => by simp [hx])
    exact ⟨shaped_node (placed_front h2 (fun o ho => other_of h4 ho))
      (shapedAll_append.mpr ⟨h1, h3⟩), one_node (by simp)⟩
  | callStatement _ ih =>
    obtain ⟨h1, -⟩ := ih (hq.sub fun x hx => by simp [hx])
    simp only [ShapedAll, Shaped] at h1
    exact ⟨shaped_node h1.1.1 h1.1.2, one_node (by simp)⟩
  | break_ | continue_ | returnVoid => exact ⟨shaped_node trivial trivial, one_node (by simp)⟩
  | if_ _ _ _ _ ih1 ih2 ih3 ih4 =>
    obtain ⟨h1, h2⟩ := ih1 (hq.sub fun x hx => by simp [hx])
    obtain ⟨h3, h4⟩ := ih2 (hq.sub fun x hx => by simp [hx])
    obtain ⟨h5, h6⟩ := ih3 (hq.sub fun x hx => by simp [hx])
    obtain ⟨h7, h8⟩ := ih4 (hq.sub fun x hx => by simp [hx])
    rw [List.append_assoc, List.append_assoc]
    exact ⟨shaped_node (placed_front h2 (all_append (fun o ho => other_of h4 ho)
        (all_append (fun o ho => other_of h6 ho) (other_opt h8))))
      (shapedAll_append.mpr ⟨h1, shapedAll_append.mpr ⟨h3, shapedAll_append.mpr ⟨h5, h7⟩⟩⟩), one_node (by simp)⟩
  | while_ _ _ _ ih1 ih2 ih3 =>
    obtain ⟨h1, h2⟩ := ih1 (hq.sub fun x hx => by simp [hx])
    obtain ⟨h3, h4⟩ := ih2 (hq.sub fun x hx => by simp [hx])
    obtain ⟨h5, h6⟩ := ih3 (hq.sub fun x hx => by simp [hx])
    rw [List.append_assoc]
    exact ⟨shaped_node (placed_front h2 (all_append (fun o ho => other_of h4 ho)
        (fun o ho => other_of h6 ho)))
      (shapedAll_append.mpr ⟨h1, shapedAll_append.mpr ⟨h3, h5⟩⟩), one_node (by simp)⟩

/-! ## Arguments at the places of a tree -/

/-- All arguments of annotations are as the parser makes them. -/
def ParsedSites (ss : List Site) : Prop := ∀ s ∈ ss, ∀ w ∈ s.2, ∀ a ∈ w.2, Argument.Parsed a

theorem listTree_parsed {o : Option Tree} (h : ListTree o) : ∀ w ∈ listOf o, ∀ a ∈ w.2, Argument.Parsed a := by
  rcases h with rfl | ⟨as, rfl, h⟩
  · intro w hw; simp [listOf] at hw
  · intro w hw a ha
    simp only [listOf, List.mem_flatMap] at hw
    obtain ⟨o, ho, hw⟩ := hw
    obtain ⟨x, args, rfl, h⟩ := h o ho
    simp only [writtenOf, List.mem_singleton] at hw
    subst hw
    simp only [List.mem_flatMap] at ha
    obtain ⟨o, ho, ha⟩ := ha
    obtain ⟨k, v, t, rfl, h⟩ := h o ho
    simp only [argumentOf, List.mem_singleton] at ha
    subst ha
    exact h

theorem placed_parsed {k : Kind} {cs : List (Option Tree)} (h : Placed k cs) {c : Construct}
    (hc : targetOf k = some c) : ∀ w ∈ cs.flatMap listOf, ∀ a ∈ w.2, Argument.Parsed a := by
  have front : (∃ a rest, cs = a :: rest ∧ ListTree a ∧ ∀ o ∈ rest, Other o) →
      ∀ w ∈ cs.flatMap listOf, ∀ a ∈ w.2, Argument.Parsed a := by
    rintro ⟨a, rest, rfl, ha, ho⟩
    rw [List.flatMap_cons, others ho, List.append_nil]
    exact listTree_parsed ha
  cases k with
  | function x =>
    obtain ⟨a, ps, ret, req, body, rfl, ha, hps, o1, o2, o3⟩ := h
    refine front ⟨a, _, rfl, ha, fun o ho => ?_⟩
    have hp : Other ps := by
      rcases hps with rfl | ⟨_, rfl, -⟩ <;> rfl
    simp only [List.mem_cons, List.not_mem_nil, or_false] at ho
    rcases ho with rfl | rfl | rfl | rfl <;> assumption
  | function_call_expression x st =>
    obtain ⟨args, a, rfl, ha, ho⟩ := h
    rw [List.flatMap_append, others ho, List.nil_append, List.flatMap_cons, List.flatMap_nil,
      List.append_nil]
    exact listTree_parsed ha
  | const x => exact front h
  | «let» x => exact front h
  | if_statement => exact front h
  | while_statement => exact front h
  | assignment x => exact front h
  | _ => cases hc

mutual

theorem Shaped.parsed : ∀ {t : Tree}, Shaped t → ParsedSites t.sites
  | .node k cs, h => by
    simp only [Shaped] at h
    rw [sites_node]
    intro s hs
    rcases List.mem_append.mp hs with hs | hs
    · cases ht : targetOf k with
      | none => rw [ht] at hs; cases hs
      | some c =>
        rw [ht] at hs
        rw [List.mem_singleton.mp hs]
        exact placed_parsed h.1 ht
    · exact ShapedAll.parsed h.2 s hs

theorem ShapedAll.parsed : ∀ {ts : List (Option Tree)}, ShapedAll ts → ParsedSites (sitesAll ts)
  | [], _ => by intro s hs; simp [sitesAll] at hs
  | none :: ts, h => by
    simp only [ShapedAll] at h
    simp only [sitesAll]
    exact ShapedAll.parsed h
  | some t :: ts, h => by
    simp only [ShapedAll] at h
    simp only [sitesAll]
    intro s hs
    rcases List.mem_append.mp hs with hs | hs
    · exact Shaped.parsed h.1 s hs
    · exact ShapedAll.parsed h.2 s hs

end

/-! ## Results -/

theorem runList_cases {c : Construct} : ∀ {ws : List WrittenAnnotation},
    (∀ w ∈ ws, ¬ Inline w.1) → (∀ w ∈ ws, ∀ a ∈ w.2, Argument.Parsed a) →
    (∃ as, runList c ws = .ok as ∧ List.Forall₂ (fun w a => AnnotationFits c w.1 w.2 a) ws as) ∨
    (∃ e pre w rest as, runList c ws = .err (some e) ∧ ws = pre ++ w :: rest ∧
      List.Forall₂ (fun w a => AnnotationFits c w.1 w.2 a) pre as ∧ AnnotationError c w.1 w.2 e)
  | [], _, _ => .inl ⟨[], rfl, .nil⟩
  | w :: ws, hi, hp => by
    rcases resolveOne_cases (c := c) (hi w (by simp)) (hp w (by simp)) with ⟨a, e, ha⟩ | ⟨e, h1, h2⟩
    · rcases runList_cases (c := c) (ws := ws) (fun w hw => hi w (by simp [hw]))
        (fun w hw => hp w (by simp [hw])) with
        ⟨as, e', has⟩ | ⟨er, pre, w', rest, as, e', rfl, h1, h2⟩
      · exact .inl ⟨a :: as, by simp [runList, e, e'], .cons ha has⟩
      · exact .inr ⟨er, w :: pre, w', rest, a :: as, by simp [runList, e, e'], rfl, .cons ha h1, h2⟩
    · exact .inr ⟨e, [], w, ws, [], by simp [runList, h1], rfl, .nil, h2⟩

theorem runList_complete {c : Construct} : ∀ {ws : List WrittenAnnotation} {as : List Annotation},
    (∀ w ∈ ws, ¬ Inline w.1) → (∀ w ∈ ws, ∀ a ∈ w.2, Argument.Parsed a) →
    List.Forall₂ (fun w a => AnnotationFits c w.1 w.2 a) ws as → runList c ws = .ok as
  | [], _, _, _, h => by cases h; rfl
  | w :: ws, _, hi, hp, h => by
    cases h with
    | cons h1 h2 =>
      have e := resolveOne_complete (hi w (by simp)) (hp w (by simp)) h1
      have e' := runList_complete (fun w hw => hi w (by simp [hw])) (fun w hw => hp w (by simp [hw])) h2
      simp [runList, e, e']

theorem runSites_cases : ∀ {ss : List Site}, (∀ s ∈ ss, ∀ w ∈ s.2, ¬ Inline w.1) → ParsedSites ss →
    (∃ rs, runSites ss = .ok rs ∧ List.Forall₂ SiteFits ss rs) ∨
    (∃ e, runSites ss = .err (some e) ∧ FirstError ss e)
  | [], _, _ => .inl ⟨[], rfl, .nil⟩
  | s :: ss, hi, hp => by
    rcases runList_cases (c := s.1) (hi s (by simp)) (hp s (by simp)) with
      ⟨as, e, ha⟩ | ⟨er, pre, w, rest, as, e, h1, h2, h3⟩
    · rcases runSites_cases (ss := ss) (fun w hw => hi w (by simp [hw])) (fun w hw => hp w (by simp [hw])) with
        ⟨rs, e', hrs⟩ | ⟨er, e', pre, s', post, ws, w, rest, rs, as', rfl, h1, h2, h3, h4⟩
      · exact .inl ⟨(s.1, as) :: rs, by simp [runSites, e, e'], .cons ⟨rfl, ha⟩ hrs⟩
      · exact .inr ⟨er, by simp [runSites, e, e'], s :: pre, s', post, ws, w, rest, (s.1, as) :: rs, as',
          rfl, .cons ⟨rfl, ha⟩ h1, h2, h3, h4⟩
    · exact .inr ⟨er, by simp [runSites, e], [], s, ss, pre, w, rest, [], as, rfl, .nil, h1, h2, h3⟩

theorem runSites_complete : ∀ {ss : List Site} {rs : List (Construct × List Annotation)},
    (∀ s ∈ ss, ∀ w ∈ s.2, ¬ Inline w.1) → ParsedSites ss → List.Forall₂ SiteFits ss rs →
    runSites ss = .ok rs
  | [], _, _, _, h => by cases h; rfl
  | s :: ss, _, hi, hp, h => by
    cases h with
    | @cons _ r _ rs h1 h2 =>
      obtain ⟨e1, h1⟩ := h1
      have e := runList_complete (hi s (by simp)) (hp s (by simp)) h1
      have e' := runSites_complete (fun w hw => hi w (by simp [hw])) (fun w hw => hp w (by simp [hw])) h2
      obtain ⟨c, as⟩ := r
      simp only at e1
      subst e1
      simp [runSites, e, e']

end Annot
end Bms
