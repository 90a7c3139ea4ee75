import Verif.Lemmas.ParseSound
import Verif.Model.Build
import Verif.Spec.Build
import Verif.Spec.Analysis

/-!
# Trees that are made from parsed programs
-/

namespace Bms
namespace Build

open Parse (Kind Node Handle TypeType)
open Spec

/-! ## Handles in a program -/

/-- Every node has at most one parent, and parents come behind their children. -/
structure Tidy (ns : List Node) : Prop where
  before : ∀ (j : Nat) (n : Node), ns[j]? = some n → ∀ c : Nat, some c ∈ n.children → c < j
  once : ∀ i : Nat, (ns.flatMap (·.children)).count (some i) ≤ 1

/-- The node `i` is the node `a` or below it. -/
inductive Desc (ns : List Node) (a : Nat) : Nat → Prop
  | self : Desc ns a a
  | child {j n i} : Desc ns a j → ns[j]? = some n → some i ∈ n.children → Desc ns a i

variable {ns : List Node}

theorem Desc.le (ht : Tidy ns) {a i : Nat} (h : Desc ns a i) : i ≤ a := by
  induction h with
  | self => exact Nat.le_refl _
  | child _ hn hc ih => have := ht.before _ _ hn _ hc; omega

theorem Desc.trans {a b i : Nat} (h : Desc ns a b) (h' : Desc ns b i) : Desc ns a i := by
  induction h' with
  | self => exact h
  | child _ hn hc ih => exact .child ih hn hc

theorem count_pair {α β : Type} [BEq β] [LawfulBEq β] (f : α → List β) (b : β) :
    ∀ (l : List α) {i j : Nat} {x y : α}, l[i]? = some x → l[j]? = some y → i ≠ j → b ∈ f x → b ∈ f y →
      2 ≤ (l.flatMap f).count b
  | [], i, _, _, _, h, _, _, _, _ => by simp at h
  | z :: l, i, j, x, y, hi, hj, hij, hx, hy => by
    rw [List.flatMap_cons, List.count_append]
    have hm : ∀ {k : Nat} {w : α}, l[k]? = some w → b ∈ f w → 1 ≤ (l.flatMap f).count b := by
      intro k w hk hw
      exact List.count_pos_iff.mpr (List.mem_flatMap.mpr ⟨w, List.mem_of_getElem? hk, hw⟩)
    cases i with
    | zero =>
      cases j with
      | zero => exact absurd rfl hij
      | succ j =>
        simp only [List.getElem?_cons_zero, List.getElem?_cons_succ, Option.some.injEq] at hi hj
        subst hi
        have h1 := List.count_pos_iff.mpr hx
        have h2 := hm hj hy
        omega
    | succ i =>
      cases j with
      | zero =>
        simp only [List.getElem?_cons_zero, List.getElem?_cons_succ, Option.some.injEq] at hi hj
        subst hj
        have h1 := List.count_pos_iff.mpr hy
        have h2 := hm hi hx
        omega
      | succ j =>
        simp only [List.getElem?_cons_succ] at hi hj
        have := count_pair f b l hi hj (by omega) hx hy
        omega

/-- A node has only one parent. -/
theorem Tidy.parent (ht : Tidy ns) {i j : Nat} {n m : Node} {c : Nat} (hi : ns[i]? = some n)
    (hj : ns[j]? = some m) (hn : some c ∈ n.children) (hm : some c ∈ m.children) : i = j := by
  by_contra hne
  have := count_pair (·.children) (some c) ns hi hj hne hn hm
  have := ht.once c
  omega

/-- A child occurs once. -/
theorem Tidy.count (ht : Tidy ns) {i : Nat} {n : Node} (hi : ns[i]? = some n) (c : Nat) :
    n.children.count (some c) ≤ 1 := by
  refine Nat.le_trans ?_ (ht.once c)
  obtain ⟨l, l', rfl⟩ := List.append_of_mem (List.mem_of_getElem? hi)
  simp only [List.flatMap_append, List.flatMap_cons, List.count_append]
  omega

/-- What is below two children of a node is different. -/
theorem Tidy.disjoint (ht : Tidy ns) {h : Nat} {n : Node} (hn : ns[h]? = some n) {a b : Nat}
    (ha : some a ∈ n.children) (hb : some b ∈ n.children) (hab : a ≠ b) :
    ∀ {i : Nat}, Desc ns a i → Desc ns b i → False := by
  have key : ∀ d i : Nat, a + b - i ≤ d → Desc ns a i → Desc ns b i → False := by
    intro d
    induction d with
    | zero =>
      intro i hi h1 h2
      have := h1.le ht
      have := h2.le ht
      omega
    | succ d ih =>
      intro i hi h1 h2
      cases h1 with
      | self =>
        cases h2 with
        | self => exact hab rfl
        | child h2 hm hc =>
          have := ht.parent hn hm ha hc
          subst this
          have := h2.le ht
          have := ht.before _ _ hn _ hb
          omega
      | child h1 hm hc =>
        cases h2 with
        | self =>
          have := ht.parent hn hm hb hc
          subst this
          have := h1.le ht
          have := ht.before _ _ hn _ ha
          omega
        | child h2 hm' hc' =>
          have := ht.parent hm hm' hc hc'
          subst this
          have h3 := ht.before _ _ hm _ hc
          have h4 := h1.le ht
          have h5 := h2.le ht
          exact ih _ (by omega) h1 h2
  intro i h1 h2
  exact key _ i (Nat.le_refl _) h1 h2

/-- The keys are different ones of nodes that are, or are below, these handles. -/
def KeysOf (ns : List Node) (hs : List Handle) (l : List Key) : Prop :=
  l.Nodup ∧ ∀ x ∈ l, ∃ c : Nat, some c ∈ hs ∧ ∃ i, Desc ns c i ∧ x = key i

theorem KeysOf.nil {hs : List Handle} : KeysOf ns hs [] := ⟨List.nodup_nil, by simp⟩

theorem KeysOf.subset {hs hs' : List Handle} {l : List Key} (h : KeysOf ns hs l)
    (hs : ∀ c : Nat, some c ∈ hs → some c ∈ hs') : KeysOf ns hs' l :=
  ⟨h.1, fun x hx => by
    obtain ⟨c, hc, r⟩ := h.2 x hx
    exact ⟨c, hs c hc, r⟩⟩

theorem KeysOf.perm {hs : List Handle} {l l' : List Key} (h : KeysOf ns hs l) (hp : l.Perm l') :
    KeysOf ns hs l' :=
  ⟨hp.nodup_iff.mp h.1, fun x hx => h.2 x (hp.mem_iff.mpr hx)⟩

theorem KeysOf.append (ht : Tidy ns) {h : Nat} {n : Node} (hn : ns[h]? = some n)
    {hs hs' : List Handle} {l l' : List Key} (hsub : (hs ++ hs').Sublist n.children)
    (h1 : KeysOf ns hs l) (h2 : KeysOf ns hs' l') : KeysOf ns (hs ++ hs') (l ++ l') := by
  refine ⟨List.nodup_append.mpr ⟨h1.1, h2.1, ?_⟩, ?_⟩
  · rintro x hx y hy rfl
    obtain ⟨c, hc, i, hi, e⟩ := h1.2 x hx
    obtain ⟨c', hc', i', hi', e'⟩ := h2.2 x hy
    have : i = i' := Nat.succ.inj (e.symm.trans e')
    subst this
    have hne : c ≠ c' := by
      rintro rfl
      have h3 := hsub.count_le (some c)
      have h4 := ht.count hn c
      rw [List.count_append] at h3
      have h5 := List.count_pos_iff.mpr hc
      have h6 := List.count_pos_iff.mpr hc'
      omega
    exact ht.disjoint hn (hsub.subset (List.mem_append_left _ hc))
      (hsub.subset (List.mem_append_right _ hc')) hne hi hi'
  · intro x hx
    rcases List.mem_append.mp hx with hx | hx
    · obtain ⟨c, hc, r⟩ := h1.2 x hx
      exact ⟨c, List.mem_append_left _ hc, r⟩
    · obtain ⟨c, hc, r⟩ := h2.2 x hx
      exact ⟨c, List.mem_append_right _ hc, r⟩

theorem KeysOf.node (ht : Tidy ns) {h : Nat} {n : Node} (hn : ns[h]? = some n) {hs : List Handle}
    {l : List Key} (hsub : hs.Sublist n.children) (h1 : KeysOf ns hs l) :
    KeysOf ns [some h] (key h :: l) := by
  refine ⟨List.nodup_cons.mpr ⟨fun hx => ?_, h1.1⟩, ?_⟩
  · obtain ⟨c, hc, i, hi, e⟩ := h1.2 _ hx
    have : h = i := Nat.succ.inj e
    subst this
    have := hi.le ht
    have := ht.before _ _ hn _ (hsub.subset hc)
    omega
  · intro x hx
    rcases List.mem_cons.mp hx with rfl | hx
    · exact ⟨h, by simp, h, .self, rfl⟩
    · obtain ⟨c, hc, i, hi, e⟩ := h1.2 x hx
      exact ⟨h, by simp, i, (Desc.child .self hn (hsub.subset hc)).trans hi, e⟩

/-- The keys of a node without the key of the node itself. -/
theorem KeysOf.below {h : Nat} {n : Node} (hn : ns[h]? = some n) {hs : List Handle}
    {l : List Key} (hsub : hs.Sublist n.children) (h1 : KeysOf ns hs l) : KeysOf ns [some h] l :=
  ⟨h1.1, fun x hx => by
    obtain ⟨c, hc, i, hi, e⟩ := h1.2 x hx
    exact ⟨h, by simp, i, (Desc.child .self hn (hsub.subset hc)).trans hi, e⟩⟩

/-! ## Reading nodes -/

theorem readsAll_some {b : Nat} {hs : List Handle} {t : Tree} {ts : List (Option Tree)}
    (h : ReadsAll ns b hs (some t :: ts)) :
    ∃ c hs', hs = some c :: hs' ∧ c < b ∧ Reads ns c t ∧ ReadsAll ns b hs' ts := by
  cases h with
  | child h1 h2 h3 => exact ⟨_, _, rfl, h1, h2, h3⟩

theorem readsAll_none {b : Nat} {hs : List Handle} {ts : List (Option Tree)}
    (h : ReadsAll ns b hs (none :: ts)) : ∃ hs', hs = none :: hs' ∧ ReadsAll ns b hs' ts := by
  cases h with
  | null h => exact ⟨_, rfl, h⟩

theorem readsAll_nil {b : Nat} {hs : List Handle} (h : ReadsAll ns b hs []) : hs = [] := by
  cases h; rfl

/-- A handle that may be null, and a tree that may be absent. -/
def ReadsO (ns : List Node) (b : Nat) : Handle → Option Tree → Prop
  | none, none => True
  | some h, some t => h < b ∧ Reads ns h t
  | _, _ => False

theorem readsAll_cons {b : Nat} {hs : List Handle} {o : Option Tree} {ts : List (Option Tree)}
    (h : ReadsAll ns b hs (o :: ts)) :
    ∃ c hs', hs = c :: hs' ∧ ReadsO ns b c o ∧ ReadsAll ns b hs' ts := by
  cases h with
  | null h => exact ⟨_, _, rfl, trivial, h⟩
  | child h1 h2 h3 => exact ⟨_, _, rfl, ⟨h1, h2⟩, h3⟩

theorem readsAll_split {b : Nat} : ∀ {ts ts' : List (Option Tree)} {hs : List Handle},
    ReadsAll ns b hs (ts ++ ts') → ∃ l l', hs = l ++ l' ∧ ReadsAll ns b l ts ∧ ReadsAll ns b l' ts'
  | [], _, hs, h => ⟨[], hs, rfl, .nil, h⟩
  | o :: ts, ts', hs, h => by
    obtain ⟨c, hs', rfl, ho, h⟩ := readsAll_cons h
    obtain ⟨l, l', rfl, h1, h2⟩ := readsAll_split h
    refine ⟨c :: l, l', rfl, ?_, h2⟩
    cases c <;> cases o <;> simp only [ReadsO] at ho
    · exact .null h1
    · exact .child ho.1 ho.2 h1

theorem reads_inv {h : Nat} {k : Kind} {cs : List (Option Tree)} (hr : Reads ns h (.node k cs)) :
    ∃ p hs, ns[h]? = some ⟨p, k, hs⟩ ∧ ReadsAll ns h hs cs := by
  cases hr with
  | @mk _ n _ h1 h2 => exact ⟨n.pos, n.children, h1, h2⟩

/-! ## What is to be shown -/

/-- An expression is made from nodes that form this tree. -/
def ExprP (t : Tree) : Prop := ∀ ns h, Reads ns h t → ∃ e, (∀ n, h < n → expr ns n h = .ok e) ∧
  ExprIs t e ∧ (Tidy ns → KeysOf ns [some h] (Inst.keysE e))

/-- The function makes the expressions with smaller handles than `b`. -/
def Good (ns : List Node) (b : Nat) (f : Nat → Outcome Unit AExpr) : Prop :=
  ∀ i, i < b → ∀ e, (∀ n, i < n → expr ns n i = .ok e) → f i = .ok e

/-- A type is made from nodes that form this tree. -/
def TypeP (t : Tree) : Prop := ∀ ns h, Reads ns h t →
  ∃ ty, (∀ f, Good ns h f → typeWith ns f h = .ok ty) ∧ TypeIs t ty ∧
    (Tidy ns → KeysOf ns [some h] (Inst.keysT ty))

/-- A statement is made from nodes that form this tree. -/
def StmtP (t : Tree) : Prop := ∀ ns h, Reads ns h t → ∃ s, (∀ n, h < n → stmt ns n h = .ok s) ∧
  StmtIs t s ∧ (Tidy ns → KeysOf ns [some h] (Inst.keysS s))

/-- A parameter is made from nodes that form this tree. -/
def ParamP (t : Tree) : Prop := ∃ x tt, t = .node (.parameter x) [some tt] ∧
  ∀ ns h, Reads ns h t → ∃ k ty, param ns h = .ok ⟨k, x, ty⟩ ∧
    TypeIs tt ty ∧ (Tidy ns → KeysOf ns [some h] (k :: Inst.keysT ty))

/-- A declaration is made from nodes that form this tree. -/
def DeclP (t : Tree) : Prop := ∀ ns h, Reads ns h t → ∃ d, decl ns h = .ok d ∧ DeclIs t d ∧
  (Tidy ns → KeysOf ns [some h] (nodeKeys d))

/-- All of the trees are there and have the property. -/
def AllP (P : Tree → Prop) (ts : List (Option Tree)) : Prop := ∀ o ∈ ts, ∃ t, o = some t ∧ P t

/-- There is one tree, which has the property. -/
def OneP (P : Tree → Prop) (ts : List (Option Tree)) : Prop := ∃ t, ts = [some t] ∧ P t

/-- There is at most one tree; it has the property. -/
def OptP (P : Tree → Prop) (ts : List (Option Tree)) : Prop := ∃ o, ts = [o] ∧ ∀ t ∈ o, P t

theorem good_expr {b n : Nat} (h : b ≤ n) : Good ns b (expr ns n) :=
  fun _ hi _ he => he _ (by omega)

theorem good_exprAt {b : Nat} : Good ns b (exprAt ns) := fun i _ _ he => he _ (by omega)

theorem all_ok {α : Type} {f : Nat → Outcome Unit α} {S : Tree → α → Prop} {K : α → List Key} {b : Nat} :
    ∀ {ts : List (Option Tree)} {hs : List Handle}, ReadsAll ns b hs ts →
      AllP (fun t => ∀ h, h < b → Reads ns h t → ∃ x, f h = .ok x ∧ S t x ∧
        (Tidy ns → KeysOf ns [some h] (K x))) ts →
      ∃ xs, all f hs = .ok xs ∧ List.Forall₂ (fun o x => ∃ t, o = some t ∧ S t x) ts xs ∧
        (Tidy ns → ∀ (p : Nat) (n : Node), ns[p]? = some n → hs.Sublist n.children → KeysOf ns hs (xs.flatMap K))
  | [], hs, hr, _ => by
    rw [readsAll_nil hr]
    exact ⟨[], rfl, .nil, fun _ _ _ _ _ => .nil⟩
  | o :: ts, hs, hr, h => by
    obtain ⟨t, rfl, ht⟩ := h o (by simp)
    obtain ⟨c, hs', rfl, hc, h1, h2⟩ := readsAll_some hr
    obtain ⟨x, e, hx, hk⟩ := ht c hc h1
    obtain ⟨xs, es, hxs, hks⟩ := all_ok h2 fun o ho => h o (by simp [ho])
    refine ⟨x :: xs, by simp [all, e, es], .cons ⟨t, rfl, hx⟩ hxs, fun hT p n hn hsub => ?_⟩
    exact KeysOf.append hT hn hsub (hk hT) (hks hT p n hn ((List.sublist_cons_self _ _).trans hsub))

theorem exprsIs {ts : List (Option Tree)} {es : List AExpr}
    (h : List.Forall₂ (fun o x => ∃ t, o = some t ∧ ExprIs t x) ts es) : ExprsIs ts es := by
  induction h with
  | nil => exact .nil
  | cons h _ ih => obtain ⟨t, rfl, h⟩ := h; exact .cons h ih

theorem stmtsIs {ts : List (Option Tree)} {es : List AStmt}
    (h : List.Forall₂ (fun o x => ∃ t, o = some t ∧ StmtIs t x) ts es) : StmtsIs ts es := by
  induction h with
  | nil => exact .nil
  | cons h _ ih => obtain ⟨t, rfl, h⟩ := h; exact .cons h ih

theorem declsIs {ts : List (Option Tree)} {es : List ADecl}
    (h : List.Forall₂ (fun o x => ∃ t, o = some t ∧ DeclIs t x) ts es) : DeclsIs ts es := by
  induction h with
  | nil => exact .nil
  | cons h _ ih => obtain ⟨t, rfl, h⟩ := h; exact .cons h ih

theorem keysEs_eq (es : List AExpr) : Inst.keysEs es = es.flatMap Inst.keysE := by
  induction es with
  | nil => simp [Inst.keysEs]
  | cons e es ih => simp [Inst.keysEs, ih]

theorem keysSs_eq (ss : List AStmt) : Inst.keysSs ss = ss.flatMap Inst.keysS := by
  induction ss with
  | nil => simp [Inst.keysSs]
  | cons e es ih => simp [Inst.keysSs, ih]

/-! ## Expressions -/

theorem exprP_literal {x : List Char} {ty : TokenType} (h : LitIs x ty (literal x ty)) :
    ExprP (.node (.literal x ty) []) := by
  intro ns i hr
  obtain ⟨p, hs, hn, hc⟩ := reads_inv hr
  obtain rfl := readsAll_nil hc
  refine ⟨.literal (key i) none (literal x ty), fun n hi => ?_, .literal h, fun hT => ?_⟩
  · obtain ⟨n, rfl⟩ : ∃ m, n = m + 1 := ⟨n - 1, by omega⟩
    simp [expr, hn]
  · simpa [Inst.keysE] using KeysOf.node hT hn (List.nil_sublist _) (KeysOf.nil (hs := []))

theorem exprP_id {x : List Char} : ExprP (.node (.id_expression x) []) := by
  intro ns i hr
  obtain ⟨p, hs, hn, hc⟩ := reads_inv hr
  obtain rfl := readsAll_nil hc
  refine ⟨.id (key i) none x none false, fun n hi => ?_, .id, fun hT => ?_⟩
  · obtain ⟨n, rfl⟩ : ∃ m, n = m + 1 := ⟨n - 1, by omega⟩
    simp [expr, hn]
  · simpa [Inst.keysE] using KeysOf.node hT hn (List.nil_sublist _) (KeysOf.nil (hs := []))

theorem exprP_conversion {te tt : Tree} (he : ExprP te) (ht : TypeP tt) :
    ExprP (.node .conversion_expression [some te, some tt]) := by
  intro ns i hr
  obtain ⟨p, hs, hn, hc⟩ := reads_inv hr
  obtain ⟨a, _, rfl, ha, hra, hc⟩ := readsAll_some hc
  obtain ⟨b, _, rfl, hb, hrb, hc⟩ := readsAll_some hc
  obtain rfl := readsAll_nil hc
  obtain ⟨e, h1, h2, h3⟩ := he ns a hra
  obtain ⟨ty, h4, h5, h6⟩ := ht ns b hrb
  refine ⟨.conversion (key i) none e ty, fun n hi => ?_, .conversion h2 h5, fun hT => ?_⟩
  · obtain ⟨n, rfl⟩ : ∃ m, n = m + 1 := ⟨n - 1, by omega⟩
    simp [expr, hn, h1 n (by omega), h4 _ (good_expr (show b ≤ n by omega))]
  · exact KeysOf.node hT hn (List.Sublist.refl _)
      (KeysOf.append hT hn (List.Sublist.refl _) (h3 hT) (h6 hT))

theorem exprP_ite {tl tc tr : Tree} (hl : ExprP tl) (hc : ExprP tc) (hr : ExprP tr) :
    ExprP (.node .if_expression [some tl, some tc, some tr]) := by
  intro ns i h
  obtain ⟨p, hs, hn, h⟩ := reads_inv h
  obtain ⟨a, _, rfl, ha, hra, h⟩ := readsAll_some h
  obtain ⟨b, _, rfl, hb, hrb, h⟩ := readsAll_some h
  obtain ⟨c, _, rfl, hc', hrc, h⟩ := readsAll_some h
  obtain rfl := readsAll_nil h
  obtain ⟨l, h1, h2, h3⟩ := hl ns a hra
  obtain ⟨c', h4, h5, h6⟩ := hc ns b hrb
  obtain ⟨r, h7, h8, h9⟩ := hr ns c hrc
  refine ⟨.ite (key i) none l c' r, fun n hi => ?_, .ite h2 h5 h8, fun hT => ?_⟩
  · obtain ⟨n, rfl⟩ : ∃ m, n = m + 1 := ⟨n - 1, by omega⟩
    simp [expr, hn, h1 n (by omega), h4 n (by omega), h7 n (by omega)]
  · refine KeysOf.node hT hn (List.Sublist.refl _) ?_
    exact KeysOf.append (hs := [some a, some b]) hT hn (List.Sublist.refl _)
      (KeysOf.append (hs := [some a]) hT hn (List.sublist_append_left [some a, some b] [some c]) (h3 hT) (h6 hT)) (h9 hT)

theorem exprP_binary {op : TokenType} {o : ExprType} {tl tr : Tree} (ho : binaryType op = .ok o)
    (hs : binaryOperation op = some o) (hl : ExprP tl) (hr : ExprP tr) :
    ExprP (.node (.binary_expression op) [some tl, some tr]) := by
  intro ns i h
  obtain ⟨p, hs', hn, h⟩ := reads_inv h
  obtain ⟨a, _, rfl, ha, hra, h⟩ := readsAll_some h
  obtain ⟨b, _, rfl, hb, hrb, h⟩ := readsAll_some h
  obtain rfl := readsAll_nil h
  obtain ⟨l, h1, h2, h3⟩ := hl ns a hra
  obtain ⟨r, h4, h5, h6⟩ := hr ns b hrb
  refine ⟨.binary (key i) none o l r, fun n hi => ?_, .binary hs h2 h5, fun hT => ?_⟩
  · obtain ⟨n, rfl⟩ : ∃ m, n = m + 1 := ⟨n - 1, by omega⟩
    simp [expr, hn, h1 n (by omega), h4 n (by omega), ho]
  · exact KeysOf.node hT hn (List.Sublist.refl _)
      (KeysOf.append hT hn (List.Sublist.refl _) (h3 hT) (h6 hT))

theorem exprP_prefix {op : TokenType} {o : ExprType} {te : Tree} (ho : unaryType op = .ok o)
    (hs : unaryOperation op = some o) (he : ExprP te) :
    ExprP (.node (.prefix_expression op) [some te]) := by
  intro ns i h
  obtain ⟨p, hs', hn, h⟩ := reads_inv h
  obtain ⟨a, _, rfl, ha, hra, h⟩ := readsAll_some h
  obtain rfl := readsAll_nil h
  obtain ⟨e, h1, h2, h3⟩ := he ns a hra
  refine ⟨.prefix (key i) none o e, fun n hi => ?_, .pre hs h2, fun hT => ?_⟩
  · obtain ⟨n, rfl⟩ : ∃ m, n = m + 1 := ⟨n - 1, by omega⟩
    simp [expr, hn, h1 n (by omega), ho]
  · exact KeysOf.node hT hn (List.Sublist.refl _) (h3 hT)

/-- Calls, as expressions and as statements. -/
theorem call_ok {x : List Char} {st : Bool} {args : List (Option Tree)} {a : Option Tree}
    (h : AllP ExprP args) {i : Nat}
    (hr : Reads ns i (.node (.function_call_expression x st) (args ++ [a]))) :
    ∃ es, (∀ n, i < n → expr ns n i = .ok (.call (key i) none st x none es)) ∧ ExprsIs args es ∧
      (Tidy ns → KeysOf ns [some i] (Inst.keysE (.call (key i) none st x none es))) := by
  obtain ⟨p, hs, hn, hc⟩ := reads_inv hr
  obtain ⟨l, l', rfl, h1, h2⟩ := readsAll_split hc
  obtain ⟨c, _, rfl, -, h2⟩ := readsAll_cons h2
  obtain rfl := readsAll_nil h2
  have key' : ∀ n, i ≤ n → ∃ es, all (expr ns n) l = .ok es ∧
      List.Forall₂ (fun o x => ∃ t, o = some t ∧ (ExprIs t x ∧ ∃ h, h < i ∧ ∀ n, h < n → expr ns n h = .ok x)) args es ∧
      (Tidy ns → ∀ (p : Nat) (n : Node), ns[p]? = some n → l.Sublist n.children → KeysOf ns l (es.flatMap Inst.keysE)) := by
    intro n hin
    refine all_ok h1 fun o ho => ?_
    obtain ⟨t, rfl, ht⟩ := h o ho
    refine ⟨t, rfl, fun h hb hrd => ?_⟩
    obtain ⟨e, h3, h4, h5⟩ := ht ns h hrd
    exact ⟨e, h3 n (by omega), ⟨h4, h, hb, h3⟩, h5⟩
  obtain ⟨es, h3, h4, h5⟩ := key' i (Nat.le_refl _)
  refine ⟨es, fun n hi => ?_, exprsIs (h4.imp fun _ _ ⟨t, e, h, _⟩ => ⟨t, e, h⟩), fun hT => ?_⟩
  · obtain ⟨n, rfl⟩ : ∃ m, n = m + 1 := ⟨n - 1, by omega⟩
    have : all (expr ns n) l = .ok es := by
      clear h5 key' hc hr hn
      revert h3 h1
      generalize hb : i = b
      intro h1 h3
      have hin : b ≤ n := by omega
      clear hi hb
      induction h4 generalizing l with
      | nil =>
        obtain rfl := readsAll_nil h1
        rfl
      | @cons o e ts es hoe _ ih =>
        obtain ⟨t, rfl, -, j, -, -⟩ := hoe
        obtain ⟨c', l', rfl, hc', hrc, h1⟩ := readsAll_some h1
        obtain ⟨e', h6, -, -⟩ := (h (some t) (by simp)).elim fun t' ht' => by
          obtain ⟨e1, h7⟩ := ht'
          cases e1
          exact h7 ns c' hrc
        simp only [all, h6 b hc', Outcome.ok_bind] at h3
        cases h7 : all (expr ns b) l' with
        | err => rw [h7] at h3; cases h3
        | throws => rw [h7] at h3; cases h3
        | ub => rw [h7] at h3; cases h3
        | ok xs =>
          rw [h7] at h3
          simp only [Outcome.ok_bind, Outcome.ok.injEq, List.cons.injEq] at h3
          obtain ⟨rfl, rfl⟩ := h3
          simp [all, h6 n (by omega), ih (fun o ho => h o (by simp [ho])) l' h1 h7]
    simp [expr, hn, this]
  · simp only [Inst.keysE]
    rw [keysEs_eq]
    exact KeysOf.node hT hn (List.sublist_append_left _ _) (h5 hT _ _ hn (List.sublist_append_left _ _))

theorem exprP_call {x : List Char} {args : List (Option Tree)} {a : Option Tree}
    (h : AllP ExprP args) : ExprP (.node (.function_call_expression x false) (args ++ [a])) := by
  intro ns i hr
  obtain ⟨es, h1, h2, h3⟩ := call_ok h hr
  exact ⟨_, h1, .call h2, h3⟩

/-! ## Types -/

theorem typeP_base {ty : TypeType} {b : BaseType} (h : ∀ k, TypeIs (.node (.type ty) [none]) (.base k none b))
    (hb : (ty, b) ∈ [(TypeType.Void, BaseType.void), (.Bool, .bool), (.Int, .int)]) :
    TypeP (.node (.type ty) [none]) := by
  intro ns i hr
  obtain ⟨p, hs, hn, hc⟩ := reads_inv hr
  obtain ⟨_, rfl, hc'⟩ := readsAll_none hc
  obtain rfl := readsAll_nil hc'
  refine ⟨.base (key i) none b, fun f hf => ?_, h _, fun hT => ?_⟩
  · simp only [List.mem_cons, Prod.mk.injEq, List.not_mem_nil, or_false] at hb
    rcases hb with ⟨rfl, rfl⟩ | ⟨rfl, rfl⟩ | ⟨rfl, rfl⟩ <;> simp [typeWith, hn]
  · simpa [Inst.keysT] using KeysOf.node hT hn (List.nil_sublist _) (KeysOf.nil (hs := []))

theorem typeP_uint {te : Tree} (he : ExprP te) : TypeP (.node (.type .Uint) [some te]) := by
  intro ns i h
  obtain ⟨p, hs', hn, h⟩ := reads_inv h
  obtain ⟨a, _, rfl, ha, hra, h⟩ := readsAll_some h
  obtain rfl := readsAll_nil h
  obtain ⟨e, h1, h2, h3⟩ := he ns a hra
  refine ⟨.uint (key i) none none e, fun f hf => ?_, .uint h2, fun hT => ?_⟩
  · simp [typeWith, hn, hf a ha e h1]
  · exact KeysOf.node hT hn (List.Sublist.refl _) (h3 hT)

theorem typeAt_ok {t : Tree} (ht : TypeP t) {h : Nat} (hr : Reads ns h t) :
    ∃ ty, typeAt ns h = .ok ty ∧ TypeIs t ty ∧ (Tidy ns → KeysOf ns [some h] (Inst.keysT ty)) := by
  obtain ⟨ty, h1, h2, h3⟩ := ht ns h hr
  exact ⟨ty, h1 _ good_exprAt, h2, h3⟩

theorem exprAt_ok {t : Tree} (ht : ExprP t) {h : Nat} (hr : Reads ns h t) :
    ∃ e, exprAt ns h = .ok e ∧ ExprIs t e ∧ (Tidy ns → KeysOf ns [some h] (Inst.keysE e)) := by
  obtain ⟨e, h1, h2, h3⟩ := ht ns h hr
  exact ⟨e, h1 _ (by omega), h2, h3⟩

theorem optional_ok {α : Type} {f : Nat → Outcome Unit α} {S : Tree → α → Prop} {K : α → List Key}
    {b : Nat} {c : Handle} {o : Option Tree} (hr : ReadsO ns b c o)
    (h : ∀ t ∈ o, ∀ h, Reads ns h t → ∃ x, f h = .ok x ∧ S t x ∧ (Tidy ns → KeysOf ns [some h] (K x))) :
    ∃ x, optional f c = .ok x ∧ OptIs S o x ∧ (Tidy ns → KeysOf ns [c] (Inst.keysO K x)) := by
  cases c with
  | none =>
    cases o with
    | none => exact ⟨none, rfl, .none, fun _ => .nil⟩
    | some t => exact hr.elim
  | some c =>
    cases o with
    | none => exact hr.elim
    | some t =>
      obtain ⟨x, h1, h2, h3⟩ := h t rfl c hr.2
      exact ⟨some x, by simp [optional, h1], .some h2, h3⟩

/-! ## Statements -/

theorem sublist2 {a b c : Handle} : ([b] ++ [c]).Sublist [a, b, c] := List.sublist_cons_self _ _

/-- What a constant is made from. -/
theorem const_parts {x : List Char} {a tt : Option Tree} {te : Tree} (ht : ∀ t ∈ tt, TypeP t)
    (he : ExprP te) {i : Nat} (hr : Reads ns i (.node (.const x) [a, tt, some te])) :
    ∃ p ha hty hi ty e, ns[i]? = some ⟨p, .const x, [ha, hty, some hi]⟩ ∧
      optional (typeAt ns) hty = .ok ty ∧ exprAt ns hi = .ok e ∧ OptIs TypeIs tt ty ∧ ExprIs te e ∧
      (Tidy ns → KeysOf ns [some i] (key i :: (Inst.keysO Inst.keysT ty ++ Inst.keysE e))) := by
  obtain ⟨p, hs', hn, h⟩ := reads_inv hr
  obtain ⟨ha, _, rfl, -, h⟩ := readsAll_cons h
  obtain ⟨hty, _, rfl, hrt, h⟩ := readsAll_cons h
  obtain ⟨hi, _, rfl, _, hri, h⟩ := readsAll_some h
  obtain rfl := readsAll_nil h
  obtain ⟨ty, h1, h2, h3⟩ := optional_ok hrt fun t htt h hr => typeAt_ok (ht t htt) hr
  obtain ⟨e, h4, h5, h6⟩ := exprAt_ok he hri
  exact ⟨p, ha, hty, hi, ty, e, hn, h1, h4, h2, h5, fun hT =>
    KeysOf.node hT hn (List.sublist_cons_self _ _) (KeysOf.append hT hn (List.sublist_cons_self _ _) (h3 hT) (h6 hT))⟩

theorem stmtP_const {x : List Char} {a tt : Option Tree} {te : Tree} (ht : ∀ t ∈ tt, TypeP t)
    (he : ExprP te) : StmtP (.node (.const x) [a, tt, some te]) := by
  intro ns i hr
  obtain ⟨p, ha, hty, hi, ty, e, hn, h1, h2, h3, h4, h5⟩ := const_parts ht he hr
  refine ⟨.const_ (key i) none x ty e, fun n hi => ?_, .const_ h3 h4, h5⟩
  obtain ⟨n, rfl⟩ : ∃ m, n = m + 1 := ⟨n - 1, by omega⟩
  simp [stmt, hn, h1, h2]

theorem declP_const {x : List Char} {a tt : Option Tree} {te : Tree} (ht : ∀ t ∈ tt, TypeP t)
    (he : ExprP te) : DeclP (.node (.const x) [a, tt, some te]) := by
  intro ns i hr
  obtain ⟨p, ha, hty, hi, ty, e, hn, h1, h2, h3, h4, h5⟩ := const_parts ht he hr
  refine ⟨.const_ (key i) none x ty e, ?_, .const_ h3 h4, h5⟩
  simp [decl, hn, h1, h2]

theorem stmtP_let {x : List Char} {a tt te : Option Tree} (ht : ∀ t ∈ tt, TypeP t)
    (he : ∀ t ∈ te, ExprP t) : StmtP (.node (.let x) [a, tt, te]) := by
  intro ns i hr
  obtain ⟨p, hs', hn, h⟩ := reads_inv hr
  obtain ⟨ha, _, rfl, -, h⟩ := readsAll_cons h
  obtain ⟨hty, _, rfl, hrt, h⟩ := readsAll_cons h
  obtain ⟨hi, _, rfl, hri, h⟩ := readsAll_cons h
  obtain rfl := readsAll_nil h
  obtain ⟨ty, h1, h2, h3⟩ := optional_ok hrt fun t htt h hr => typeAt_ok (ht t htt) hr
  obtain ⟨e, h4, h5, h6⟩ := optional_ok hri fun t htt h hr => exprAt_ok (he t htt) hr
  refine ⟨.let_ (key i) none x ty e, fun n hi => ?_, .let_ h2 h5, fun hT =>
    KeysOf.node hT hn (List.sublist_cons_self _ _) (KeysOf.append hT hn (List.sublist_cons_self _ _) (h3 hT) (h6 hT))⟩
  obtain ⟨n, rfl⟩ : ∃ m, n = m + 1 := ⟨n - 1, by omega⟩
  simp [stmt, hn, h1, h4]

/-- What a static assertion is made from. -/
theorem staticAssert_parts {te : Tree} (he : ExprP te) {i : Nat}
    (hr : Reads ns i (.node .static_assert [some te])) :
    ∃ p h e, ns[i]? = some ⟨p, .static_assert, [some h]⟩ ∧ exprAt ns h = .ok e ∧ ExprIs te e ∧
      (Tidy ns → KeysOf ns [some i] (key i :: Inst.keysE e)) := by
  obtain ⟨p, hs', hn, h⟩ := reads_inv hr
  obtain ⟨hi, _, rfl, _, hri, h⟩ := readsAll_some h
  obtain rfl := readsAll_nil h
  obtain ⟨e, h4, h5, h6⟩ := exprAt_ok he hri
  exact ⟨p, hi, e, hn, h4, h5, fun hT => KeysOf.node hT hn (List.Sublist.refl _) (h6 hT)⟩

theorem stmtP_staticAssert {te : Tree} (he : ExprP te) : StmtP (.node .static_assert [some te]) := by
  intro ns i hr
  obtain ⟨p, h, e, hn, h1, h2, h3⟩ := staticAssert_parts he hr
  refine ⟨.staticAssert (key i) none e, fun n hi => ?_, .staticAssert h2, h3⟩
  obtain ⟨n, rfl⟩ : ∃ m, n = m + 1 := ⟨n - 1, by omega⟩
  simp [stmt, hn, h1]

theorem declP_staticAssert {te : Tree} (he : ExprP te) : DeclP (.node .static_assert [some te]) := by
  intro ns i hr
  obtain ⟨p, h, e, hn, h1, h2, h3⟩ := staticAssert_parts he hr
  refine ⟨.staticAssert (key i) none e, ?_, .staticAssert h2, h3⟩
  simp [decl, hn, h1]

theorem stmtP_ifThen {a : Option Tree} {tc tt : Tree} (hc : ExprP tc) (ht : StmtP tt) :
    StmtP (.node .if_statement [a, some tc, some tt, none]) := by
  intro ns i hr
  obtain ⟨p, hs', hn, h⟩ := reads_inv hr
  obtain ⟨ha, _, rfl, -, h⟩ := readsAll_cons h
  obtain ⟨c, _, rfl, hc', hrc, h⟩ := readsAll_some h
  obtain ⟨t, _, rfl, ht', hrt, h⟩ := readsAll_some h
  obtain ⟨_, rfl, h'⟩ := readsAll_none h
  obtain rfl := readsAll_nil h'
  obtain ⟨e, h1, h2, h3⟩ := exprAt_ok hc hrc
  obtain ⟨s, h4, h5, h6⟩ := ht ns t hrt
  have hsub : ([some c] ++ [some t]).Sublist [ha, some c, some t, none] :=
    (List.sublist_append_left _ [none]).trans (List.sublist_cons_self _ _)
  refine ⟨.ifThen (key i) none e s, fun n hi => ?_, .ifThen h2 h5, fun hT =>
    KeysOf.node hT hn hsub (KeysOf.append hT hn hsub (h3 hT) (h6 hT))⟩
  obtain ⟨n, rfl⟩ : ∃ m, n = m + 1 := ⟨n - 1, by omega⟩
  simp [stmt, hn, h1, h4 n (by omega)]

theorem stmtP_ifElse {a : Option Tree} {tc tt te : Tree} (hc : ExprP tc) (ht : StmtP tt) (he : StmtP te) :
    StmtP (.node .if_statement [a, some tc, some tt, some te]) := by
  intro ns i hr
  obtain ⟨p, hs', hn, h⟩ := reads_inv hr
  obtain ⟨ha, _, rfl, -, h⟩ := readsAll_cons h
  obtain ⟨c, _, rfl, hc', hrc, h⟩ := readsAll_some h
  obtain ⟨t, _, rfl, ht', hrt, h⟩ := readsAll_some h
  obtain ⟨e, _, rfl, he', hre, h⟩ := readsAll_some h
  obtain rfl := readsAll_nil h
  obtain ⟨c', h1, h2, h3⟩ := exprAt_ok hc hrc
  obtain ⟨s, h4, h5, h6⟩ := ht ns t hrt
  obtain ⟨s', h7, h8, h9⟩ := he ns e hre
  have hsub : ([some c, some t] ++ [some e]).Sublist [ha, some c, some t, some e] :=
    List.sublist_cons_self _ _
  refine ⟨.ifElse (key i) none c' s s', fun n hi => ?_, .ifElse h2 h5 h8, fun hT =>
    KeysOf.node hT hn hsub (KeysOf.append hT hn hsub (KeysOf.append (hs := [some c]) hT hn
      ((List.sublist_append_left [some c, some t] [some e]).trans hsub) (h3 hT) (h6 hT)) (h9 hT))⟩
  obtain ⟨n, rfl⟩ : ∃ m, n = m + 1 := ⟨n - 1, by omega⟩
  simp [stmt, hn, h1, h4 n (by omega), h7 n (by omega)]

theorem stmtP_while {a : Option Tree} {tc tt : Tree} (hc : ExprP tc) (ht : StmtP tt) :
    StmtP (.node .while_statement [a, some tc, some tt]) := by
  intro ns i hr
  obtain ⟨p, hs', hn, h⟩ := reads_inv hr
  obtain ⟨ha, _, rfl, -, h⟩ := readsAll_cons h
  obtain ⟨c, _, rfl, hc', hrc, h⟩ := readsAll_some h
  obtain ⟨t, _, rfl, ht', hrt, h⟩ := readsAll_some h
  obtain rfl := readsAll_nil h
  obtain ⟨e, h1, h2, h3⟩ := exprAt_ok hc hrc
  obtain ⟨s, h4, h5, h6⟩ := ht ns t hrt
  refine ⟨.while_ (key i) none e s, fun n hi => ?_, .while_ h2 h5, fun hT =>
    KeysOf.node hT hn (List.sublist_cons_self _ _) (KeysOf.append hT hn (List.sublist_cons_self _ _) (h3 hT) (h6 hT))⟩
  obtain ⟨n, rfl⟩ : ∃ m, n = m + 1 := ⟨n - 1, by omega⟩
  simp [stmt, hn, h1, h4 n (by omega)]

theorem stmtP_break : StmtP (.node .break []) := by
  intro ns i hr
  obtain ⟨p, hs', hn, h⟩ := reads_inv hr
  obtain rfl := readsAll_nil h
  refine ⟨.control (key i) none .break_ none, fun n hi => ?_, .break_, fun hT => ?_⟩
  · obtain ⟨n, rfl⟩ : ∃ m, n = m + 1 := ⟨n - 1, by omega⟩
    simp [stmt, hn]
  · simpa [Inst.keysS, Inst.keysO] using KeysOf.node hT hn (List.nil_sublist _) (KeysOf.nil (hs := []))

theorem stmtP_continue : StmtP (.node .continue []) := by
  intro ns i hr
  obtain ⟨p, hs', hn, h⟩ := reads_inv hr
  obtain rfl := readsAll_nil h
  refine ⟨.control (key i) none .continue_ none, fun n hi => ?_, .continue_, fun hT => ?_⟩
  · obtain ⟨n, rfl⟩ : ∃ m, n = m + 1 := ⟨n - 1, by omega⟩
    simp [stmt, hn]
  · simpa [Inst.keysS, Inst.keysO] using KeysOf.node hT hn (List.nil_sublist _) (KeysOf.nil (hs := []))

theorem stmtP_return {te : Option Tree} (he : ∀ t ∈ te, ExprP t) :
    StmtP (.node .return_statement [te]) := by
  intro ns i hr
  obtain ⟨p, hs', hn, h⟩ := reads_inv hr
  obtain ⟨hi, _, rfl, hri, h⟩ := readsAll_cons h
  obtain rfl := readsAll_nil h
  obtain ⟨e, h4, h5, h6⟩ := optional_ok hri fun t htt h hr => exprAt_ok (he t htt) hr
  refine ⟨.control (key i) none .return_ e, fun n hi => ?_, .return_ h5, fun hT =>
    KeysOf.node hT hn (List.Sublist.refl _) (h6 hT)⟩
  obtain ⟨n, rfl⟩ : ∃ m, n = m + 1 := ⟨n - 1, by omega⟩
  simp [stmt, hn, h4]

theorem stmtP_assign {x : List Char} {a : Option Tree} {te : Tree} (he : ExprP te) :
    StmtP (.node (.assignment x) [a, some te]) := by
  intro ns i hr
  obtain ⟨p, hs', hn, h⟩ := reads_inv hr
  obtain ⟨ha, _, rfl, -, h⟩ := readsAll_cons h
  obtain ⟨c, _, rfl, hc', hrc, h⟩ := readsAll_some h
  obtain rfl := readsAll_nil h
  obtain ⟨e, h1, h2, h3⟩ := exprAt_ok he hrc
  refine ⟨.assign (key i) none x none e, fun n hi => ?_, .assign h2, fun hT =>
    KeysOf.node hT hn (List.sublist_cons_self _ _) (h3 hT)⟩
  obtain ⟨n, rfl⟩ : ∃ m, n = m + 1 := ⟨n - 1, by omega⟩
  simp [stmt, hn, h1]

theorem stmtP_call {x : List Char} {args : List (Option Tree)} {a : Option Tree}
    (h : AllP ExprP args) : StmtP (.node (.function_call_expression x true) (args ++ [a])) := by
  intro ns i hr
  obtain ⟨p, hs, hn, -⟩ := reads_inv hr
  obtain ⟨es, h1, h2, h3⟩ := call_ok h hr
  refine ⟨.call (.call (key i) none true x none es), fun n hi => ?_, .call h2, h3⟩
  obtain ⟨n, rfl⟩ : ∃ m, n = m + 1 := ⟨n - 1, by omega⟩
  simp [stmt, hn, exprAt, h1 (i + 1) (by omega)]

/-- The statements in a block. -/
theorem stmts_ok {ts : List (Option Tree)} (h : AllP StmtP ts) {b : Nat} {hs : List Handle}
    (hr : ReadsAll ns b hs ts) : ∃ ss, (∀ n, b ≤ n → all (stmt ns n) hs = .ok ss) ∧ StmtsIs ts ss ∧
      (Tidy ns → ∀ (p : Nat) (n : Node), ns[p]? = some n → hs.Sublist n.children → KeysOf ns hs (Inst.keysSs ss)) := by
  induction ts generalizing hs with
  | nil =>
    obtain rfl := readsAll_nil hr
    exact ⟨[], fun _ _ => rfl, .nil, fun _ _ _ _ _ => by rw [Inst.keysSs]; exact .nil⟩
  | cons o ts ih =>
    obtain ⟨t, rfl, ht⟩ := h o (by simp)
    obtain ⟨c, hs', rfl, hc, h1, h2⟩ := readsAll_some hr
    obtain ⟨s, e, hx, hk⟩ := ht ns c h1
    obtain ⟨ss, es, hxs, hks⟩ := ih (fun o ho => h o (by simp [ho])) h2
    refine ⟨s :: ss, fun n hn => by simp [all, e n (by omega), es n hn], .cons hx hxs, fun hT p n hn hsub => ?_⟩
    rw [Inst.keysSs]
    exact KeysOf.append hT hn hsub (hk hT) (hks hT p n hn ((List.sublist_cons_self _ _).trans hsub))

/-- A block of statements. -/
def BlockP (t : Tree) : Prop := ∃ ts, t = .node .block_statement ts ∧ AllP StmtP ts

theorem BlockP.stmtP {t : Tree} (h : BlockP t) : StmtP t := by
  obtain ⟨ts, rfl, h⟩ := h
  intro ns i hr
  obtain ⟨p, hs', hn, hr⟩ := reads_inv hr
  obtain ⟨ss, h1, h2, h3⟩ := stmts_ok h hr
  refine ⟨.block (key i) none ss, fun n hi => ?_, .block h2, fun hT =>
    KeysOf.node hT hn (List.Sublist.refl _) (h3 hT _ _ hn (List.Sublist.refl _))⟩
  obtain ⟨n, rfl⟩ : ∃ m, n = m + 1 := ⟨n - 1, by omega⟩
  simp [stmt, hn, h1 n (by omega)]

/-! ## Functions and programs -/

theorem paramP {x : List Char} {tt : Tree} (h : TypeP tt) : ParamP (.node (.parameter x) [some tt]) := by
  refine ⟨x, tt, rfl, fun ns i hr => ?_⟩
  obtain ⟨p, hs', hn, hr⟩ := reads_inv hr
  obtain ⟨c, _, rfl, hc', hrc, hr⟩ := readsAll_some hr
  obtain rfl := readsAll_nil hr
  obtain ⟨ty, h1, h2, h3⟩ := typeAt_ok h hrc
  exact ⟨key i, ty, by simp [param, hn, h1], h2, fun hT => KeysOf.node hT hn (List.Sublist.refl _) (h3 hT)⟩

/-- The parameters of a function. -/
def ParamListP (o : Option Tree) : Prop := ∀ t ∈ o, ∃ ts, t = .node .parameter_list ts ∧ AllP ParamP ts

/-- The keys of parameters. -/
def paramKeys (ps : List AParam) : List Key := ps.flatMap fun p => p.k :: Inst.keysT p.type

theorem paramKeys_perm (ps : List AParam) :
    (paramKeys ps).Perm (ps.flatMap (fun p => Inst.keysT p.type) ++ ps.map AParam.k) := by
  induction ps with
  | nil => simp [paramKeys]
  | cons p ps ih =>
    simp only [paramKeys, List.flatMap_cons, List.map_cons, List.cons_append, List.append_assoc] at ih ⊢
    refine (List.Perm.cons _ ((List.Perm.append_left _ ih))).trans ?_
    rw [← List.append_assoc, ← List.append_assoc]
    exact List.perm_middle.symm

theorem paramList_ok {b : Nat} {c : Handle} {o : Option Tree} (h : ParamListP o) (hr : ReadsO ns b c o) :
    ∃ ps, params ns c = .ok ps ∧ ParamListIs o ps ∧ (Tidy ns → KeysOf ns [c] (paramKeys ps)) := by
  cases c with
  | none =>
    cases o with
    | none => exact ⟨[], rfl, .none, fun _ => .nil⟩
    | some t => exact hr.elim
  | some c =>
    cases o with
    | none => exact hr.elim
    | some t =>
      obtain ⟨ts, rfl, hP⟩ := h t rfl
      obtain ⟨p, hs, hn, hr'⟩ := reads_inv hr.2
      have : ∃ xs, all (param ns) hs = .ok xs ∧ List.Forall₂ (fun o x => ∃ t, o = some t ∧
          (∃ tt, t = .node (.parameter x.name) [some tt] ∧ TypeIs tt x.type)) ts xs ∧
          (Tidy ns → ∀ (p : Nat) (n : Node), ns[p]? = some n → hs.Sublist n.children →
            KeysOf ns hs (xs.flatMap fun p => p.k :: Inst.keysT p.type)) := by
        refine all_ok hr' fun o ho => ?_
        obtain ⟨t, rfl, x, tt, rfl, ht⟩ := hP o ho
        refine ⟨_, rfl, fun i _ hri => ?_⟩
        obtain ⟨k, ty, h1, h2, h3⟩ := ht ns i hri
        exact ⟨_, h1, ⟨tt, rfl, h2⟩, h3⟩
      obtain ⟨ps, h1, h2, h3⟩ := this
      refine ⟨ps, by simp [params, hn, h1], .some ?_, fun hT =>
        KeysOf.below hn (List.Sublist.refl _) (h3 hT _ _ hn (List.Sublist.refl _))⟩
      clear h1 h3 h hP hr hr' hn
      induction h2 with
      | nil => exact .nil
      | cons h _ ih =>
        obtain ⟨t, rfl, tt, rfl, h⟩ := h
        exact .cons h ih

theorem declP_function {x : List Char} {a tps tq : Option Tree} {tr tb : Tree} (hps : ParamListP tps)
    (hr : TypeP tr) (hq : ∀ t ∈ tq, ExprP t) (hb : BlockP tb) :
    DeclP (.node (.function x) [a, tps, some tr, tq, some tb]) := by
  obtain ⟨ts, rfl, hb⟩ := hb
  intro ns i h
  obtain ⟨p, hs', hn, h⟩ := reads_inv h
  obtain ⟨ha, _, rfl, -, h⟩ := readsAll_cons h
  obtain ⟨hp, _, rfl, hrp, h⟩ := readsAll_cons h
  obtain ⟨r, _, rfl, _, hrr, h⟩ := readsAll_some h
  obtain ⟨q, _, rfl, hrq, h⟩ := readsAll_cons h
  obtain ⟨b, _, rfl, hb', hrb, h⟩ := readsAll_some h
  obtain rfl := readsAll_nil h
  obtain ⟨pb, hsb, hnb, hrb⟩ := reads_inv hrb
  obtain ⟨ps, h1, h2, h3⟩ := paramList_ok hps hrp
  obtain ⟨ret, h4, h5, h6⟩ := typeAt_ok hr hrr
  obtain ⟨req, h7, h8, h9⟩ := optional_ok hrq fun t htt h hr => exprAt_ok (hq t htt) hr
  obtain ⟨ss, h10, h11, h12⟩ := stmts_ok hb hrb
  refine ⟨.function ⟨key i, none, x, ps, ret, req, key b, ss, [], false, none, .unanalyzed⟩, ?_,
    .function (.mk h2 h5 h8 h11), fun hT => ?_⟩
  · simp [decl, function, hn, h1, h4, h7, hnb, h10 b (Nat.le_refl _)]
  · have hsub : ((([hp] ++ [some r]) ++ [q]) ++ [some b]).Sublist [ha, hp, some r, q, some b] :=
      List.sublist_cons_self _ _
    have k1 := KeysOf.append hT hn ((List.sublist_append_left _ _).trans ((List.sublist_append_left _ _).trans hsub))
      (h3 hT) (h6 hT)
    have k2 := KeysOf.append hT hn ((List.sublist_append_left _ _).trans hsub) k1 (h9 hT)
    have k3 := KeysOf.append hT hn hsub k2
      (KeysOf.node hT hnb (List.Sublist.refl _) (h12 hT _ _ hnb (List.Sublist.refl _)))
    have k4 := KeysOf.node hT hn hsub k3
    refine k4.perm ?_
    simp only [nodeKeys, Inst.keys, List.cons_append, List.append_assoc]
    refine List.Perm.cons _ ?_
    refine ((paramKeys_perm ps).append_right _).trans ?_
    rw [List.append_assoc]
    refine List.Perm.append_left _ ?_
    refine List.perm_append_comm.trans ?_
    simp

theorem program_ok {ts : List (Option Tree)} (h : AllP DeclP ts) {i : Nat}
    (hr : Reads ns i (.node .program ts)) : ∃ ds, program ns i = .ok ds ∧
      ProgramIs (.node .program ts) ds ∧ (Tidy ns → KeysOf ns [some i] (ds.flatMap nodeKeys)) := by
  obtain ⟨p, hs, hn, hr⟩ := reads_inv hr
  have : ∃ xs, all (decl ns) hs = .ok xs ∧ List.Forall₂ (fun o x => ∃ t, o = some t ∧ DeclIs t x) ts xs ∧
      (Tidy ns → ∀ (p : Nat) (n : Node), ns[p]? = some n → hs.Sublist n.children → KeysOf ns hs (xs.flatMap nodeKeys)) := by
    refine all_ok hr fun o ho => ?_
    obtain ⟨t, rfl, ht⟩ := h o ho
    exact ⟨t, rfl, fun i _ hri => ht ns i hri⟩
  obtain ⟨ds, h1, h2, h3⟩ := this
  exact ⟨ds, by simp [program, hn, h1], .mk (declsIs h2), fun hT =>
    KeysOf.below hn (List.Sublist.refl _) (h3 hT _ _ hn (List.Sublist.refl _))⟩

/-! ## Trees of the grammar -/

/-- What is known about the trees that a nonterminal stands for. -/
def Made : Sym → List (Option Tree) → Prop
  | .primary | .parenthesized | .postfix | .prefix | .arithmetic | .comparison | .binary
  | .ifExpression | .conversion | .expression | .initializer => OneP ExprP
  | .optArguments | .arguments => AllP ExprP
  | .call => fun ts => ∃ x args a,
      ts = [some (.node (.function_call_expression x false) (args ++ [a]))] ∧ AllP ExprP args
  | .type => OneP TypeP
  | .optType => OptP TypeP
  | .optAnnotations => fun ts => ∃ a, ts = [a]
  | .annotations | .annotation | .annotationArguments | .annotationArgument => fun _ => True
  | .const_ | .static_assert => OneP fun t => StmtP t ∧ DeclP t
  | .let_ | .statement | .if_ => OneP StmtP
  | .function | .declaration => OneP DeclP
  | .declarations => AllP DeclP
  | .program => OneP fun t => ∃ ts, t = .node .program ts ∧ AllP DeclP ts
  | .optParameters => fun ts => ∃ o, ts = [o] ∧ ParamListP o
  | .parameters | .parameter => AllP ParamP
  | .optRequires => OptP ExprP
  | .optElse => OptP StmtP
  | .block => OneP BlockP
  | .statements => AllP StmtP

theorem OneP.all {P : Tree → Prop} {ts : List (Option Tree)} (h : OneP P ts) : AllP P ts := by
  obtain ⟨t, rfl, h⟩ := h
  intro o ho
  exact ⟨t, by simpa using ho, h⟩

theorem OneP.opt {P : Tree → Prop} {ts : List (Option Tree)} (h : OneP P ts) : OptP P ts := by
  obtain ⟨t, rfl, h⟩ := h
  exact ⟨some t, rfl, fun t' ht => by cases ht; exact h⟩

theorem OneP.imp {P Q : Tree → Prop} {ts : List (Option Tree)} (h : OneP P ts) (hi : ∀ t, P t → Q t) :
    OneP Q ts := by
  obtain ⟨t, e, h⟩ := h
  exact ⟨t, e, hi t h⟩

theorem AllP.append {P : Tree → Prop} {ts ts' : List (Option Tree)} (h : AllP P ts) (h' : AllP P ts') :
    AllP P (ts ++ ts') := fun o ho => (List.mem_append.mp ho).elim (h o) (h' o)

theorem AllP.nil {P : Tree → Prop} : AllP P [] := fun _ h => by cases h

theorem OptP.null {P : Tree → Prop} : OptP P [none] := ⟨none, rfl, fun _ h => by cases h⟩

theorem binaryType_ok {op : TokenType} (h : op ∈ binaryOperators) (hg : op ≠ .greater_or_equal) :
    ∃ o, binaryType op = .ok o ∧ binaryOperation op = some o := by
  revert h hg
  cases op <;> simp [binaryOperators, arithmeticOperators, comparisonOperators, logicalOperators,
    bitwiseOperators, binaryType, binaryOperation]

theorem unaryType_ok {op : TokenType} (h : op ∈ unaryOperators) :
    ∃ o, unaryType op = .ok o ∧ unaryOperation op = some o := by
  revert h
  cases op <;> simp [unaryOperators, unaryType, unaryOperation]

theorem one_binary {op : TokenType} {l r : List (Option Tree)} (ho : op ∈ binaryOperators)
    (hg : op ≠ .greater_or_equal) (hl : OneP ExprP l) (hr : OneP ExprP r) :
    OneP ExprP [some (.node (.binary_expression op) (l ++ r))] := by
  obtain ⟨tl, rfl, hl⟩ := hl
  obtain ⟨tr, rfl, hr⟩ := hr
  obtain ⟨o, h1, h2⟩ := binaryType_ok ho hg
  exact ⟨_, rfl, exprP_binary h1 h2 hl hr⟩

theorem litIs_integer {x : List Char} {t : TokenType} (h : t ∈ integerLiterals) :
    LitIs x t (literal x t) := by
  have e : literal x t = some (.integer x) := by
    revert h
    cases t <;> simp [integerLiterals, literal]
  rw [e]
  exact .integer h

theorem litIs_boolean {x : List Char} {t : TokenType} (h : t ∈ booleanLiterals) :
    LitIs x t (literal x t) := by
  revert h
  cases t <;> simp [booleanLiterals, literal] <;> constructor

/-- Programs without `>=` are made from the trees that the grammar gives to them. -/
theorem made {lenient : Bool} {sym : Sym} {w : List Terminal} {ts : List (Option Tree)}
    (h : Derives lenient sym w ts) (hg : ∀ x ∈ w, x.1 ≠ .greater_or_equal) : Made sym ts := by
  induction h with
  | integer h => exact ⟨_, rfl, exprP_literal (litIs_integer h)⟩
  | boolean h => exact ⟨_, rfl, exprP_literal (litIs_boolean h)⟩
  | string h => exact ⟨_, rfl, exprP_literal .string⟩
  | id => exact ⟨_, rfl, exprP_id⟩
  | paren _ ih => exact ih hg
  | parenthesized _ ih => exact ih fun x hx => hg x (by simp [hx])
  | noArguments => exact AllP.nil
  | someArguments _ ih => exact ih hg
  | argument _ ih => exact OneP.all (ih hg)
  | argumentsComma _ _ ih ih' =>
    exact (OneP.all (ih fun x hx => hg x (by simp [hx]))).append (ih' fun x hx => hg x (by simp [hx]))
  | argumentsNoComma _ _ _ ih ih' =>
    exact (OneP.all (ih fun x hx => hg x (by simp [hx]))).append (ih' fun x hx => hg x (by simp [hx]))
  | call _ _ ih ih' =>
    obtain ⟨a, rfl⟩ := ih' fun x hx => hg x (by simp [hx])
    exact ⟨_, _, a, rfl, ih fun x hx => hg x (by simp [hx])⟩
  | callPostfix _ ih =>
    obtain ⟨x, args, a, rfl, h⟩ := ih hg
    exact ⟨_, rfl, exprP_call h⟩
  | primary _ ih => exact ih hg
  | unary ho _ ih =>
    obtain ⟨t, rfl, h⟩ := ih fun x hx => hg x (by simp [hx])
    obtain ⟨o, h1, h2⟩ := unaryType_ok ho
    exact ⟨_, rfl, exprP_prefix h1 h2 h⟩
  | prefixPostfix _ ih => exact ih hg
  | arithmetic ho _ _ ih ih' =>
    exact one_binary (by simp only [binaryOperators, List.mem_append]; simp [ho]) (hg _ (by simp; right; left; rfl))
      (ih fun x hx => hg x (by simp [hx])) (ih' fun x hx => hg x (by simp [hx]))
  | arithmeticPrefix _ ih => exact ih hg
  | comparison ho _ _ ih ih' =>
    exact one_binary (by simp only [binaryOperators, List.mem_append]; simp [ho]) (hg _ (by simp; right; left; rfl))
      (ih fun x hx => hg x (by simp [hx])) (ih' fun x hx => hg x (by simp [hx]))
  | binaryComparison _ ih => exact ih hg
  | binary ho _ _ ih ih' =>
    exact one_binary ho (hg _ (by simp; right; left; rfl))
      (ih fun x hx => hg x (by simp [hx])) (ih' fun x hx => hg x (by simp [hx]))
  | binaryPrefix _ ih => exact ih hg
  | ifExpression _ _ _ ih1 ih2 ih3 =>
    obtain ⟨tl, rfl, hl⟩ := ih1 fun x hx => hg x (by simp [hx])
    obtain ⟨tc, rfl, hc⟩ := ih2 fun x hx => hg x (by simp [hx])
    obtain ⟨tr, rfl, hr⟩ := ih3 fun x hx => hg x (by simp [hx])
    exact ⟨_, rfl, exprP_ite hl hc hr⟩
  | ifBinary _ ih => exact ih hg
  | conversion _ _ ih ih' =>
    obtain ⟨te, rfl, he⟩ := ih fun x hx => hg x (by simp [hx])
    obtain ⟨tt, rfl, ht⟩ := ih' fun x hx => hg x (by simp [hx])
    exact ⟨_, rfl, exprP_conversion he ht⟩
  | expressionConversion _ ih => exact ih hg
  | expressionIf _ ih => exact ih hg
  | typeVoid => exact ⟨_, rfl, typeP_base (fun _ => .void) (by simp)⟩
  | typeBool => exact ⟨_, rfl, typeP_base (fun _ => .bool) (by simp)⟩
  | typeInt => exact ⟨_, rfl, typeP_base (fun _ => .int) (by simp)⟩
  | typeUint _ ih =>
    obtain ⟨t, rfl, h⟩ := ih fun x hx => hg x (by simp [hx])
    exact ⟨_, rfl, typeP_uint h⟩
  | noType => exact OptP.null
  | someType _ ih => exact OneP.opt (ih fun x hx => hg x (by simp [hx]))
  | noAnnotations => exact ⟨_, rfl⟩
  | someAnnotations => exact ⟨_, rfl⟩
  | lastAnnotation => trivial
  | annotations => trivial
  | annotation => trivial
  | annotationEmpty => trivial
  | annotationArgs => trivial
  | annotationArgument => trivial
  | annotationArguments => trivial
  | argumentValue => trivial
  | argumentString => trivial
  | keyValue => trivial
  | keyString => trivial
  | initializer _ ih => exact ih fun x hx => hg x (by simp [hx])
  | const _ _ _ ih1 ih2 ih3 =>
    obtain ⟨a, rfl⟩ := ih1 fun x hx => hg x (by simp [hx])
    obtain ⟨tt, rfl, ht⟩ := ih2 fun x hx => hg x (by simp [hx])
    obtain ⟨te, rfl, he⟩ := ih3 fun x hx => hg x (by simp [hx])
    exact ⟨_, rfl, stmtP_const ht he, declP_const ht he⟩
  | letType _ _ ih1 ih2 =>
    obtain ⟨a, rfl⟩ := ih1 fun x hx => hg x (by simp [hx])
    obtain ⟨tt, rfl, ht⟩ := ih2 fun x hx => hg x (by simp [hx])
    exact ⟨_, rfl, stmtP_let (by rintro t ⟨⟩; exact ht) (by rintro t ⟨⟩)⟩
  | letInit _ _ _ ih1 ih2 ih3 =>
    obtain ⟨a, rfl⟩ := ih1 fun x hx => hg x (by simp [hx])
    obtain ⟨tt, rfl, ht⟩ := ih2 fun x hx => hg x (by simp [hx])
    obtain ⟨te, rfl, he⟩ := ih3 fun x hx => hg x (by simp [hx])
    exact ⟨_, rfl, stmtP_let ht (by rintro t ⟨⟩; exact he)⟩
  | staticAssert _ ih =>
    obtain ⟨te, rfl, he⟩ := ih fun x hx => hg x (by simp [hx])
    exact ⟨_, rfl, stmtP_staticAssert he, declP_staticAssert he⟩
  | parameter _ ih =>
    obtain ⟨tt, rfl, ht⟩ := ih fun x hx => hg x (by simp [hx])
    exact OneP.all ⟨_, rfl, paramP ht⟩
  | lastParameter _ ih => exact ih hg
  | parameters _ _ ih ih' =>
    exact AllP.append (ih fun x hx => hg x (by simp [hx])) (ih' fun x hx => hg x (by simp [hx]))
  | noParameters => exact ⟨none, rfl, by rintro t ⟨⟩⟩
  | someParameters _ ih =>
    exact ⟨_, rfl, by rintro t ⟨⟩; exact ⟨_, rfl, ih hg⟩⟩
  | noRequires => exact OptP.null
  | someRequires _ ih => exact OneP.opt (ih fun x hx => hg x (by simp [hx]))
  | function _ _ _ _ _ ih1 ih2 ih3 ih4 ih5 =>
    obtain ⟨a, rfl⟩ := ih1 fun x hx => hg x (by simp [hx])
    obtain ⟨tp, rfl, hp⟩ := ih2 fun x hx => hg x (by simp [hx])
    obtain ⟨tr, rfl, hr⟩ := ih3 fun x hx => hg x (by simp [hx])
    obtain ⟨tq, rfl, hq⟩ := ih4 fun x hx => hg x (by simp [hx])
    obtain ⟨tb, rfl, hb⟩ := ih5 fun x hx => hg x (by simp [hx])
    exact ⟨_, rfl, declP_function hp hr hq hb⟩
  | declConst _ ih => exact (ih hg).imp fun _ h => h.2
  | declFunction _ ih => exact ih hg
  | declStaticAssert _ ih => exact (ih hg).imp fun _ h => h.2
  | noDeclarations => exact AllP.nil
  | declarations _ _ ih ih' =>
    exact (OneP.all (ih fun x hx => hg x (by simp [hx]))).append (ih' fun x hx => hg x (by simp [hx]))
  | program _ _ ih ih' =>
    exact ⟨_, rfl, _, rfl,
      (OneP.all (ih fun x hx => hg x (by simp [hx]))).append (ih' fun x hx => hg x (by simp [hx]))⟩
  | stmtLet _ ih => exact ih hg
  | stmtConst _ ih => exact (ih hg).imp fun _ h => h.1
  | stmtStaticAssert _ ih => exact (ih hg).imp fun _ h => h.1
  | assignment _ _ ih ih' =>
    obtain ⟨a, rfl⟩ := ih fun x hx => hg x (by simp [hx])
    obtain ⟨te, rfl, he⟩ := ih' fun x hx => hg x (by simp [hx])
    exact ⟨_, rfl, stmtP_assign he⟩
  | callStatement _ ih =>
    obtain ⟨x, args, a, e, h⟩ := ih fun x hx => hg x (by simp [hx])
    simp only [List.cons.injEq, Option.some.injEq, Tree.node.injEq, Kind.function_call_expression.injEq,
      and_true] at e
    obtain ⟨rfl, rfl⟩ := e
    exact ⟨_, rfl, stmtP_call h⟩
  | break_ => exact ⟨_, rfl, stmtP_break⟩
  | continue_ => exact ⟨_, rfl, stmtP_continue⟩
  | returnVoid => exact ⟨_, rfl, stmtP_return (by rintro t ⟨⟩)⟩
  | return_ _ ih =>
    obtain ⟨te, rfl, he⟩ := ih fun x hx => hg x (by simp [hx])
    exact ⟨_, rfl, stmtP_return (by rintro t ⟨⟩; exact he)⟩
  | if_ _ _ _ _ ih1 ih2 ih3 ih4 =>
    obtain ⟨a, rfl⟩ := ih1 fun x hx => hg x (by simp [hx])
    obtain ⟨tc, rfl, hc⟩ := ih2 fun x hx => hg x (by simp [hx])
    obtain ⟨tb, rfl, hb⟩ := ih3 fun x hx => hg x (by simp [hx])
    obtain ⟨te, rfl, he⟩ := ih4 fun x hx => hg x (by simp [hx])
    cases te with
    | none => exact ⟨_, rfl, stmtP_ifThen hc hb.stmtP⟩
    | some te => exact ⟨_, rfl, stmtP_ifElse hc hb.stmtP (he te rfl)⟩
  | noElse => exact OptP.null
  | elseIf _ ih => exact OneP.opt (ih fun x hx => hg x (by simp at hx ⊢; tauto))
  | elseBlock _ ih =>
    exact OneP.opt ((ih fun x hx => hg x (by simp [hx])).imp fun _ h => h.stmtP)
  | stmtIf _ ih => exact ih hg
  | while_ _ _ _ ih1 ih2 ih3 =>
    obtain ⟨a, rfl⟩ := ih1 fun x hx => hg x (by simp [hx])
    obtain ⟨tc, rfl, hc⟩ := ih2 fun x hx => hg x (by simp [hx])
    obtain ⟨tb, rfl, hb⟩ := ih3 fun x hx => hg x (by simp [hx])
    exact ⟨_, rfl, stmtP_while hc hb.stmtP⟩
  | stmtBlock _ ih => exact (ih hg).imp fun _ h => h.stmtP
  | block _ ih => exact ⟨_, rfl, _, rfl, ih fun x hx => hg x (by simp [hx])⟩
  | noStatements => exact AllP.nil
  | statements _ _ ih ih' =>
    exact (OneP.all (ih fun x hx => hg x (by simp [hx]))).append (ih' fun x hx => hg x (by simp [hx]))

end Build
end Bms
