import Verif.Lemmas.ParseRun

/-!
# Ownership of nodes in the parser

For a fixed handle, `balance` is one if a node with this handle exists, minus the number of
references to it. Each member function of the parser is given a contract in terms of the balance:
the handles in the children of the node that it returns are the new ones that nothing refers to.
-/

namespace Bms.Parse

variable {α β : Type} {src : List Char}

/-- One for this handle, zero for others. -/
def one (i : Nat) (h : Handle) : Int := if h = some i then 1 else 0

/-- The number of occurrences of a handle. -/
def cnt (i : Nat) (hs : List Handle) : Int := (hs.count (some i) : Int)

/-- A bound on a handle. -/
def topH : Handle → Nat
  | none => 0
  | some c => c + 1

/-- A bound on handles. -/
def top : List Handle → Nat
  | [] => 0
  | h :: hs => max (topH h) (top hs)

@[simp] theorem one_none (i : Nat) : one i none = 0 := by simp [one]
@[simp] theorem cnt_nil (i : Nat) : cnt i [] = 0 := rfl
@[simp] theorem cnt_cons (i : Nat) (h : Handle) (hs : List Handle) :
    cnt i (h :: hs) = one i h + cnt i hs := by
  simp only [cnt, one, List.count_cons, beq_iff_eq]
  split <;> omega
@[simp] theorem cnt_append (i : Nat) (hs hs' : List Handle) :
    cnt i (hs ++ hs') = cnt i hs + cnt i hs' := by simp [cnt]
@[simp] theorem topH_none : topH none = 0 := rfl
@[simp] theorem topH_some (c : Nat) : topH (some c) = c + 1 := rfl
@[simp] theorem top_nil : top [] = 0 := rfl
@[simp] theorem top_cons (h : Handle) (hs : List Handle) : top (h :: hs) = max (topH h) (top hs) := rfl
@[simp] theorem top_append (hs hs' : List Handle) : top (hs ++ hs') = max (top hs) (top hs') := by
  induction hs with
  | nil => simp
  | cons h hs ih => simp [ih, Nat.max_assoc]

/-- How often a handle is free. -/
def balance (i : Nat) (ns : List Node) : Int :=
  (if i < ns.length then 1 else 0) - cnt i (ns.flatMap (·.children))

theorem balance_push (i : Nat) (ns : List Node) (n : Node) :
    balance i (ns ++ [n]) = balance i ns + one i (some ns.length) - cnt i n.children := by
  simp only [balance, List.length_append, List.length_singleton, List.flatMap_append,
    List.flatMap_singleton, cnt_append, one, Option.some.injEq]
  by_cases h1 : i < ns.length
  · rw [if_pos h1, if_pos (by omega), if_neg (by omega)]; omega
  · by_cases h2 : ns.length = i
    · rw [if_neg h1, if_pos (by omega), if_pos h2]; omega
    · rw [if_neg h1, if_neg (by omega), if_neg h2]; omega

/-- Children have smaller handles. -/
def Valid (ns : List Node) : Prop := ∀ j n, ns[j]? = some n → top n.children ≤ j

theorem Valid.push {ns : List Node} {n : Node} (h : Valid ns) (hn : top n.children ≤ ns.length) :
    Valid (ns ++ [n]) := by
  intro j m hm
  rw [List.getElem?_append] at hm
  split at hm
  · exact h j m hm
  · rw [List.getElem?_singleton] at hm
    split at hm
    · cases hm
      omega
    · cases hm

/-- Not the start of an annotation, and inside the text. -/
def Fine (src : List Char) (t : Token) : Prop := t.type ≠ .at_sign ∧ t.pos.start ≤ src.length

/-- The condition on the state; with `plain`, all tokens are fine. -/
def Good (src : List Char) (plain : Prop) (s : State) : Prop :=
  Valid s.nodes ∧ (plain → ∀ t ∈ s.rest, Fine src t)

/-- The post-condition on a result. -/
def Post (src : List Char) (plain : Prop) (i : Nat) (Q : α → Int → Nat → Prop) : Res α → Prop
  | .ok a s' => Good src plain s' ∧ Q a (balance i s'.nodes) s'.nodes.length
  | .throws => ¬ plain
  | _ => True

/-- Started with `L` nodes and balance `d`, a value is returned with the post-condition `Q` on the
balance and the number of nodes; exceptions are thrown only if not `plain`. -/
def Own (src : List Char) (plain : Prop) (i : Nat) (p : Prog α) (d : Int) (L : Nat)
    (Q : α → Int → Nat → Prop) : Prop :=
  ∀ s, Good src plain s → balance i s.nodes = d → s.nodes.length = L →
    Post src plain i Q (p.run src s)

section
variable {plain : Prop} {i : Nat} {d : Int} {L : Nat} {Q : α → Int → Nat → Prop}

theorem Own.ret {a : α} (h : Q a d L) : Own src plain i (.ret a) d L Q := by
  intro s hs hd hl
  subst hd hl
  exact ⟨hs, h⟩

theorem Own.fail {e : RuleError} : Own src plain i (.fail e : Prog α) d L Q :=
  fun _ _ _ _ => trivial
theorem Own.diverge : Own src plain i (.diverge : Prog α) d L Q := fun _ _ _ _ => trivial
theorem Own.throws (h : ¬ plain) : Own src plain i (.throws : Prog α) d L Q := fun _ _ _ _ => h

theorem Own.mono {p : Prog α} {Q' : α → Int → Nat → Prop} (h : Own src plain i p d L Q')
    (hq : ∀ a d' L', L ≤ L' → Q' a d' L' → Q a d' L') : Own src plain i p d L Q := by
  intro s hs hd hl
  have := h s hs hd hl
  cases hr : p.run src s with
  | ok a s' =>
    rw [hr] at this
    have hm := (run_ok_mono hr).2.length_le
    exact ⟨this.1, hq _ _ _ (by omega) this.2⟩
  | err e s' => trivial
  | throws => rw [hr] at this; exact this
  | diverge => trivial

theorem Own.bind {p : Prog β} {f : β → Prog α} {R : β → Int → Nat → Prop}
    (h : Own src plain i p d L R)
    (hf : ∀ b d' L', L ≤ L' → R b d' L' → Own src plain i (f b) d' L' Q) :
    Own src plain i (p.bind f) d L Q := by
  intro s hs hd hl
  have h1 := h s hs hd hl
  rw [run_bind]
  cases hr : p.run src s with
  | ok b s' =>
    rw [hr] at h1
    have hm := (run_ok_mono hr).2.length_le
    exact hf b _ _ (by omega) h1.2 s' h1.1 rfl rfl
  | err e s' => trivial
  | throws => rw [hr] at h1; exact h1
  | diverge => trivial

theorem Own.next {p : TokenType → Bool} {inc : Bool} {k : Option Token → Prog α}
    (hn : Own src plain i (k none) d L Q)
    (hs : ∀ t, (plain → Fine src t) → p t.type = true → Own src plain i (k (some t)) d L Q) :
    Own src plain i (.next p inc k) d L Q := by
  intro s hg hd hl
  have hsuf := skipComments_suffix s.rest
  simp only [Prog.run]
  cases hc : skipComments s.rest with
  | nil => exact hn ⟨[], s.nodes⟩ ⟨hg.1, fun _ _ h => by cases h⟩ hd hl
  | cons t ts =>
    rw [hc] at hsuf
    have hall : plain → ∀ x ∈ t :: ts, Fine src x := fun hp x hx => hg.2 hp x (hsuf.mem hx)
    dsimp only
    split
    · rename_i hp
      split
      · exact hs t (fun h => hall h t (by simp)) hp ⟨ts, s.nodes⟩
          ⟨hg.1, fun h x hx => hall h x (by simp [hx])⟩ hd hl
      · exact hs t (fun h => hall h t (by simp)) hp ⟨t :: ts, s.nodes⟩ ⟨hg.1, hall⟩ hd hl
    · exact hn ⟨t :: ts, s.nodes⟩ ⟨hg.1, hall⟩ hd hl

theorem Own.peek1 {k : Option Token → Prog α} (h : ∀ o, Own src plain i (k o) d L Q) :
    Own src plain i (.peek1 k) d L Q := fun s => h _ s

theorem Own.commit {k : Bool → Prog α} (h : ∀ o, Own src plain i (k o) d L Q) :
    Own src plain i (.commit k) d L Q := fun s => h _ s

theorem Own.push {n : Node} {k : Nat → Prog α} (hn : top n.children ≤ L)
    (h : Own src plain i (k L) (d + one i (some L) - cnt i n.children) (L + 1) Q) :
    Own src plain i (.push n k) d L Q := by
  intro s hs hd hl
  subst hd hl
  exact h ⟨s.rest, s.nodes ++ [n]⟩ ⟨hs.1.push hn, hs.2⟩ (balance_push i s.nodes n) (by simp)

theorem Own.extract {t : Token} {k : List Char → Prog α} (ht : plain → Fine src t)
    (h : ∀ x, Own src plain i (k x) d L Q) : Own src plain i (.extract t k) d L Q := by
  intro s hs hd hl
  simp only [Prog.run]
  split
  · exact h _ s hs hd hl
  · rename_i hc
    exact fun hp => hc (ht hp).2

theorem Own.attempt {b : Prog Bool} {k : Bool → Prog α} {R : Bool → Int → Nat → Prop}
    (hb : Own src plain i b d L R) (h : ∀ x, Own src plain i (k x) d L Q) :
    Own src plain i (.attempt b k) d L Q := by
  intro s hs hd hl
  have h1 := hb s hs hd hl
  have hm := run_mono (src := src) b s
  simp only [Prog.run]
  have leave : ∀ (x : Bool) (s' : State), s'.rest <:+ s.rest ∧ s.nodes <+: s'.nodes →
      Post src plain i Q
        (if s'.rest.length ≤ s.rest.length ∧ s.nodes.length ≤ s'.nodes.length then
        (k x).run src ⟨s.rest, s'.nodes.take s.nodes.length⟩ else .throws : Res α) := by
    intro x s' h2
    rw [if_pos ⟨h2.1.length_le, h2.2.length_le⟩, ← List.prefix_iff_eq_take.mp h2.2]
    exact h x s hs hd hl
  cases hr : b.run src s with
  | ok x s' => rw [hr] at hm; exact leave x s' hm
  | err e s' => rw [hr] at hm; exact leave false s' hm
  | throws => rw [hr] at h1; exact h1
  | diverge => trivial

/-- Errors are replaced by errors or exceptions. -/
theorem Own.handle {b : Prog β} {e : RuleError → Prog α} {k : β → Prog α}
    {R : β → Int → Nat → Prop} (hb : Own src plain i b d L R)
    (he : ∀ r s, match (e r).run src s with | .err _ _ => True | .throws => ¬ plain | _ => False)
    (h : ∀ x d' L', L ≤ L' → R x d' L' → Own src plain i (k x) d' L' Q) :
    Own src plain i (.handle b e k) d L Q := by
  intro s hs hd hl
  have h1 := hb s hs hd hl
  simp only [Prog.run]
  cases hr : b.run src s with
  | ok x s' =>
    rw [hr] at h1
    have hm := (run_ok_mono hr).2.length_le
    exact h x _ _ (by omega) h1.2 s' h1.1 rfl rfl
  | err r s' =>
    have := he r s'
    dsimp only
    revert this
    cases (e r).run src s' <;> simp [Post]
  | throws => rw [hr] at h1; exact h1
  | diverge => trivial

/-! ## Rules for sequences -/

theorem Own.require {r : GrammarRule} {t : TokenType} {f : Token → Prog α}
    (h : ∀ tok, (plain → Fine src tok) → tok.type = t → Own src plain i (f tok) d L Q) :
    Own src plain i ((require r t).bind f) d L Q :=
  Own.next Own.fail fun tok h1 h2 => h tok h1 (by simpa using h2)

theorem Own.expect {t : TokenType} {f : Option Token → Prog α} (hn : Own src plain i (f none) d L Q)
    (h : ∀ tok, (plain → Fine src tok) → tok.type = t → Own src plain i (f (some tok)) d L Q) :
    Own src plain i ((expect t).bind f) d L Q :=
  Own.next hn fun tok h1 h2 => h tok h1 (by simpa using h2)

theorem Own.expectIf {p : TokenType → Bool} {f : Option Token → Prog α}
    (hn : Own src plain i (f none) d L Q)
    (h : ∀ tok, (plain → Fine src tok) → p tok.type = true → Own src plain i (f (some tok)) d L Q) :
    Own src plain i ((expectIf p).bind f) d L Q := Own.next hn h

theorem Own.peek {t : TokenType} {f : Bool → Prog α} (hn : Own src plain i (f false) d L Q)
    (h : (plain → t ≠ .at_sign) → Own src plain i (f true) d L Q) :
    Own src plain i ((Parse.peek t).bind f) d L Q :=
  Own.next hn fun tok h1 h2 => h fun hp => by
    have := (h1 hp).1
    rw [show tok.type = t by simpa using h2] at this
    exact this

theorem Own.peek' {t : TokenType} {Q : Bool → Int → Nat → Prop} (hn : Q false d L) (h : Q true d L) :
    Own src plain i (Parse.peek t) d L Q := Own.next (Own.ret hn) fun _ _ _ => Own.ret h

theorem Own.peekAny {f : Option TokenType → Prog α} (hn : Own src plain i (f none) d L Q)
    (h : ∀ t, (plain → t ≠ .at_sign) → Own src plain i (f (some t)) d L Q) :
    Own src plain i (peekAny.bind f) d L Q :=
  Own.next hn fun tok h1 _ => h tok.type fun hp => (h1 hp).1

theorem Own.pushed {n : Node} {f : Handle → Prog α} (hn : top n.children ≤ L)
    (h : Own src plain i (f (some L)) (d + one i (some L) - cnt i n.children) (L + 1) Q) :
    Own src plain i ((Parse.push n).bind f) d L Q := Own.push hn h

theorem Own.push' {n : Node} {Q : Handle → Int → Nat → Prop} (hn : top n.children ≤ L)
    (h : Q (some L) (d + one i (some L) - cnt i n.children) (L + 1)) :
    Own src plain i (Parse.push n) d L Q := Own.push hn (Own.ret h)

/-- The children of a node that may be absent. -/
def kids : Option Node → List Handle
  | none => []
  | some n => n.children

@[simp] theorem kids_none : kids none = [] := rfl
@[simp] theorem kids_some (n : Node) : kids (some n) = n.children := rfl

theorem Own.pushOrNull {n : Option Node} {f : Handle → Prog α} (hn : top (kids n) ≤ L)
    (h : ∀ h L', L ≤ L' → topH h ≤ L' →
      Own src plain i (f h) (d + one i h - cnt i (kids n)) L' Q) :
    Own src plain i ((pushOrNull n).bind f) d L Q := by
  cases n with
  | none =>
    have := h none L (Nat.le_refl _) (by simp)
    simp only [one_none, kids_none, cnt_nil, Int.add_zero, Int.sub_zero] at this
    exact this
  | some n => exact Own.push hn (h (some L) (L + 1) (by omega) (by simp))

theorem Own.extracted {t : Token} {f : List Char → Prog α} (ht : plain → Fine src t)
    (h : ∀ x, Own src plain i (f x) d L Q) : Own src plain i ((Parse.extract t).bind f) d L Q :=
  Own.extract ht h

theorem Own.assert {b : Bool} {f : Unit → Prog α} (hb : plain → b = true)
    (h : b = true → Own src plain i (f ()) d L Q) : Own src plain i ((assert b).bind f) d L Q := by
  unfold Parse.assert
  split
  · rename_i hc
    exact h hc
  · rename_i hc
    exact Own.throws fun hp => hc (hb hp)

theorem Own.peeked1 {f : Option Token → Prog α} (h : ∀ o, Own src plain i (f o) d L Q) :
    Own src plain i ((Prog.peek1 .ret).bind f) d L Q := Own.peek1 h

theorem Own.committed {f : Bool → Prog α} (h : ∀ o, Own src plain i (f o) d L Q) :
    Own src plain i ((Prog.commit .ret).bind f) d L Q := Own.commit h

end

theorem bind_assoc' {γ : Type} (p : Prog α) (f : α → Prog β) (g : β → Prog γ) :
    (p.bind f).bind g = p.bind fun a => (f a).bind g := by
  induction p with
  | ret a => rfl
  | fail e => rfl
  | throws => rfl
  | diverge => rfl
  | next p i k ih => simp only [Prog.bind, ih]
  | peek1 k ih => simp only [Prog.bind, ih]
  | push n k ih => simp only [Prog.bind, ih]
  | extract t k ih => simp only [Prog.bind, ih]
  | commit k ih => simp only [Prog.bind, ih]
  | attempt b k _ ih => simp only [Prog.bind, ih]
  | handle b e k _ ihe ihk => simp only [Prog.bind, ihe, ihk]

theorem ite_bind {c : Prop} [Decidable c] (p q : Prog α) (f : α → Prog β) :
    (if c then p else q).bind f = if c then p.bind f else q.bind f := by
  split <;> rfl

theorem ret_bind (a : α) (f : α → Prog β) : (Prog.ret a).bind f = f a := rfl
theorem fail_bind (e : RuleError) (f : α → Prog β) : (Prog.fail e).bind f = .fail e := rfl
theorem throws_bind (f : α → Prog β) : (Prog.throws : Prog α).bind f = .throws := rfl

/-! ## Contracts -/

/-- A node is returned: its children are the new free handles. -/
def NodePost (i : Nat) (d : Int) : Node → Int → Nat → Prop :=
  fun n d' L' => d' = d + cnt i n.children ∧ top n.children ≤ L'

/-- Handles are returned: they are the given ones and the new free handles. -/
def ListPost (i : Nat) (d : Int) (acc : List Handle) : List Handle → Int → Nat → Prop :=
  fun hs d' L' => d' - cnt i hs = d - cnt i acc ∧ top hs ≤ L'

/-- The same for a nonempty list. -/
def SeqPost (i : Nat) (d : Int) (acc : List Handle) : List Handle → Int → Nat → Prop :=
  fun hs d' L' => d' - cnt i hs = d - cnt i acc ∧ top hs ≤ L' ∧ hs ≠ []

theorem SeqPost.of {i : Nat} {d d0 d' : Int} {L' : Nat} {acc acc' hs : List Handle}
    (h : SeqPost i d0 acc' hs d' L') (e : d0 - cnt i acc' = d - cnt i acc) :
    SeqPost i d acc hs d' L' := ⟨h.1.trans e, h.2⟩

/-- Handles must exist, and only annotations have annotation arguments. -/
def Rule.pre (plain : Prop) (L : Nat) : Rule → Prop
  | .expression | .ifExpression => True
  | .arguments _ acc | .parameters acc | .annotations acc | .statements acc | .declarations acc =>
    top acc ≤ L
  | .annotationArguments acc => top acc ≤ L ∧ ¬ plain
  | .ifStatement a => top (kids a) ≤ L

/-- The contract of a case. -/
def Rule.post (i : Nat) (d : Int) : (r : Rule) → r.Result → Int → Nat → Prop
  | .expression | .ifExpression => NodePost i d
  | .arguments _ acc => ListPost i d acc
  | .statements acc => ListPost i d acc
  | .declarations acc => ListPost i d acc
  | .annotationArguments acc => SeqPost i d acc
  | .parameters acc => fun r => SeqPost i d acc r.2
  | .annotations acc => fun r => SeqPost i d acc r.2
  | .ifStatement a => fun n d' L' => d' = d + cnt i n.children - cnt i (kids a) ∧ top n.children ≤ L'

theorem nonempty_of {hs : List Handle} (h : hs ≠ []) : (!hs.isEmpty) = true := by
  cases hs with
  | nil => contradiction
  | cons => rfl

/-- Arithmetic on contracts. -/
macro "own_arith" : tactic => `(tactic| (
  simp only [NodePost, ListPost, SeqPost, Rule.pre, Rule.post, cnt_nil, cnt_cons, cnt_append, top_nil,
    top_cons, top_append, topH_none, topH_some, one_none, kids_none, kids_some, ne_eq,
    List.append_eq_nil_iff, List.cons_ne_nil, not_false_eq_true, and_true, true_and, and_false, Nat.zero_le] at *
  (try omega)))

open Lean in
/-- Prove a contract of a member function from contracts of the functions it calls. -/
macro "own" "[" ts:term,* "]" : tactic => do
  let alts ← ts.getElems.mapM fun t => `(tactic| (refine Own.mono $t (fun _ _ _ _ _ => ?_)))
  let alts' ← ts.getElems.mapM fun t => `(tactic| (refine Own.bind $t (fun _ _ _ _ _ => ?_)))
  let all : Array (TSyntax `tactic) := alts' ++ alts
  `(tactic| (
    (try simp only [bind_eq, pure_eq, bind_assoc', ite_bind, ret_bind, fail_bind, throws_bind])
    repeat' (first
      | with_reducible refine Own.ret ?_ | with_reducible exact Own.fail
      | with_reducible refine Own.require (fun _ _ _ => ?_)
      | with_reducible refine Own.expect ?_ (fun _ _ _ => ?_) | with_reducible refine Own.expectIf ?_ (fun _ _ _ => ?_)
      | with_reducible refine Own.peek ?_ (fun _ => ?_) | with_reducible refine Own.peekAny ?_ (fun _ _ => ?_)
      | with_reducible refine Own.peek' ?_ ?_
      | with_reducible refine Own.pushed ?_ ?_ | with_reducible refine Own.push' ?_ ?_
      | with_reducible refine Own.pushOrNull ?_ (fun _ _ _ _ => ?_)
      | with_reducible refine Own.extracted ?_ (fun _ => ?_)
      | with_reducible refine Own.assert ?_ (fun _ => ?_)
      | with_reducible refine Own.peeked1 (fun _ => ?_) | with_reducible refine Own.committed (fun _ => ?_)
      | (first $[| $all:tactic]*)
      | dsimp only [ret_bind, bind_assoc', ite_bind]
      | split)
    all_goals first
      | assumption
      | (intro _; contradiction)
      | (intro _; rfl)
      | (rename_i hseq; exact fun _ => nonempty_of hseq.2.2)
      | (rename_i hseq; refine SeqPost.of hseq ?_; own_arith; done)
      | (own_arith; done)
      | skip))

section
variable {rec : (r : Rule) → Prog r.Result} {plain : Prop} {i : Nat} {d : Int} {L : Nat}

/-- The functions for the cases keep their contracts. -/
abbrev Keeps (src : List Char) (plain : Prop) (i : Nat) (rec : (r : Rule) → Prog r.Result) : Prop :=
  ∀ (r : Rule) (d : Int) (L : Nat), r.pre plain L → Own src plain i (rec r) d L (r.post i d)

variable (h : Keeps src plain i rec)
include h

theorem k_expression : Own src plain i (rec .expression) d L (NodePost i d) :=
  h .expression d L trivial
theorem k_ifExpression : Own src plain i (rec .ifExpression) d L (NodePost i d) :=
  h .ifExpression d L trivial
theorem k_arguments {b : Bool} {acc : List Handle} (ha : top acc ≤ L) :
    Own src plain i (rec (.arguments b acc)) d L (ListPost i d acc) := h (.arguments b acc) d L ha
theorem k_statements {acc : List Handle} (ha : top acc ≤ L) :
    Own src plain i (rec (.statements acc)) d L (ListPost i d acc) := h (.statements acc) d L ha
theorem k_declarations {acc : List Handle} (ha : top acc ≤ L) :
    Own src plain i (rec (.declarations acc)) d L (ListPost i d acc) := h (.declarations acc) d L ha
theorem k_annotationArguments {acc : List Handle} (hp : ¬ plain) (ha : top acc ≤ L) :
    Own src plain i (rec (.annotationArguments acc)) d L (SeqPost i d acc) :=
  h (.annotationArguments acc) d L ⟨ha, hp⟩
theorem k_parameters {acc : List Handle} (ha : top acc ≤ L) :
    Own src plain i (rec (.parameters acc)) d L fun r => SeqPost i d acc r.2 :=
  h (.parameters acc) d L ha
theorem k_annotations {acc : List Handle} (ha : top acc ≤ L) :
    Own src plain i (rec (.annotations acc)) d L fun r => SeqPost i d acc r.2 :=
  h (.annotations acc) d L ha

/-- The contract of functions that are given annotations. -/
abbrev Annotated (src : List Char) (plain : Prop) (i : Nat) (d : Int) (L : Nat) (a : Option Node)
    (p : Prog Node) : Prop :=
  Own src plain i p d L fun n d' L' => d' = d + cnt i n.children - cnt i (kids a) ∧ top n.children ≤ L'

theorem k_if {a : Option Node} (ha : top (kids a) ≤ L) :
    Annotated src plain i d L a (rec (.ifStatement a)) := h (.ifStatement a) d L ha

theorem own_parenthesized : Own src plain i (matchParenthesized rec) d L (NodePost i d) := by
  unfold matchParenthesized
  own [k_expression h]

theorem own_primary : Own src plain i (matchPrimary rec) d L (NodePost i d) := by
  unfold matchPrimary
  own [k_expression h]
  refine Own.handle (own_parenthesized h) (fun _ _ => trivial) (fun _ _ _ _ hx => Own.ret hx)

omit h in
theorem own_annotationArgument (hp : ¬ plain) :
    Own src plain i matchAnnotationArgument d L (NodePost i d) := by
  unfold matchAnnotationArgument
  own [Own.fail]

theorem own_annotationArguments (hp : ¬ plain) :
    Own src plain i (matchAnnotationArguments rec) d L (ListPost i d []) := by
  unfold matchAnnotationArguments matchAnnotationArgumentSequence
  own [k_annotationArguments h hp ?_]

theorem own_annotation : Own src plain i (matchAnnotation rec) d L (NodePost i d) := by
  unfold matchAnnotation
  own [k_expression h]
  rename_i a ha hta b hb htb
  have hp : ¬ plain := fun hp => (ha hp).1 hta
  refine Own.handle (own_annotationArguments h hp) (fun _ s => ?_) (fun _ _ _ _ hx => ?_)
  · simp only [extract, Prog.bind, Prog.run, ite_self]
    exact hp
  · own [k_expression h]

theorem own_annotationSequence :
    Own src plain i (matchAnnotationSequence rec) d L (NodePost i d) := by
  unfold matchAnnotationSequence
  own [k_annotations h ?_]

theorem own_call : Own src plain i (matchFunctionCall rec) d L
    fun n d' L' => NodePost i d n d' L' ∧ ∃ name, n.kind = .function_call_expression name false := by
  unfold matchFunctionCall
  own [k_arguments h ?_, own_annotationSequence h]
  all_goals refine ⟨?_, _, rfl⟩; own_arith

theorem own_postfix : Own src plain i (matchPostfix rec) d L (NodePost i d) := by
  unfold matchPostfix
  own [own_call h, own_primary h]
  all_goals rename_i hq; exact hq.1

theorem own_prefix : Own src plain i (matchPrefix rec) d L (NodePost i d) := by
  unfold matchPrefix mkPrefix
  own [own_postfix h]

theorem own_arithmetic : Own src plain i (matchArithmetic rec) d L (NodePost i d) := by
  unfold matchArithmetic mkBinary
  own [own_prefix h]

theorem own_comparison : Own src plain i (matchComparison rec) d L (NodePost i d) := by
  unfold matchComparison mkBinary
  own [own_arithmetic h]

theorem own_binary : Own src plain i (matchBinary rec) d L (NodePost i d) := by
  unfold matchBinary mkBinary
  own [own_comparison h, own_prefix h]

theorem own_ifExpression : Own src plain i (matchIfExpression rec) d L (NodePost i d) := by
  unfold matchIfExpression mkIfExpression
  own [own_binary h, k_ifExpression h]

theorem own_type : Own src plain i (matchType rec) d L (NodePost i d) := by
  unfold matchType mkType
  own [own_parenthesized h]

theorem own_conversion : Own src plain i (matchConversion rec) d L (NodePost i d) := by
  unfold matchConversion mkConversion
  own [own_prefix h, own_type h]

theorem own_expression : Own src plain i (matchExpression rec) d L (NodePost i d) := by
  unfold matchExpression
  refine Own.attempt (R := fun _ _ _ => True) ?_ fun x => ?_
  · own [own_prefix h]
    all_goals trivial
  · own [own_conversion h, k_ifExpression h]

theorem own_optionalType : Own src plain i (matchOptionalType rec) d L
    fun h d' L' => d' = d + one i h ∧ topH h ≤ L' := by
  unfold matchOptionalType
  own [own_type h]

theorem own_initializer : Own src plain i (matchInitializer rec) d L (NodePost i d) := by
  unfold matchInitializer
  own [k_expression h]

variable {a : Option Node} (ha : top (kids a) ≤ L)
include ha

theorem own_let : Annotated src plain i d L a (matchLet rec a) := by
  unfold matchLet mkLet
  own [own_optionalType h, own_initializer h]
  all_goals first
    | (simp; done)
    | exact Nat.le_trans ha (by assumption)
    | (intro _
       simp only [Option.isSome_none, Bool.or_false]
       rename_i hn _ _ _ _ _ _ _ _ _
       simpa [Option.isSome_iff_ne_none] using hn)

theorem own_const : Annotated src plain i d L a (matchConst rec a) := by
  unfold matchConst mkConst
  own [own_optionalType h, own_initializer h]

omit ha

theorem own_staticAssert : Own src plain i (matchStaticAssert rec) d L (NodePost i d) := by
  unfold matchStaticAssert mkStaticAssert
  own [own_parenthesized h]

include ha
theorem own_assignmentStatement : Annotated src plain i d L a (matchAssignmentStatement rec a) := by
  unfold matchAssignmentStatement matchAssignment mkAssignment
  own [k_expression h]

omit ha
theorem own_assignmentOrCall : Own src plain i (matchAssignmentOrCall rec) d L (NodePost i d) := by
  unfold matchAssignmentOrCall matchCallStatement setIsStatement
  own [own_assignmentStatement h ?_, own_call h]
  rename_i hx _ _ _ _ hk
  obtain ⟨name, e⟩ := hx.2
  exact absurd e (hk _ _)

theorem own_return : Own src plain i (matchReturn rec) d L (NodePost i d) := by
  unfold matchReturn
  own [k_expression h]

omit h in
theorem own_break : Own src plain i matchBreak d L (NodePost i d) := by
  unfold matchBreak
  own [Own.fail]

omit h in
theorem own_continue : Own src plain i matchContinue d L (NodePost i d) := by
  unfold matchContinue
  own [Own.fail]

theorem own_block : Own src plain i (matchBlock rec) d L (NodePost i d) := by
  unfold matchBlock
  own [k_statements h ?_]

theorem own_else : Own src plain i (matchElse rec) d L (NodePost i d) := by
  unfold matchElse
  own [k_if h ?_, own_block h]

include ha
theorem own_if : Annotated src plain i d L a (matchIf rec a) := by
  unfold matchIf mkIf
  own [k_expression h, own_block h, own_else h]

theorem own_while : Annotated src plain i d L a (matchWhile rec a) := by
  unfold matchWhile mkWhile
  own [k_expression h, own_block h]

omit ha

theorem own_annotatedStatement {a : Node} (ha : top (kids (some a)) ≤ L) :
    Annotated src plain i d L (some a) (matchAnnotatedStatement rec a) := by
  unfold matchAnnotatedStatement
  refine Own.peekAny Own.fail fun t _ => ?_
  split
  · exact own_const h ha
  · exact own_let h ha
  · exact k_if h ha
  · exact own_while h ha
  · exact own_assignmentStatement h ha
  · exact Own.fail

omit h in
theorem annotated_none {p : Prog Node} (hp : Annotated src plain i d L none p) :
    Own src plain i p d L (NodePost i d) :=
  hp.mono fun _ _ _ _ hq => ⟨by have := hq.1; simp at this; omega, hq.2⟩

theorem own_statement : Own src plain i (matchStatement rec) d L (NodePost i d) := by
  unfold matchStatement
  refine Own.peekAny Own.fail fun t _ => ?_
  split
  · own [own_annotationSequence h, own_annotatedStatement h ?_]
  · exact annotated_none (own_let h (by simp))
  · exact annotated_none (own_const h (by simp))
  · exact own_staticAssert h
  · exact own_break
  · exact own_continue
  · exact own_return h
  · exact annotated_none (k_if h (by simp))
  · exact annotated_none (own_while h (by simp))
  · exact own_block h
  · exact own_assignmentOrCall h
  · exact Own.fail

theorem own_parameter : Own src plain i (matchParameter rec) d L (NodePost i d) := by
  unfold matchParameter mkParameter
  own [own_type h]

theorem own_parameterSequence : Own src plain i (matchParameterSequence rec) d L (NodePost i d) := by
  unfold matchParameterSequence
  own [k_parameters h ?_]

include ha
theorem own_function : Annotated src plain i d L a (matchFunction rec a) := by
  unfold matchFunction matchRequires mkFunction
  own [own_parameterSequence h, own_type h, k_expression h, own_block h]

omit ha
theorem own_declaration : Own src plain i (matchDeclaration rec) d L (NodePost i d) := by
  unfold matchDeclaration matchAnnotatedDeclaration
  own [own_annotationSequence h, own_const h ?_, own_function h ?_, own_staticAssert h]

theorem own_program : Own src plain i (matchProgram rec) d L (NodePost i d) := by
  unfold matchProgram
  own [own_declaration h, k_declarations h ?_]

theorem own_parametersLoop {acc : List Handle} (hr : top acc ≤ L) :
    Own src plain i (parametersLoop rec acc) d L fun r => SeqPost i d acc r.2 := by
  unfold parametersLoop
  own [own_parameter h, k_parameters h ?_]

theorem own_annotationsLoop {acc : List Handle} (hr : top acc ≤ L) :
    Own src plain i (annotationsLoop rec acc) d L fun r => SeqPost i d acc r.2 := by
  unfold annotationsLoop
  own [own_annotation h, k_annotations h ?_]

theorem own_body (r : Rule) (hr : r.pre plain L) :
    Own src plain i (body rec r) d L (r.post i d) := by
  cases r <;> simp only [body, Rule.pre] at hr ⊢
  · exact own_expression h
  · exact own_ifExpression h
  · unfold argumentsLoop
    own [k_expression h, k_arguments h ?_]
  · exact own_parametersLoop h hr
  · exact own_annotationsLoop h hr
  · obtain ⟨hr, hp⟩ := hr
    unfold annotationArgumentsLoop
    own [own_annotationArgument hp, k_annotationArguments h hp ?_]
  · exact own_if h hr
  · unfold statementsLoop
    own [own_statement h, k_statements h ?_]
  · unfold declarationsLoop
    own [own_declaration h, k_declarations h ?_]

end

theorem keeps_parseRule {plain : Prop} {i : Nat} (n : Nat) : Keeps src plain i (parseRule n) := by
  induction n with
  | zero => exact fun _ _ _ _ => Own.diverge
  | succ n ih => exact fun r d L hr => own_body ih r hr

end Bms.Parse
