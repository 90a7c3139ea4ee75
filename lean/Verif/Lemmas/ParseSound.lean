import Verif.Lemmas.ParseRun
import Verif.Spec.Grammar

/-!
# What the parser accepts is derived by the grammar
-/

namespace Bms.Parse

open Spec (Tree Derives Reads ReadsAll Sym tok ident lexeme tokenText textual sizes)

variable {α β : Type} {src : List Char}

/-! ## Trees in nodes -/

mutual

theorem reads_mono {ns ns' : List Node} (h : ns <+: ns') {i : Nat} {t : Tree} :
    Reads ns i t → Reads ns' i t
  | .mk hn hc => by
    refine .mk ?_ (readsAll_mono h (Nat.le_refl _) hc)
    obtain ⟨r, rfl⟩ := h
    have := (List.getElem?_eq_some_iff.mp hn).1
    rw [List.getElem?_append_left this]
    exact hn

theorem readsAll_mono {ns ns' : List Node} (h : ns <+: ns') {b b' : Nat} (hb : b ≤ b')
    {hs : List Handle} {ts : List (Option Tree)} : ReadsAll ns b hs ts → ReadsAll ns' b' hs ts
  | .nil => .nil
  | .null r => .null (readsAll_mono h hb r)
  | .child hlt hr r => .child (by omega) (reads_mono h hr) (readsAll_mono h hb r)

end

theorem readsAll_append {ns : List Node} {b : Nat} {hs hs' : List Handle}
    {ts ts' : List (Option Tree)} (h : ReadsAll ns b hs ts) (h' : ReadsAll ns b hs' ts') :
    ReadsAll ns b (hs ++ hs') (ts ++ ts') := by
  match h with
  | .nil => exact h'
  | .null r => exact .null (readsAll_append r h')
  | .child hlt hr r => exact .child hlt hr (readsAll_append r h')
termination_by hs.length

@[simp] theorem size_node (k : Kind) (cs : List (Option Tree)) :
    (Tree.node k cs).size = 1 + sizes cs := by
  rw [Tree.size]

@[simp] theorem sizes_nil : sizes [] = 0 := by rw [sizes]
/-- The nodes of a tree that may be absent. -/
def osize : Option Tree → Nat
  | none => 0
  | some t => t.size

@[simp] theorem osize_none : osize none = 0 := rfl
@[simp] theorem osize_some (t : Tree) : osize (some t) = t.size := rfl

@[simp] theorem sizes_cons (o : Option Tree) (ts : List (Option Tree)) :
    sizes (o :: ts) = osize o + sizes ts := by
  cases o <;> rw [sizes] <;> simp

@[simp] theorem sizes_append (ts ts' : List (Option Tree)) :
    sizes (ts ++ ts') = sizes ts + sizes ts' := by
  induction ts with
  | nil => simp
  | cons t ts ih => simp [ih]; omega

/-- A node that is not in the list yet is the root of a tree. -/
def NodeReads (ns : List Node) (n : Node) (t : Tree) : Prop :=
  ∃ cs, t = .node n.kind cs ∧ ReadsAll ns ns.length n.children cs

/-- Children of a new node. -/
abbrev Kids (ns : List Node) (hs : List Handle) (ts : List (Option Tree)) : Prop :=
  ReadsAll ns ns.length hs ts

theorem Kids.mono {ns ns' : List Node} {hs : List Handle} {ts : List (Option Tree)}
    (h : Kids ns hs ts) (hp : ns <+: ns') : Kids ns' hs ts :=
  readsAll_mono hp hp.length_le h

theorem Kids.append {ns : List Node} {hs hs' : List Handle} {ts ts' : List (Option Tree)}
    (h : Kids ns hs ts) (h' : Kids ns hs' ts') : Kids ns (hs ++ hs') (ts ++ ts') :=
  readsAll_append h h'

theorem Kids.null {ns : List Node} : Kids ns [none] [none] := ReadsAll.null .nil

theorem NodeReads.mono {ns ns' : List Node} {n : Node} {t : Tree} (h : NodeReads ns n t)
    (hp : ns <+: ns') : NodeReads ns' n t := by
  obtain ⟨cs, rfl, h⟩ := h
  exact ⟨cs, rfl, Kids.mono h hp⟩

theorem NodeReads.reads {ns ns' : List Node} {n : Node} {t : Tree} (h : NodeReads ns n t)
    (hp : ns ++ [n] <+: ns') : Reads ns' ns.length t := by
  obtain ⟨cs, rfl, h⟩ := h
  refine reads_mono hp (.mk ?_ (readsAll_mono (List.prefix_append _ _) (Nat.le_refl _) h))
  simp

theorem NodeReads.pushed {ns ns' : List Node} {n : Node} {t : Tree} (h : NodeReads ns n t)
    (hp : ns ++ [n] <+: ns') : Kids ns' [some ns.length] [some t] := by
  refine .child ?_ (h.reads hp) .nil
  have := hp.length_le
  simp at this
  omega

/-- One list of nodes extends another, by peeling off what was appended. -/
macro "pfx" : tactic =>
  `(tactic| repeat (first
      | exact List.prefix_refl _
      | exact List.prefix_append _ _
      | refine List.IsPrefix.trans ?_ (List.prefix_append _ _)))

/-! ## Lexemes -/

theorem lexeme_tok {t : Token} {ty : TokenType} (h : t.type = ty) (ht : ty ∉ textual) :
    lexeme src t = tok ty := by
  simp [lexeme, h, ht]

theorem lexeme_text {t : Token} {ty : TokenType} (h : t.type = ty) (ht : ty ∈ textual) :
    lexeme src t = (ty, tokenText src t) := by
  simp [lexeme, h, ht]

theorem lexeme_ident {t : Token} (h : t.type = .identifier) :
    lexeme src t = ident (tokenText src t) := lexeme_text h (by decide)

/-! ## Inversion of runs on tokens without comments -/

/-- There are no comments. -/
def NoC (ts : List Token) : Prop := ∀ t ∈ ts, t.type.isComment = false

theorem NoC.skip {ts : List Token} (h : NoC ts) : skipComments ts = ts := by
  cases ts with
  | nil => rfl
  | cons t ts => simp [skipComments, h t (by simp)]

theorem NoC.tail {t : Token} {ts : List Token} (h : NoC (t :: ts)) : NoC ts :=
  fun x hx => h x (by simp [hx])

theorem NoC.right {ts ts' : List Token} (h : NoC (ts ++ ts')) : NoC ts' :=
  fun x hx => h x (by simp [hx])

/-- The next token has a type other than `t`. -/
def NextNot (t : TokenType) (rest : List Token) : Prop := ∀ x ∈ rest.head?, x.type ≠ t

section Inversion
variable {rest : List Token} {nodes : List Node} {b : β} {s' : State}

theorem inv_expectIf {p : TokenType → Bool} {f : Option Token → Prog β} (hc : NoC rest)
    (h : ((expectIf p).bind f).run src ⟨rest, nodes⟩ = .ok b s') :
    (∃ t rest', rest = t :: rest' ∧ p t.type = true ∧ NoC rest' ∧
      (f (some t)).run src ⟨rest', nodes⟩ = .ok b s') ∨
    ((∀ x ∈ rest.head?, p x.type = false) ∧ (f none).run src ⟨rest, nodes⟩ = .ok b s') := by
  simp only [expectIf, Prog.bind, Prog.run, hc.skip] at h
  cases rest with
  | nil => exact .inr ⟨by simp, h⟩
  | cons t ts =>
    by_cases hp : p t.type = true
    · simp only [hp, if_true] at h
      exact .inl ⟨t, ts, rfl, hp, hc.tail, h⟩
    · simp only [hp, if_false, Bool.false_eq_true] at h
      exact .inr ⟨by simpa using hp, h⟩

theorem inv_expect {t : TokenType} {f : Option Token → Prog β} (hc : NoC rest)
    (h : ((expect t).bind f).run src ⟨rest, nodes⟩ = .ok b s') :
    (∃ tk rest', rest = tk :: rest' ∧ tk.type = t ∧ NoC rest' ∧
      (f (some tk)).run src ⟨rest', nodes⟩ = .ok b s') ∨
    (NextNot t rest ∧ (f none).run src ⟨rest, nodes⟩ = .ok b s') := by
  rcases inv_expectIf (p := (· == t)) hc h with ⟨tk, r, e, ht, hc', h'⟩ | ⟨hn, h'⟩
  · exact .inl ⟨tk, r, e, by simpa using ht, hc', h'⟩
  · exact .inr ⟨fun x hx => by simpa using hn x hx, h'⟩

theorem inv_require {r : GrammarRule} {t : TokenType} {f : Token → Prog β} (hc : NoC rest)
    (h : ((require r t).bind f).run src ⟨rest, nodes⟩ = .ok b s') :
    ∃ tk rest', rest = tk :: rest' ∧ tk.type = t ∧ NoC rest' ∧
      (f tk).run src ⟨rest', nodes⟩ = .ok b s' := by
  have h : ((expect t).bind fun o => Prog.bind (match o with
      | some tok => .ret tok
      | none => .fail ⟨r, [t]⟩) f).run src ⟨rest, nodes⟩ = .ok b s' := h
  rcases inv_expect hc h with h | ⟨_, h⟩
  · exact h
  · cases h

theorem inv_peek {t : TokenType} {f : Bool → Prog β} (hc : NoC rest)
    (h : ((peek t).bind f).run src ⟨rest, nodes⟩ = .ok b s') :
    (∃ tk rest', rest = tk :: rest' ∧ tk.type = t ∧
      (f true).run src ⟨rest, nodes⟩ = .ok b s') ∨
    (NextNot t rest ∧ (f false).run src ⟨rest, nodes⟩ = .ok b s') := by
  simp only [peek, Prog.bind, Prog.run, hc.skip] at h
  cases rest with
  | nil => exact .inr ⟨fun x hx => (by simp at hx), h⟩
  | cons tk ts =>
    by_cases hp : tk.type = t
    · simp only [hp, beq_self_eq_true, if_true, Bool.false_eq_true, if_false] at h
      exact .inl ⟨tk, ts, rfl, hp, h⟩
    · simp only [beq_iff_eq, hp, if_false] at h
      exact .inr ⟨fun x hx => (by simp at hx; subst hx; exact hp), h⟩

theorem inv_peekAny {f : Option TokenType → Prog β} (hc : NoC rest)
    (h : (peekAny.bind f).run src ⟨rest, nodes⟩ = .ok b s') :
    (f (rest.head?.map (·.type))).run src ⟨rest, nodes⟩ = .ok b s' := by
  simp only [peekAny, Prog.bind, Prog.run, hc.skip] at h
  cases rest with
  | nil => exact h
  | cons tk ts => simpa using h

theorem inv_push {n : Node} {f : Handle → Prog β}
    (h : ((push n).bind f).run src ⟨rest, nodes⟩ = .ok b s') :
    (f (some nodes.length)).run src ⟨rest, nodes ++ [n]⟩ = .ok b s' := h

theorem inv_extract {t : Token} {f : List Char → Prog β}
    (h : ((extract t).bind f).run src ⟨rest, nodes⟩ = .ok b s') :
    (f (tokenText src t)).run src ⟨rest, nodes⟩ = .ok b s' := by
  simp only [extract, Prog.bind, Prog.run] at h
  split at h
  · exact h
  · cases h

theorem inv_assert {c : Bool} {f : Unit → Prog β}
    (h : ((assert c).bind f).run src ⟨rest, nodes⟩ = .ok b s') :
    c = true ∧ (f ()).run src ⟨rest, nodes⟩ = .ok b s' := by
  unfold assert at h
  split at h
  · exact ⟨by assumption, h⟩
  · cases h

theorem inv_bind {p : Prog α} {f : α → Prog β}
    (h : (p.bind f).run src ⟨rest, nodes⟩ = .ok b s') :
    ∃ a s1, p.run src ⟨rest, nodes⟩ = .ok a s1 ∧ (f a).run src s1 = .ok b s' := by
  rw [run_bind] at h
  exact Res.bind_ok.mp h

theorem inv_commit {f : Bool → Prog β}
    (h : ((Prog.commit .ret).bind f).run src ⟨rest, nodes⟩ = .ok b s') :
    (f (shouldCommit 0 rest)).run src ⟨rest, nodes⟩ = .ok b s' := h

theorem inv_peek1 {f : Option Token → Prog β}
    (h : ((Prog.peek1 .ret).bind f).run src ⟨rest, nodes⟩ = .ok b s') :
    (f (peekToken1 rest)).run src ⟨rest, nodes⟩ = .ok b s' := h

theorem inv_attempt {p : Prog Bool} {f : Bool → Prog β}
    (h : ((Prog.attempt p .ret).bind f).run src ⟨rest, nodes⟩ = .ok b s') :
    ∃ r, (f r).run src ⟨rest, nodes⟩ = .ok b s' := by
  have h : (Prog.attempt p fun r => f r).run src ⟨rest, nodes⟩ = .ok b s' := h
  rw [run_attempt] at h
  cases hp : p.run src ⟨rest, nodes⟩ with
  | ok r _ => rw [hp] at h; exact ⟨r, h⟩
  | err r _ => rw [hp] at h; exact ⟨false, h⟩
  | throws => rw [hp] at h; cases h
  | diverge => rw [hp] at h; cases h

theorem inv_ret {a : β} (h : (Prog.ret a).run src ⟨rest, nodes⟩ = .ok b s') :
    b = a ∧ s' = ⟨rest, nodes⟩ := by
  cases h; exact ⟨rfl, rfl⟩

end Inversion

/-! ## Soundness of the member functions -/

/-- A function that returns a node of the nonterminal `sym`. -/
def SoundNode (src : List Char) (sym : Sym) (p : Prog Node) : Prop :=
  ∀ rest nodes n s', NoC rest → p.run src ⟨rest, nodes⟩ = .ok n s' →
    ∃ used rest' new t, rest = used ++ rest' ∧ s' = ⟨rest', nodes ++ new⟩ ∧
      Derives true sym (used.map (lexeme src)) [some t] ∧ NodeReads (nodes ++ new) n t ∧
      new.length + 1 = t.size

/-- A function that returns the handle of an optional node of the nonterminal `sym`. -/
def SoundHandle (src : List Char) (sym : Sym) (p : Prog Handle) : Prop :=
  ∀ rest nodes h s', NoC rest → p.run src ⟨rest, nodes⟩ = .ok h s' →
    ∃ used rest' new o, rest = used ++ rest' ∧ s' = ⟨rest', nodes ++ new⟩ ∧
      Derives true sym (used.map (lexeme src)) [o] ∧ Kids (nodes ++ new) [h] [o] ∧
      new.length = sizes [o] ∧ (h = none ↔ o = none)

/-- The annotations given to a function, with the nonterminal they come from. -/
def AnnReads (nodes : List Node) : Option Node → Option Tree → Prop
  | none, none => True
  | some n, some t => NodeReads nodes n t
  | _, _ => False

/-- A function that returns a node of the nonterminal `sym`, which starts with optional annotations
that were parsed before. -/
def SoundAnnotated (src : List Char) (sym : Sym) (p : Option Node → Prog Node) : Prop :=
  ∀ a A wa rest nodes n s', AnnReads nodes a A → Derives true .optAnnotations wa [A] →
    NoC rest → (p a).run src ⟨rest, nodes⟩ = .ok n s' →
    ∃ used rest' new t, rest = used ++ rest' ∧ s' = ⟨rest', nodes ++ new⟩ ∧
      Derives true sym (wa ++ used.map (lexeme src)) [some t] ∧ NodeReads (nodes ++ new) n t ∧
      new.length + 1 + sizes [A] = t.size + a.toList.length

/-- What the function for a loop collected after `acc`. -/
def SoundLoop (src : List Char) (D : List Spec.Terminal → List (Option Tree) → Prop)
    (acc : List Handle) (p : Prog (List Handle)) : Prop :=
  ∀ rest nodes r s', NoC rest → p.run src ⟨rest, nodes⟩ = .ok r s' →
    ∃ used rest' new hs ts, rest = used ++ rest' ∧ s' = ⟨rest', nodes ++ new⟩ ∧
      D (used.map (lexeme src)) ts ∧ r = acc ++ hs ∧ Kids (nodes ++ new) hs ts ∧
      new.length = sizes ts

/-- Soundness for each case. -/
def SoundRule (src : List Char) : (r : Rule) → Prog r.Result → Prop
  | .expression, p => SoundNode src .expression p
  | .ifExpression, p => SoundNode src .ifExpression p
  | .arguments demand acc, p => SoundLoop src (fun w ts => ∃ w', w = w' ++ [tok .right_parenthesis] ∧
      Derives true (if demand then .arguments else .optArguments) w' ts) acc p
  | .parameters acc, p => SoundLoop src (Derives true .parameters) acc (p.bind fun r => .ret r.2)
  | .annotations acc, p => SoundLoop src (Derives true .annotations) acc (p.bind fun r => .ret r.2)
  | .annotationArguments acc, p => SoundLoop src (Derives true .annotationArguments) acc p
  | .ifStatement a, p => ∀ A wa rest nodes n s', AnnReads nodes a A →
      Derives true .optAnnotations wa [A] → NoC rest → p.run src ⟨rest, nodes⟩ = .ok n s' →
      ∃ used rest' new t, rest = used ++ rest' ∧ s' = ⟨rest', nodes ++ new⟩ ∧
        Derives true .if_ (wa ++ used.map (lexeme src)) [some t] ∧
        NodeReads (nodes ++ new) n t ∧ new.length + 1 + sizes [A] = t.size + a.toList.length
  | .statements acc, p => SoundLoop src (fun w ts => ∃ w', w = w' ++ [tok .right_brace] ∧
      Derives true .statements w' ts) acc p
  | .declarations acc, p => SoundLoop src (Derives true .declarations) acc p ∧
      ∀ rest nodes r s', NoC rest → p.run src ⟨rest, nodes⟩ = .ok r s' → s'.rest = []

section
variable {rec : (r : Rule) → Prog r.Result} (hr : ∀ r, SoundRule src r (rec r))
include hr

theorem sound_parenthesized : SoundNode src .parenthesized (matchParenthesized rec) := by
  intro rest nodes n s' hc h
  unfold matchParenthesized at h
  obtain ⟨lp, rest, rfl, hlp, hc, h⟩ := inv_require hc h
  obtain ⟨e, s1, he, h⟩ := inv_bind h
  obtain ⟨u, rest, new, t, rfl, rfl, hd, hn, hl⟩ := hr .expression _ _ _ _ hc he
  obtain ⟨rp, rest, rfl, hrp, hc, h⟩ := inv_require hc.right h
  obtain ⟨rfl, rfl⟩ := inv_ret h
  refine ⟨lp :: u ++ [rp], rest, new, t, by simp, rfl, ?_, hn, hl⟩
  simpa [lexeme_tok hlp (by decide), lexeme_tok hrp (by decide)] using Derives.parenthesized hd

omit hr in
theorem isLiteral_cases {t : TokenType} (h : t.isLiteral = true) :
    t ∈ Spec.integerLiterals ∨ t ∈ Spec.booleanLiterals ∨ t = .string_literal := by
  revert h; cases t <;> decide

omit hr in
theorem sound_literal {t : Token} (h : t.type.isLiteral = true) :
    Derives true .primary [lexeme src t]
      [some (.node (.literal (tokenText src t) t.type) [])] := by
  rcases isLiteral_cases h with h | h | h
  · rw [lexeme_text rfl (by revert h; cases t.type <;> decide)]; exact .integer h
  · rw [lexeme_text rfl (by revert h; cases t.type <;> decide)]; exact .boolean h
  · rw [lexeme_text h (by decide), h]; exact .string rfl

theorem sound_primary : SoundNode src .primary (matchPrimary rec) := by
  intro rest nodes n s' hc h
  unfold matchPrimary at h
  rcases inv_expectIf hc h with ⟨t, rest, rfl, ht, hc, h⟩ | ⟨_, h⟩
  · have h := inv_extract h
    obtain ⟨rfl, rfl⟩ := inv_ret h
    refine ⟨[t], rest, [], _, rfl, by simp, sound_literal ht, ⟨[], rfl, .nil⟩, by simp⟩
  · rcases inv_expect hc h with ⟨t, rest, rfl, ht, hc, h⟩ | ⟨_, h⟩
    · have h := inv_extract h
      obtain ⟨rfl, rfl⟩ := inv_ret h
      refine ⟨[t], rest, [], _, rfl, by simp, ?_, ⟨[], rfl, .nil⟩, by simp⟩
      simpa [lexeme_ident ht] using Derives.id
    · simp only [Prog.run] at h
      cases hp : (matchParenthesized rec).run src ⟨rest, nodes⟩ with
      | ok a s1 =>
        rw [hp] at h
        cases h
        obtain ⟨u, rest', new, t, h1, h2, hd, hn, hl⟩ := sound_parenthesized hr _ _ _ _ hc hp
        exact ⟨u, rest', new, t, h1, h2, .paren hd, hn, hl⟩
      | err e s1 => rw [hp] at h; cases h
      | throws => rw [hp] at h; cases h
      | diverge => rw [hp] at h; cases h

omit hr in
theorem unquote {s : List Char} (h : 2 ≤ s.length) :
    ∃ q q', s = q :: (s.drop 1).take (s.length - 2) ++ [q'] := by
  cases s with
  | nil => simp at h
  | cons q s =>
    rcases List.eq_nil_or_concat s with rfl | ⟨s, q', rfl⟩
    · simp at h
    · exact ⟨q, q', by simp⟩

omit hr in
theorem sound_annotationArgument : SoundNode src .annotationArgument matchAnnotationArgument := by
  intro rest nodes n s' hc h
  unfold matchAnnotationArgument at h
  -- the value, for a key that is given or not
  have value : ∀ (u : List Token) (key : List Char) (pos : Token → Span) (exp : List TokenType)
      (rest : List Token), NoC rest →
      (∀ t x, t ∈ Spec.integerLiterals ++ Spec.booleanLiterals →
        Derives true .annotationArgument (u.map (lexeme src) ++ [(t, x)])
          [some (.node (.annotation_argument key x t) [])]) →
      (∀ q x q', Derives true .annotationArgument
        (u.map (lexeme src) ++ [(.string_literal, q :: x ++ [q'])])
          [some (.node (.annotation_argument key x .string_literal) [])]) →
      ((expectIf TokenType.isLiteral).bind fun o => match o with
        | none => Prog.fail ⟨.annotation_argument, exp⟩
        | some value => (extract value).bind fun valueString =>
          if value.type = .string_literal then
            (assert (decide (2 ≤ valueString.length))).bind fun _ =>
              Prog.ret (⟨pos value, .annotation_argument key
                ((valueString.drop 1).take (valueString.length - 2)) value.type, []⟩ : Node)
          else Prog.ret ⟨pos value, .annotation_argument key valueString value.type, []⟩).run src
        ⟨rest, nodes⟩ = .ok n s' →
      ∃ v rest' t, rest = v :: rest' ∧ s' = ⟨rest', nodes ++ []⟩ ∧
        Derives true .annotationArgument ((u ++ [v]).map (lexeme src)) [some t] ∧
        NodeReads (nodes ++ []) n t ∧ 1 = t.size := by
    intro u key pos exp rest hc hv hs h
    rcases inv_expectIf hc h with ⟨v, rest, rfl, ht, hc, h⟩ | ⟨_, h⟩
    · have h := inv_extract h
      by_cases hq : v.type = .string_literal
      · simp only [hq, if_true] at h
        obtain ⟨h2, h⟩ := inv_assert h
        obtain ⟨rfl, rfl⟩ := inv_ret h
        refine ⟨v, rest, _, rfl, by simp, ?_, ⟨[], rfl, .nil⟩, by simp⟩
        obtain ⟨q, q', e⟩ := unquote (of_decide_eq_true h2)
        have := hs q (((tokenText src v).drop 1).take ((tokenText src v).length - 2)) q'
        rw [← e] at this
        simpa [lexeme_text hq (by decide)] using this
      · simp only [hq, if_false] at h
        obtain ⟨rfl, rfl⟩ := inv_ret h
        refine ⟨v, rest, _, rfl, by simp, ?_, ⟨[], rfl, .nil⟩, by simp⟩
        have hm : v.type ∈ Spec.integerLiterals ++ Spec.booleanLiterals := by
          rcases isLiteral_cases ht with h | h | h
          · simp [h]
          · simp [h]
          · exact absurd h hq
        have := hv v.type (tokenText src v) hm
        rw [List.map_append, List.map_singleton, lexeme_text rfl (by
          revert hm; cases v.type <;> decide)]
        exact this
    · cases h
  rcases inv_expect hc h with ⟨k, rest, rfl, hk, hc, h⟩ | ⟨_, h⟩
  · obtain ⟨a, s1, ha, h⟩ := inv_bind h
    have ha : ((require .annotation_argument .assign).bind fun t => .ret t).run src
      ⟨rest, nodes⟩ = .ok a s1 := by rw [run_bind, ha]; rfl
    obtain ⟨eq, rest, rfl, heq, hc, ha⟩ := inv_require hc ha
    obtain ⟨_, rfl⟩ := inv_ret ha
    have h := inv_extract h
    obtain ⟨v, rest', t, rfl, rfl, hd, hn, hl⟩ := value [k, eq] (tokenText src k)
      (fun _ => k.span) _ _ hc (fun t x ht => by
        simpa [lexeme_ident hk, lexeme_tok heq (by decide)] using Derives.keyValue ht)
      (fun q x q' => by
        simpa [lexeme_ident hk, lexeme_tok heq (by decide)] using Derives.keyString) h
    exact ⟨[k, eq, v], rest', [], t, rfl, rfl, hd, hn, hl⟩
  · obtain ⟨v, rest', t, rfl, rfl, hd, hn, hl⟩ := value [] [] (fun v => v.span) _ _ hc
      (fun t x ht => Derives.argumentValue ht) (fun q x q' => Derives.argumentString) h
    exact ⟨[v], rest', [], t, rfl, rfl, hd, hn, hl⟩

theorem sound_annotation : SoundNode src .annotation (matchAnnotation rec) := by
  intro rest nodes n s' hc h
  unfold matchAnnotation at h
  obtain ⟨at', rest, rfl, hat, hc, h⟩ := inv_require hc h
  obtain ⟨id, rest, rfl, hid, hc, h⟩ := inv_require hc h
  have e1 : lexeme src at' = tok .at_sign := lexeme_tok hat (by decide)
  have e2 := lexeme_ident (src := src) hid
  simp only [Prog.run] at h
  cases hp : (matchAnnotationArguments rec).run src ⟨rest, nodes⟩ with
  | ok args s1 =>
    rw [hp] at h
    simp only [] at h
    unfold matchAnnotationArguments matchAnnotationArgumentSequence at hp
    obtain ⟨rest1, nodes1⟩ := s1
    have h := inv_extract h
    obtain ⟨rfl, rfl⟩ := inv_ret h
    rcases inv_expect hc hp with ⟨lp, rest, rfl, hlp, hc, hp⟩ | ⟨_, hp⟩
    · rcases inv_expect hc hp with ⟨rp, rest, rfl, hrp, hc, hp⟩ | ⟨_, hp⟩
      · obtain ⟨rfl, h'⟩ := inv_ret hp
        cases h'
        refine ⟨[at', id, lp, rp], rest1, [], _, rfl, by simp, ?_, ⟨[], rfl, .nil⟩, by simp⟩
        simpa [e1, e2, lexeme_tok hlp (by decide), lexeme_tok hrp (by decide)]
          using Derives.annotationEmpty
      · obtain ⟨as, s2, ha, hp⟩ := inv_bind hp
        obtain ⟨as', s3, ha', ha⟩ := inv_bind ha
        obtain ⟨u, rest, new, hs, ts, rfl, rfl, hd, rfl, hk, hl⟩ :=
          hr (.annotationArguments []) _ _ _ _ hc ha'
        obtain ⟨_, ha⟩ := inv_assert ha
        obtain ⟨rfl, rfl⟩ := inv_ret ha
        obtain ⟨rp, rest, rfl, hrp, hc, hp⟩ := inv_require hc.right hp
        obtain ⟨rfl, h'⟩ := inv_ret hp
        cases h'
        refine ⟨at' :: id :: lp :: u ++ [rp], rest1, new, _, by simp, rfl, ?_, ⟨ts, rfl, hk⟩,
          by simp [hl]; omega⟩
        simpa [e1, e2, lexeme_tok hlp (by decide), lexeme_tok hrp (by decide)]
          using Derives.annotationArgs hd
    · obtain ⟨rfl, h'⟩ := inv_ret hp
      cases h'
      refine ⟨[at', id], _, [], _, rfl, by simp, ?_, ⟨[], rfl, .nil⟩, by simp⟩
      simpa [e1, e2] using Derives.annotation
  | err e s1 =>
    rw [hp] at h
    obtain ⟨r1, n1⟩ := s1
    cases inv_extract h
  | throws => rw [hp] at h; cases h
  | diverge => rw [hp] at h; cases h

/-- The annotations before a declaration, a statement or after a call. -/
theorem sound_annotationSequence : SoundNode src .optAnnotations (matchAnnotationSequence rec) := by
  intro rest nodes n s' hc h
  unfold matchAnnotationSequence at h
  obtain ⟨⟨pos, as⟩, s1, ha, h⟩ := inv_bind h
  have hs : ((rec (.annotations [])).bind fun r => .ret r.2).run src ⟨rest, nodes⟩ =
      .ok as s1 := by
    rw [run_bind, ha]; rfl
  obtain ⟨u, rest, new, hs, ts, rfl, rfl, hd, rfl, hk, hl⟩ := hr (.annotations []) _ _ _ _ hc hs
  obtain ⟨_, h⟩ := inv_assert h
  obtain ⟨rfl, rfl⟩ := inv_ret h
  exact ⟨u, rest, new, _, rfl, rfl, .someAnnotations hd, ⟨ts, rfl, hk⟩, by simp [hl]; omega⟩

theorem sound_call : SoundNode src .call (matchFunctionCall rec) ∧
    ∀ s n s', (matchFunctionCall rec).run src s = .ok n s' →
      ∃ x, n.kind = .function_call_expression x false := by
  constructor
  · intro rest nodes n s' hc h
    unfold matchFunctionCall at h
    obtain ⟨id, rest, rfl, hid, hc, h⟩ := inv_require hc h
    obtain ⟨lp, rest, rfl, hlp, hc, h⟩ := inv_require hc h
    obtain ⟨as, s1, ha, h⟩ := inv_bind h
    obtain ⟨u, rest, new, hs, ts, rfl, rfl, ⟨w, e, hd⟩, rfl, hk, hl⟩ :=
      hr (.arguments false []) _ _ _ _ hc ha
    obtain ⟨an, s2, hb, h⟩ := inv_bind h
    rcases inv_peek hc.right hb with ⟨at', r, e', hat, hb⟩ | ⟨_, hb⟩
    · subst e'
      obtain ⟨a, s3, hb, hb'⟩ := inv_bind hb
      obtain ⟨u', rest, new', t, h1, rfl, hd', hn, hl'⟩ :=
        sound_annotationSequence hr _ _ _ _ hc.right hb
      obtain ⟨rfl, rfl⟩ := inv_ret hb'
      have h := inv_extract h
      have h := inv_push h
      obtain ⟨rfl, rfl⟩ := inv_ret h
      refine ⟨id :: lp :: u ++ u', rest, new ++ new' ++ [a], _, by simp [h1], by simp, ?_,
        ⟨ts ++ [some t], rfl, ?_⟩, by simp [hl]; omega⟩
      · have := Derives.call (x := tokenText src id) hd hd'
        simpa [lexeme_ident hid, lexeme_tok hlp (by decide), e] using this
      · simp only [← List.append_assoc]
        refine Kids.append (Kids.mono hk (by pfx)) (hn.pushed (by pfx))
    · obtain ⟨rfl, rfl⟩ := inv_ret hb
      have h := inv_extract h
      obtain ⟨rfl, rfl⟩ := inv_ret h
      refine ⟨id :: lp :: u, rest, new, _, by simp, rfl, ?_, ⟨ts ++ [none], rfl, ?_⟩,
        by simp [hl]; omega⟩
      · have := Derives.call (x := tokenText src id) hd (.noAnnotations)
        simpa [lexeme_ident hid, lexeme_tok hlp (by decide), e] using this
      · exact Kids.append hk Kids.null
  · intro ⟨rest, nodes⟩ n s' h
    unfold matchFunctionCall at h
    obtain ⟨id, _, _, h⟩ := inv_bind h
    obtain ⟨lp, ⟨_, _⟩, _, h⟩ := inv_bind h
    obtain ⟨as, ⟨_, _⟩, _, h⟩ := inv_bind h
    obtain ⟨an, ⟨_, _⟩, _, h⟩ := inv_bind h
    have h := inv_extract h
    obtain ⟨ph, ⟨_, _⟩, _, h⟩ := inv_bind h
    obtain ⟨rfl, rfl⟩ := inv_ret h
    exact ⟨_, rfl⟩

theorem sound_postfix : SoundNode src .postfix (matchPostfix rec) := by
  intro rest nodes n s' hc h
  unfold matchPostfix at h
  have prim : (matchPrimary rec).run src ⟨rest, nodes⟩ = .ok n s' →
      ∃ used rest' new t, rest = used ++ rest' ∧ s' = ⟨rest', nodes ++ new⟩ ∧
      Derives true .postfix (used.map (lexeme src)) [some t] ∧ NodeReads (nodes ++ new) n t ∧
      new.length + 1 = t.size := fun h => by
    obtain ⟨u, rest', new, t, h1, h2, hd, hn, hl⟩ := sound_primary hr _ _ _ _ hc h
    exact ⟨u, rest', new, t, h1, h2, .primary hd, hn, hl⟩
  rcases inv_peek hc h with ⟨t, r, e, ht, h⟩ | ⟨_, h⟩
  · have h := inv_peek1 h
    split at h
    · obtain ⟨u, rest', new, t, h1, h2, hd, hn, hl⟩ := (sound_call hr).1 _ _ _ _ hc h
      exact ⟨u, rest', new, t, h1, h2, .callPostfix hd, hn, hl⟩
    · exact prim h
  · exact prim h

theorem sound_prefix : SoundNode src .prefix (matchPrefix rec) := by
  intro rest nodes n s' hc h
  unfold matchPrefix mkPrefix at h
  rcases inv_expectIf hc h with ⟨op, rest, rfl, ho, hc, h⟩ | ⟨_, h⟩
  · obtain ⟨e, s1, he, h⟩ := inv_bind h
    obtain ⟨u, rest, new, t, rfl, rfl, hd, hn, hl⟩ := sound_postfix hr _ _ _ _ hc he
    obtain ⟨_, h⟩ := inv_assert (inv_push h)
    obtain ⟨rfl, rfl⟩ := inv_ret h
    have hm : op.type ∈ Spec.unaryOperators := by revert ho; cases op.type <;> decide
    refine ⟨op :: u, rest, new ++ [e], _, by simp, by simp, ?_,
      ⟨[some t], rfl, ?_⟩, by simp; omega⟩
    · rw [List.map_cons, lexeme_tok rfl (by revert ho; cases op.type <;> decide)]
      exact Derives.unary hm hd
    · rw [← List.append_assoc]
      exact hn.pushed (by pfx)
  · obtain ⟨u, rest', new, t, h1, h2, hd, hn, hl⟩ := sound_postfix hr _ _ _ _ hc h
    exact ⟨u, rest', new, t, h1, h2, .prefixPostfix hd, hn, hl⟩

omit hr in
/-- Two operands and the operator between them. -/
theorem sound_operands {P Q : Prog Node} {symP symQ sym : Sym} {p : TokenType → Bool}
    (hP : SoundNode src symP P) (hQ : SoundNode src symQ Q)
    (hp : ∀ t, p t = true → t ∉ textual)
    (hd : ∀ op w l w' r, p op = true → Derives true symP w l → Derives true symQ w' r →
      Derives true sym (w ++ tok op :: w') [some (.node (.binary_expression op) (l ++ r))])
    (none' : Node → Prog Node)
    (hnone : ∀ rest nodes n left s' (u : List Token) new t, NoC rest →
      (none' left).run src ⟨rest, nodes ++ new⟩ = .ok n s' →
      Derives true symP (u.map (lexeme src)) [some t] → NodeReads (nodes ++ new) left t →
      new.length + 1 = t.size →
      s' = ⟨rest, nodes ++ new⟩ ∧ n = left ∧ Derives true sym (u.map (lexeme src)) [some t]) :
    SoundNode src sym (P.bind fun left => (expectIf p).bind fun o => match o with
      | none => none' left
      | some op => Q.bind fun right => (push left).bind fun l => (push right).bind fun r =>
        mkBinary op.span l r op.type) := by
  intro rest nodes n s' hc h
  obtain ⟨left, s1, hl, h⟩ := inv_bind h
  obtain ⟨u, rest, new, t, rfl, rfl, hd1, hn1, hl1⟩ := hP _ _ _ _ hc hl
  rcases inv_expectIf hc.right h with ⟨op, rest, rfl, ho, hc2, h⟩ | ⟨_, h⟩
  · obtain ⟨right, s2, hr', h⟩ := inv_bind h
    obtain ⟨u2, rest, new2, t2, rfl, rfl, hd2, hn2, hl2⟩ := hQ _ _ _ _ hc2 hr'
    have h := inv_push (inv_push h)
    unfold mkBinary at h
    obtain ⟨_, h⟩ := inv_assert h
    obtain ⟨_, h⟩ := inv_assert h
    obtain ⟨rfl, rfl⟩ := inv_ret h
    refine ⟨u ++ op :: u2, rest, new ++ new2 ++ [left] ++ [right], _, by simp, by simp, ?_,
      ⟨[some t, some t2], rfl, ?_⟩, by simp; omega⟩
    · have := hd op.type _ _ _ _ ho hd1 hd2
      simpa [lexeme_tok rfl (hp _ ho)] using this
    · simp only [← List.append_assoc]
      exact Kids.append ((hn1.mono (by pfx)).pushed (by pfx)) (NodeReads.pushed
        (hn2.mono (by pfx)) (by pfx))
  · obtain ⟨rfl, rfl, hd'⟩ := hnone _ _ _ _ _ _ _ _ hc.right h hd1 hn1 hl1
    exact ⟨u, rest, new, t, rfl, rfl, hd', hn1, hl1⟩

theorem sound_arithmetic : SoundNode src .arithmetic (matchArithmetic rec) := by
  refine sound_operands (sound_prefix hr) (sound_prefix hr) (by intro t; cases t <;> decide)
    (fun op w l w' r ho h1 h2 => .arithmetic (by revert ho; cases op <;> decide) h1 h2)
    (fun left => .ret left) ?_
  intro rest nodes n left s' u new t _ h hd _ _
  obtain ⟨rfl, rfl⟩ := inv_ret h
  exact ⟨rfl, rfl, .arithmeticPrefix hd⟩

theorem sound_comparison : SoundNode src .comparison (matchComparison rec) := by
  refine sound_operands (sound_arithmetic hr) (sound_arithmetic hr)
    (by intro t; cases t <;> decide)
    (fun op w l w' r ho h1 h2 => .comparison (by revert ho; cases op <;> decide) h1 h2)
    (fun left => .fail ⟨.comparison_expression, comparisonExpected⟩) ?_
  intro rest nodes n left s' u new t _ h hd _ _
  cases h

theorem sound_binary : SoundNode src .binary (matchBinary rec) := by
  intro rest nodes n s' hc h
  unfold matchBinary at h
  have h := inv_commit h
  split at h
  · obtain ⟨u, rest', new, t, h1, h2, hd, hn, hl⟩ := sound_comparison hr _ _ _ _ hc h
    exact ⟨u, rest', new, t, h1, h2, .binaryComparison hd, hn, hl⟩
  · refine sound_operands (sym := .binary) (p := TokenType.isBinaryOperator) (sound_prefix hr)
      (sound_prefix hr) (by intro t; cases t <;> decide)
      (fun op w l w' r ho h1 h2 => .binary (by revert ho; cases op <;> decide) h1 h2)
      (fun left => .ret left) ?_ _ _ _ _ hc h
    intro rest nodes n left s' u new t _ h hd _ _
    obtain ⟨rfl, rfl⟩ := inv_ret h
    exact ⟨rfl, rfl, .binaryPrefix hd⟩

theorem sound_ifExpression : SoundNode src .ifExpression (matchIfExpression rec) := by
  intro rest nodes n s' hc h
  unfold matchIfExpression mkIfExpression at h
  obtain ⟨left, s1, h1, h⟩ := inv_bind h
  obtain ⟨u, rest, new, t, rfl, rfl, hd, hn, hl⟩ := sound_binary hr _ _ _ _ hc h1
  rcases inv_expect hc.right h with ⟨k, rest, rfl, hk, hc, h⟩ | ⟨_, h⟩
  · obtain ⟨c, s2, h2, h⟩ := inv_bind h
    obtain ⟨u2, rest, new2, t2, rfl, rfl, hd2, hn2, hl2⟩ := sound_binary hr _ _ _ _ hc h2
    obtain ⟨e, rest, rfl, he, hc, h⟩ := inv_require hc.right h
    obtain ⟨r, s3, h3, h⟩ := inv_bind h
    obtain ⟨u3, rest, new3, t3, rfl, rfl, hd3, hn3, hl3⟩ := hr .ifExpression _ _ _ _ hc h3
    have h := inv_push (inv_push (inv_push h))
    obtain ⟨_, h⟩ := inv_assert h
    obtain ⟨_, h⟩ := inv_assert h
    obtain ⟨_, h⟩ := inv_assert h
    obtain ⟨rfl, rfl⟩ := inv_ret h
    refine ⟨u ++ k :: u2 ++ e :: u3, rest, new ++ new2 ++ new3 ++ [left] ++ [c] ++ [r], _,
      by simp, by simp, ?_, ⟨[some t, some t2, some t3], rfl, ?_⟩, by simp; omega⟩
    · have := Derives.ifExpression hd hd2 hd3
      simpa [lexeme_tok hk (by decide), lexeme_tok he (by decide)] using this
    · simp only [← List.append_assoc]
      exact Kids.append (Kids.append ((hn.mono (by pfx)).pushed (by pfx)) (NodeReads.pushed
        (hn2.mono (by pfx)) (by pfx))) (NodeReads.pushed (hn3.mono (by pfx)) (by pfx))
  · obtain ⟨rfl, rfl⟩ := inv_ret h
    exact ⟨u, rest, new, t, rfl, rfl, .ifBinary hd, hn, hl⟩

theorem sound_type : SoundNode src .type (matchType rec) := by
  intro rest nodes n s' hc h
  unfold matchType mkType at h
  rcases inv_expect hc h with ⟨k, rest, rfl, hk, hc, h⟩ | ⟨_, h⟩
  · obtain ⟨_, h⟩ := inv_assert h
    obtain ⟨rfl, rfl⟩ := inv_ret h
    refine ⟨[k], rest, [], _, rfl, by simp, ?_, ⟨[none], rfl, Kids.null⟩, by simp⟩
    simpa [lexeme_tok hk (by decide)] using Derives.typeVoid
  rcases inv_expect hc h with ⟨k, rest, rfl, hk, hc, h⟩ | ⟨_, h⟩
  · obtain ⟨_, h⟩ := inv_assert h
    obtain ⟨rfl, rfl⟩ := inv_ret h
    refine ⟨[k], rest, [], _, rfl, by simp, ?_, ⟨[none], rfl, Kids.null⟩, by simp⟩
    simpa [lexeme_tok hk (by decide)] using Derives.typeBool
  rcases inv_expect hc h with ⟨k, rest, rfl, hk, hc, h⟩ | ⟨_, h⟩
  · obtain ⟨_, h⟩ := inv_assert h
    obtain ⟨rfl, rfl⟩ := inv_ret h
    refine ⟨[k], rest, [], _, rfl, by simp, ?_, ⟨[none], rfl, Kids.null⟩, by simp⟩
    simpa [lexeme_tok hk (by decide)] using Derives.typeInt
  rcases inv_expect hc h with ⟨k, rest, rfl, hk, hc, h⟩ | ⟨_, h⟩
  · obtain ⟨e, s1, he, h⟩ := inv_bind h
    obtain ⟨u, rest, new, t, rfl, rfl, hd, hn, hl⟩ := sound_parenthesized hr _ _ _ _ hc he
    obtain ⟨_, h⟩ := inv_assert (inv_push h)
    obtain ⟨rfl, rfl⟩ := inv_ret h
    refine ⟨k :: u, rest, new ++ [e], _, rfl, by simp, ?_, ⟨[some t], rfl, ?_⟩, by simp; omega⟩
    · simpa [lexeme_tok hk (by decide)] using Derives.typeUint hd
    · rw [← List.append_assoc]
      exact hn.pushed (by pfx)
  · cases h

theorem sound_conversion : SoundNode src .conversion (matchConversion rec) := by
  intro rest nodes n s' hc h
  unfold matchConversion mkConversion at h
  obtain ⟨e, s1, he, h⟩ := inv_bind h
  obtain ⟨u, rest, new, t, rfl, rfl, hd, hn, hl⟩ := sound_prefix hr _ _ _ _ hc he
  obtain ⟨k, rest, rfl, hk, hc, h⟩ := inv_require hc.right h
  obtain ⟨ty, s2, h2, h⟩ := inv_bind h
  obtain ⟨u2, rest, new2, t2, rfl, rfl, hd2, hn2, hl2⟩ := sound_type hr _ _ _ _ hc h2
  have h := inv_push (inv_push h)
  obtain ⟨_, h⟩ := inv_assert h
  obtain ⟨_, h⟩ := inv_assert h
  obtain ⟨rfl, rfl⟩ := inv_ret h
  refine ⟨u ++ k :: u2, rest, new ++ new2 ++ [e] ++ [ty], _, by simp, by simp, ?_,
    ⟨[some t, some t2], rfl, ?_⟩, by simp; omega⟩
  · simpa [lexeme_tok hk (by decide)] using Derives.conversion hd hd2
  · simp only [← List.append_assoc]
    exact Kids.append ((hn.mono (by pfx)).pushed (by pfx)) (NodeReads.pushed
      (hn2.mono (by pfx)) (by pfx))

theorem sound_expression : SoundNode src .expression (matchExpression rec) := by
  intro rest nodes n s' hc h
  unfold matchExpression at h
  obtain ⟨b, h⟩ := inv_attempt h
  split at h
  · obtain ⟨u, rest', new, t, h1, h2, hd, hn, hl⟩ := sound_conversion hr _ _ _ _ hc h
    exact ⟨u, rest', new, t, h1, h2, .expressionConversion hd, hn, hl⟩
  · obtain ⟨u, rest', new, t, h1, h2, hd, hn, hl⟩ := hr .ifExpression _ _ _ _ hc h
    exact ⟨u, rest', new, t, h1, h2, .expressionIf hd, hn, hl⟩

/-! ### Declarations -/

omit hr in
theorem ann_push {a : Option Node} {A : Option Tree} {nodes nodes' : List Node}
    {rest : List Token} {f : Handle → Prog β} {b : β} {s' : State} (ha : AnnReads nodes a A)
    (hp : nodes <+: nodes')
    (h : ((pushOrNull a).bind f).run src ⟨rest, nodes'⟩ = .ok b s') :
    ∃ hd, (f hd).run src ⟨rest, nodes' ++ a.toList⟩ = .ok b s' ∧
      ∀ N, nodes' ++ a.toList <+: N → Kids N [hd] [A] := by
  cases a with
  | none =>
    cases A with
    | none => exact ⟨none, by simpa using (show (f none).run src ⟨rest, nodes'⟩ = .ok b s' from h), fun _ _ => Kids.null⟩
    | some t => exact ha.elim
  | some n =>
    cases A with
    | none => exact ha.elim
    | some t =>
      exact ⟨some nodes'.length, inv_push h, fun N hN => (NodeReads.mono ha hp).pushed hN⟩

theorem sound_initializer : SoundNode src .initializer (matchInitializer rec) := by
  intro rest nodes n s' hc h
  unfold matchInitializer at h
  obtain ⟨k, rest, rfl, hk, hc, h⟩ := inv_require hc h
  obtain ⟨u, rest', new, t, rfl, h2, hd, hn, hl⟩ := hr .expression _ _ _ _ hc h
  refine ⟨k :: u, rest', new, t, rfl, h2, ?_, hn, hl⟩
  simpa [lexeme_tok hk (by decide)] using Derives.initializer hd

theorem sound_optionalType : SoundHandle src .optType (matchOptionalType rec) := by
  intro rest nodes n s' hc h
  unfold matchOptionalType at h
  rcases inv_expect hc h with ⟨k, rest, rfl, hk, hc, h⟩ | ⟨_, h⟩
  · obtain ⟨ty, s1, h1, h⟩ := inv_bind h
    obtain ⟨u, rest', new, t, rfl, rfl, hd, hn, hl⟩ := sound_type hr _ _ _ _ hc h1
    cases h
    refine ⟨k :: u, rest', new ++ [ty], some t, rfl, by simp, ?_, ?_, by simp; omega, by simp⟩
    · simpa [lexeme_tok hk (by decide)] using Derives.someType hd
    · rw [← List.append_assoc]
      exact hn.pushed (by pfx)
  · obtain ⟨rfl, rfl⟩ := inv_ret h
    exact ⟨[], rest, [], none, rfl, by simp, .noType, Kids.null, by simp, by simp⟩

theorem sound_let : SoundAnnotated src .let_ (matchLet rec) := by
  intro a A wa rest nodes n s' ha hda hc h
  unfold matchLet mkLet at h
  obtain ⟨k, rest, rfl, hk, hc, h⟩ := inv_require hc h
  obtain ⟨id, rest, rfl, hid, hc, h⟩ := inv_require hc h
  have h := inv_extract h
  obtain ⟨ty, s1, h1, h⟩ := inv_bind h
  obtain ⟨u, rest, new, o, rfl, rfl, hd, hkt, hl, hnone⟩ :=
    sound_optionalType hr _ _ _ _ hc h1
  obtain ⟨needs, s2, h2, h⟩ := inv_bind h
  have e2 : s2 = ⟨rest, nodes ++ new⟩ ∧ (needs = false → ty ≠ none) := by
    cases ty with
    | none => obtain ⟨rfl, rfl⟩ := inv_ret h2; simp
    | some i =>
      have h2 : ((peek .assign).bind .ret).run src ⟨rest, nodes ++ new⟩ = .ok needs s2 := h2
      rcases inv_peek hc.right h2 with ⟨_, _, _, _, h2⟩ | ⟨_, h2⟩ <;>
        (obtain ⟨rfl, rfl⟩ := inv_ret h2; simp)
  obtain ⟨rfl, hneeds⟩ := e2
  obtain ⟨init, s3, h3, h⟩ := inv_bind h
  cases needs with
  | true =>
    obtain ⟨e, s4, h4, h3⟩ := inv_bind h3
    obtain ⟨u2, rest, new2, t2, rfl, rfl, hd2, hn2, hl2⟩ := sound_initializer hr _ _ _ _ hc.right h4
    cases h3
    obtain ⟨sc, rest, rfl, hsc, hc, h⟩ := inv_require hc.right.right h
    obtain ⟨ah, h, hka⟩ := ann_push ha (by pfx) h
    obtain ⟨_, h⟩ := inv_assert h
    obtain ⟨rfl, rfl⟩ := inv_ret h
    refine ⟨k :: id :: u ++ u2 ++ [sc], rest, new ++ new2 ++ [e] ++ a.toList, _, by simp,
      by simp, ?_, ⟨[A] ++ [o] ++ [some t2], rfl, ?_⟩, by simp at hl ⊢; omega⟩
    · have := Derives.letInit (x := tokenText src id) hda hd hd2
      simpa [lexeme_tok hk (by decide), lexeme_ident hid, lexeme_tok hsc (by decide)] using this
    · simp only [← List.append_assoc]
      exact Kids.append (Kids.append (hka _ (by pfx)) (hkt.mono (by pfx)))
        (hn2.pushed (by pfx))
  | false =>
    have hty := hneeds rfl
    obtain ⟨rfl, rfl⟩ := inv_ret h3
    obtain ⟨sc, rest, rfl, hsc, hc, h⟩ := inv_require hc.right h
    obtain ⟨ah, h, hka⟩ := ann_push ha (by pfx) h
    obtain ⟨_, h⟩ := inv_assert h
    obtain ⟨rfl, rfl⟩ := inv_ret h
    refine ⟨k :: id :: u ++ [sc], rest, new ++ a.toList, _, by simp,
      by simp, ?_, ⟨[A] ++ [o] ++ [none], rfl, ?_⟩, by simp at hl ⊢; omega⟩
    · generalize hw : u.map (lexeme src) = w at hd
      generalize ho : [o] = O at hd
      cases hd with
      | noType => simp at ho; exact absurd (hnone.mpr ho) hty
      | someType hd =>
        subst ho
        have := Derives.letType (x := tokenText src id) hda hd
        simpa [lexeme_tok hk (by decide), lexeme_ident hid, lexeme_tok hsc (by decide), hw]
          using this
    · simp only [← List.append_assoc]
      exact Kids.append (Kids.append (hka _ (by pfx)) (hkt.mono (by pfx))) Kids.null

theorem sound_const : SoundAnnotated src .const_ (matchConst rec) := by
  intro a A wa rest nodes n s' ha hda hc h
  unfold matchConst mkConst at h
  obtain ⟨k, rest, rfl, hk, hc, h⟩ := inv_require hc h
  obtain ⟨id, rest, rfl, hid, hc, h⟩ := inv_require hc h
  have h := inv_extract h
  obtain ⟨ty, s1, h1, h⟩ := inv_bind h
  obtain ⟨u, rest, new, o, rfl, rfl, hd, hkt, hl, hnone⟩ :=
    sound_optionalType hr _ _ _ _ hc h1
  obtain ⟨e, s4, h4, h⟩ := inv_bind h
  obtain ⟨u2, rest, new2, t2, rfl, rfl, hd2, hn2, hl2⟩ := sound_initializer hr _ _ _ _ hc.right h4
  obtain ⟨sc, rest, rfl, hsc, hc, h⟩ := inv_require hc.right.right h
  obtain ⟨ah, h, hka⟩ := ann_push ha (by pfx) h
  have h := inv_push h
  obtain ⟨_, h⟩ := inv_assert h
  obtain ⟨rfl, rfl⟩ := inv_ret h
  refine ⟨k :: id :: u ++ u2 ++ [sc], rest, new ++ new2 ++ a.toList ++ [e], _, by simp,
    by simp, ?_, ⟨[A] ++ [o] ++ [some t2], rfl, ?_⟩, by simp at hl ⊢; omega⟩
  · have := Derives.const (x := tokenText src id) hda hd hd2
    simpa [lexeme_tok hk (by decide), lexeme_ident hid, lexeme_tok hsc (by decide)] using this
  · simp only [← List.append_assoc]
    exact Kids.append (Kids.append (hka _ (by pfx)) (hkt.mono (by pfx)))
      (NodeReads.pushed (hn2.mono (by pfx)) (by pfx))

theorem sound_staticAssert : SoundNode src .static_assert (matchStaticAssert rec) := by
  intro rest nodes n s' hc h
  unfold matchStaticAssert mkStaticAssert at h
  obtain ⟨k, rest, rfl, hk, hc, h⟩ := inv_require hc h
  obtain ⟨e, s1, h1, h⟩ := inv_bind h
  obtain ⟨u, rest, new, t, rfl, rfl, hd, hn, hl⟩ := sound_parenthesized hr _ _ _ _ hc h1
  obtain ⟨sc, rest, rfl, hsc, hc, h⟩ := inv_require hc.right h
  have h := inv_push h
  obtain ⟨_, h⟩ := inv_assert h
  obtain ⟨rfl, rfl⟩ := inv_ret h
  refine ⟨k :: u ++ [sc], rest, new ++ [e], _, by simp, by simp, ?_, ⟨[some t], rfl, ?_⟩,
    by simp; omega⟩
  · simpa [lexeme_tok hk (by decide), lexeme_tok hsc (by decide)] using Derives.staticAssert hd
  · rw [← List.append_assoc]
    exact hn.pushed (by pfx)

theorem sound_assignmentStatement :
    SoundAnnotated src .statement (matchAssignmentStatement rec) := by
  intro a A wa rest nodes n s' ha hda hc h
  unfold matchAssignmentStatement at h
  obtain ⟨as, s1, h1, h⟩ := inv_bind h
  unfold matchAssignment mkAssignment at h1
  obtain ⟨id, rest, rfl, hid, hc, h1⟩ := inv_require hc h1
  obtain ⟨eq, rest, rfl, heq, hc, h1⟩ := inv_require hc h1
  obtain ⟨e, s2, h2, h1⟩ := inv_bind h1
  obtain ⟨u, rest, new, t, rfl, rfl, hd, hn, hl⟩ := hr .expression _ _ _ _ hc h2
  have h1 := inv_extract h1
  obtain ⟨ah, h1, hka⟩ := ann_push ha (by pfx) h1
  have h1 := inv_push h1
  obtain ⟨_, h1⟩ := inv_assert h1
  obtain ⟨rfl, rfl⟩ := inv_ret h1
  obtain ⟨sc, rest, rfl, hsc, hc, h⟩ := inv_require hc.right h
  obtain ⟨rfl, rfl⟩ := inv_ret h
  refine ⟨id :: eq :: u ++ [sc], rest, new ++ a.toList ++ [e], _, by simp, by simp, ?_,
    ⟨[A] ++ [some t], rfl, ?_⟩, by simp; omega⟩
  · have := Derives.assignment (x := tokenText src id) hda hd
    simpa [lexeme_ident hid, lexeme_tok heq (by decide), lexeme_tok hsc (by decide)] using this
  · simp only [← List.append_assoc]
    exact Kids.append (hka _ (by pfx)) (NodeReads.pushed (hn.mono (by pfx)) (by pfx))

theorem sound_assignmentOrCall : SoundNode src .statement (matchAssignmentOrCall rec) := by
  intro rest nodes n s' hc h
  unfold matchAssignmentOrCall at h
  have h := inv_peekAny hc h
  split at h
  · cases h
  have h := inv_peek1 h
  split at h
  · obtain ⟨u, rest', new, t, h1, h2, hd, hn, hl⟩ :=
      sound_assignmentStatement hr none none [] _ _ _ _ trivial .noAnnotations hc h
    exact ⟨u, rest', new, t, h1, h2, hd, hn, by simpa using hl⟩
  · obtain ⟨c, s1, h1, h⟩ := inv_bind h
    unfold matchCallStatement at h1
    obtain ⟨c', s2, h2, h1⟩ := inv_bind h1
    obtain ⟨x, hx⟩ := (sound_call hr).2 _ _ _ h2
    obtain ⟨u, rest, new, t, rfl, rfl, hd, ⟨cs, rfl, hn⟩, hl⟩ := (sound_call hr).1 _ _ _ _ hc h2
    obtain ⟨sc, rest, rfl, hsc, hc, h1⟩ := inv_require hc.right h1
    obtain ⟨rfl, rfl⟩ := inv_ret h1
    obtain ⟨pos, kind, cs'⟩ := c
    subst hx
    simp only [setIsStatement] at h
    obtain ⟨rfl, rfl⟩ := inv_ret h
    refine ⟨u ++ [sc], rest, new, _, by simp, rfl, ?_, ⟨cs, rfl, hn⟩, by simpa using hl⟩
    simpa [lexeme_tok hsc (by decide)] using Derives.callStatement hd

theorem sound_return : SoundNode src .statement (matchReturn rec) := by
  intro rest nodes n s' hc h
  unfold matchReturn at h
  obtain ⟨k, rest, rfl, hk, hc, h⟩ := inv_require hc h
  rcases inv_expect hc h with ⟨sc, rest, rfl, hsc, hc, h⟩ | ⟨_, h⟩
  · obtain ⟨rfl, rfl⟩ := inv_ret h
    refine ⟨[k, sc], rest, [], _, rfl, by simp, ?_, ⟨[none], rfl, Kids.null⟩, by simp⟩
    simpa [lexeme_tok hk (by decide), lexeme_tok hsc (by decide)] using Derives.returnVoid
  · obtain ⟨e, s1, h1, h⟩ := inv_bind h
    obtain ⟨u, rest, new, t, rfl, rfl, hd, hn, hl⟩ := hr .expression _ _ _ _ hc h1
    obtain ⟨sc, rest, rfl, hsc, hc, h⟩ := inv_require hc.right h
    have h := inv_push h
    obtain ⟨rfl, rfl⟩ := inv_ret h
    refine ⟨k :: u ++ [sc], rest, new ++ [e], _, by simp, by simp, ?_, ⟨[some t], rfl, ?_⟩,
      by simp; omega⟩
    · simpa [lexeme_tok hk (by decide), lexeme_tok hsc (by decide)] using Derives.return_ hd
    · rw [← List.append_assoc]
      exact hn.pushed (by pfx)

omit hr in
theorem sound_break : SoundNode src .statement matchBreak := by
  intro rest nodes n s' hc h
  unfold matchBreak at h
  obtain ⟨k, rest, rfl, hk, hc, h⟩ := inv_require hc h
  obtain ⟨sc, rest, rfl, hsc, hc, h⟩ := inv_require hc h
  obtain ⟨rfl, rfl⟩ := inv_ret h
  refine ⟨[k, sc], rest, [], _, rfl, by simp, ?_, ⟨[], rfl, .nil⟩, by simp⟩
  simpa [lexeme_tok hk (by decide), lexeme_tok hsc (by decide)] using Derives.break_

omit hr in
theorem sound_continue : SoundNode src .statement matchContinue := by
  intro rest nodes n s' hc h
  unfold matchContinue at h
  obtain ⟨k, rest, rfl, hk, hc, h⟩ := inv_require hc h
  obtain ⟨sc, rest, rfl, hsc, hc, h⟩ := inv_require hc h
  obtain ⟨rfl, rfl⟩ := inv_ret h
  refine ⟨[k, sc], rest, [], _, rfl, by simp, ?_, ⟨[], rfl, .nil⟩, by simp⟩
  simpa [lexeme_tok hk (by decide), lexeme_tok hsc (by decide)] using Derives.continue_

theorem sound_block : SoundNode src .block (matchBlock rec) := by
  intro rest nodes n s' hc h
  unfold matchBlock at h
  obtain ⟨k, rest, rfl, hk, hc, h⟩ := inv_require hc h
  obtain ⟨ss, s1, h1, h⟩ := inv_bind h
  obtain ⟨u, rest, new, hs, ts, rfl, rfl, ⟨w, e, hd⟩, rfl, hks, hl⟩ :=
    hr (.statements []) _ _ _ _ hc h1
  obtain ⟨rfl, rfl⟩ := inv_ret h
  refine ⟨k :: u, rest, new, _, rfl, rfl, ?_, ⟨ts, rfl, hks⟩, by simp [hl]; omega⟩
  simpa [lexeme_tok hk (by decide), e] using Derives.block hd

theorem sound_if : ∀ a, SoundRule src (.ifStatement a) (matchIf rec a) := by
  intro a A wa rest nodes n s' ha hda hc h
  unfold matchIf mkIf at h
  obtain ⟨k, rest, rfl, hk, hc, h⟩ := inv_require hc h
  obtain ⟨c, s1, h1, h⟩ := inv_bind h
  obtain ⟨u, rest, new, t, rfl, rfl, hd, hn, hl⟩ := hr .expression _ _ _ _ hc h1
  obtain ⟨b, s2, h2, h⟩ := inv_bind h
  obtain ⟨u2, rest, new2, t2, rfl, rfl, hd2, hn2, hl2⟩ := sound_block hr _ _ _ _ hc.right h2
  have hc := hc.right.right
  obtain ⟨eh, s3, h3, h⟩ := inv_bind h
  have he : ∃ u3 rest' new3 o, rest = u3 ++ rest' ∧
      s3 = ⟨rest', nodes ++ new ++ new2 ++ new3⟩ ∧
      Derives true .optElse (u3.map (lexeme src)) [o] ∧
      Kids (nodes ++ new ++ new2 ++ new3) [eh] [o] ∧ new3.length = sizes [o] := by
    rcases inv_peek hc h3 with ⟨_, _, _, _, h3⟩ | ⟨_, h3⟩
    · obtain ⟨r, s4, h4, h3⟩ := inv_bind h3
      unfold matchElse at h4
      obtain ⟨ke, rest, rfl, hke, hc, h4⟩ := inv_require hc h4
      rcases inv_peek hc h4 with ⟨ki, rest', hr', hki, h4⟩ | ⟨_, h4⟩
      · obtain ⟨u3, rest, new3, t3, h5, rfl, hd3, hn3, hl3⟩ :=
          hr (.ifStatement none) none [] _ _ _ _ trivial .noAnnotations hc h4
        cases h3
        refine ⟨ke :: u3, rest, new3 ++ [r], some t3, by simp [h5], by simp, ?_, ?_,
          by simp at hl3 ⊢; omega⟩
        · -- the tokens of the statement start with `if`
          cases u3 with
          | nil =>
            exfalso
            generalize hw : ([] : List Spec.Terminal) ++ List.map (lexeme src) [] = w at hd3
            cases hd3
            simp at hw
          | cons x u3 =>
            rw [h5] at hr'
            have hx : x = ki := by simpa using congrArg List.head? hr'
            subst hx
            simp only [List.nil_append, List.map_cons, lexeme_tok hki (by decide)] at hd3
            simpa [lexeme_tok hke (by decide), lexeme_tok hki (by decide)]
              using Derives.elseIf hd3
        · rw [← List.append_assoc]
          exact hn3.pushed (by pfx)
      · obtain ⟨u3, rest, new3, t3, rfl, rfl, hd3, hn3, hl3⟩ := sound_block hr _ _ _ _ hc h4
        cases h3
        refine ⟨ke :: u3, rest, new3 ++ [r], some t3, by simp, by simp, ?_, ?_,
          by simp; omega⟩
        · simpa [lexeme_tok hke (by decide)] using Derives.elseBlock hd3
        · rw [← List.append_assoc]
          exact hn3.pushed (by pfx)
    · obtain ⟨rfl, rfl⟩ := inv_ret h3
      exact ⟨[], rest, [], none, rfl, by simp, .noElse, Kids.null, by simp⟩
  obtain ⟨u3, rest, new3, o, rfl, rfl, hd3, hk3, hl3⟩ := he
  obtain ⟨ah, h, hka⟩ := ann_push ha (by pfx) h
  have h := inv_push h
  have h := inv_push h
  obtain ⟨_, h⟩ := inv_assert h
  obtain ⟨_, h⟩ := inv_assert h
  obtain ⟨rfl, rfl⟩ := inv_ret h
  refine ⟨k :: u ++ u2 ++ u3, rest, new ++ new2 ++ new3 ++ a.toList ++ [c] ++ [b], _, by simp,
    by simp, ?_, ⟨[A] ++ [some t] ++ [some t2] ++ [o], rfl, ?_⟩, by simp at hl3 ⊢; omega⟩
  · have := Derives.if_ hda hd hd2 hd3
    simpa [lexeme_tok hk (by decide)] using this
  · simp only [← List.append_assoc]
    exact Kids.append (Kids.append (Kids.append (hka _ (by pfx)) (NodeReads.pushed
      (hn.mono (by pfx)) (by pfx))) (NodeReads.pushed (hn2.mono (by pfx)) (by pfx)))
      (hk3.mono (by pfx))

theorem sound_while : SoundAnnotated src .statement (matchWhile rec) := by
  intro a A wa rest nodes n s' ha hda hc h
  unfold matchWhile mkWhile at h
  obtain ⟨k, rest, rfl, hk, hc, h⟩ := inv_require hc h
  obtain ⟨c, s1, h1, h⟩ := inv_bind h
  obtain ⟨u, rest, new, t, rfl, rfl, hd, hn, hl⟩ := hr .expression _ _ _ _ hc h1
  obtain ⟨b, s2, h2, h⟩ := inv_bind h
  obtain ⟨u2, rest, new2, t2, rfl, rfl, hd2, hn2, hl2⟩ := sound_block hr _ _ _ _ hc.right h2
  obtain ⟨ah, h, hka⟩ := ann_push ha (by pfx) h
  have h := inv_push h
  have h := inv_push h
  obtain ⟨_, h⟩ := inv_assert h
  obtain ⟨_, h⟩ := inv_assert h
  obtain ⟨rfl, rfl⟩ := inv_ret h
  refine ⟨k :: u ++ u2, rest, new ++ new2 ++ a.toList ++ [c] ++ [b], _, by simp,
    by simp, ?_, ⟨[A] ++ [some t] ++ [some t2], rfl, ?_⟩, by simp; omega⟩
  · have := Derives.while_ hda hd hd2
    simpa [lexeme_tok hk (by decide)] using this
  · simp only [← List.append_assoc]
    exact Kids.append (Kids.append (hka _ (by pfx)) (NodeReads.pushed
      (hn.mono (by pfx)) (by pfx))) (NodeReads.pushed (hn2.mono (by pfx)) (by pfx))

omit hr in
/-- A function that expects annotations, given none. -/
theorem SoundAnnotated.without {sym : Sym} {p : Option Node → Prog Node}
    (h : SoundAnnotated src sym p) : SoundNode src sym (p none) := by
  intro rest nodes n s' hc hp
  obtain ⟨u, rest', new, t, h1, h2, hd, hn, hl⟩ :=
    h none none [] _ _ _ _ trivial .noAnnotations hc hp
  exact ⟨u, rest', new, t, h1, h2, hd, hn, by simpa using hl⟩

omit hr in
theorem SoundNode.weaken {sym sym' : Sym} {p : Prog Node} (h : SoundNode src sym p)
    (hs : ∀ w t, Derives true sym w t → Derives true sym' w t) : SoundNode src sym' p := by
  intro rest nodes n s' hc hp
  obtain ⟨u, rest', new, t, h1, h2, hd, hn, hl⟩ := h _ _ _ _ hc hp
  exact ⟨u, rest', new, t, h1, h2, hs _ _ hd, hn, hl⟩

omit hr in
theorem SoundAnnotated.weaken {sym sym' : Sym} {p : Option Node → Prog Node}
    (h : SoundAnnotated src sym p)
    (hs : ∀ w t, Derives true sym w t → Derives true sym' w t) : SoundAnnotated src sym' p := by
  intro a A wa rest nodes n s' ha hda hc hp
  obtain ⟨u, rest', new, t, h1, h2, hd, hn, hl⟩ := h _ _ _ _ _ _ _ ha hda hc hp
  exact ⟨u, rest', new, t, h1, h2, hs _ _ hd, hn, hl⟩

/-- Annotations and what follows them. -/
theorem sound_annotated {sym : Sym} {f : Node → Prog Node}
    (hf : ∀ an A wa rest nodes n s', NodeReads nodes an A →
      Derives true .optAnnotations wa [some A] → NoC rest →
      (f an).run src ⟨rest, nodes⟩ = .ok n s' →
      ∃ p : Option Node → Prog Node, SoundAnnotated src sym p ∧
        (p (some an)).run src ⟨rest, nodes⟩ = .ok n s') :
    SoundNode src sym ((matchAnnotationSequence rec).bind f) := by
  intro rest nodes n s' hc h
  obtain ⟨an, s1, h1, h⟩ := inv_bind h
  obtain ⟨u, rest, new, t, rfl, rfl, hd, hn, hl⟩ := sound_annotationSequence hr _ _ _ _ hc h1
  obtain ⟨p, hp, h⟩ := hf _ _ _ _ _ _ _ hn hd hc.right h
  obtain ⟨u2, rest', new2, t2, rfl, rfl, hd2, hn2, hl2⟩ :=
    hp (some an) (some t) _ _ _ _ _ hn hd hc.right h
  refine ⟨u ++ u2, rest', new ++ new2, t2, by simp, by simp, by simpa using hd2,
    by simpa using hn2, by simp at hl2 ⊢; omega⟩

theorem sound_statement : SoundNode src .statement (matchStatement rec) := by
  intro rest nodes n s' hc h
  unfold matchStatement at h
  have h := inv_peekAny hc h
  have hif : SoundAnnotated src .statement (fun a => rec (.ifStatement a)) := by
    intro a A wa rest nodes n s' ha hda hc hp
    obtain ⟨u, rest', new, t, h1, h2, hd, hn, hl⟩ := hr (.ifStatement a) _ _ _ _ _ _ ha hda hc hp
    exact ⟨u, rest', new, t, h1, h2, .stmtIf hd, hn, hl⟩
  have hlet := (sound_let hr).weaken (fun _ _ => Derives.stmtLet)
  have hconst := (sound_const hr).weaken (fun _ _ => Derives.stmtConst)
  split at h
  · refine sound_annotated hr ?_ _ _ _ _ hc h
    intro an A wa rest nodes n s' _ _ hc h
    unfold matchAnnotatedStatement at h
    have h := inv_peekAny hc h
    split at h
    · exact ⟨_, hconst, h⟩
    · exact ⟨_, hlet, h⟩
    · exact ⟨_, hif, h⟩
    · exact ⟨_, sound_while hr, h⟩
    · exact ⟨_, sound_assignmentStatement hr, h⟩
    · cases h
  · exact hlet.without _ _ _ _ hc h
  · exact hconst.without _ _ _ _ hc h
  · exact (sound_staticAssert hr).weaken (fun _ _ => Derives.stmtStaticAssert) _ _ _ _ hc h
  · exact sound_break _ _ _ _ hc h
  · exact sound_continue _ _ _ _ hc h
  · exact sound_return hr _ _ _ _ hc h
  · exact hif.without _ _ _ _ hc h
  · exact (sound_while hr).without _ _ _ _ hc h
  · exact (sound_block hr).weaken (fun _ _ => Derives.stmtBlock) _ _ _ _ hc h
  · exact sound_assignmentOrCall hr _ _ _ _ hc h
  · cases h

theorem sound_parameter : SoundNode src .parameter (matchParameter rec) := by
  intro rest nodes n s' hc h
  unfold matchParameter mkParameter at h
  obtain ⟨id, rest, rfl, hid, hc, h⟩ := inv_require hc h
  obtain ⟨k, rest, rfl, hk, hc, h⟩ := inv_require hc h
  obtain ⟨ty, s1, h1, h⟩ := inv_bind h
  obtain ⟨u, rest, new, t, rfl, rfl, hd, hn, hl⟩ := sound_type hr _ _ _ _ hc h1
  have h := inv_extract h
  have h := inv_push h
  obtain ⟨_, h⟩ := inv_assert h
  obtain ⟨rfl, rfl⟩ := inv_ret h
  refine ⟨id :: k :: u, rest, new ++ [ty], _, by simp, by simp, ?_, ⟨[some t], rfl, ?_⟩,
    by simp; omega⟩
  · simpa [lexeme_ident hid, lexeme_tok hk (by decide)] using Derives.parameter hd
  · rw [← List.append_assoc]
    exact hn.pushed (by pfx)

theorem sound_parameterSequence : SoundNode src .optParameters (matchParameterSequence rec) := by
  intro rest nodes n s' hc h
  unfold matchParameterSequence at h
  obtain ⟨⟨pos, ps⟩, s1, ha, h⟩ := inv_bind h
  have hs : ((rec (.parameters [])).bind fun r => .ret r.2).run src ⟨rest, nodes⟩ =
      .ok ps s1 := by
    rw [run_bind, ha]; rfl
  obtain ⟨u, rest, new, hs, ts, rfl, rfl, hd, rfl, hk, hl⟩ := hr (.parameters []) _ _ _ _ hc hs
  obtain ⟨_, h⟩ := inv_assert h
  obtain ⟨rfl, rfl⟩ := inv_ret h
  exact ⟨u, rest, new, _, rfl, rfl, .someParameters hd, ⟨ts, rfl, hk⟩, by simp [hl]; omega⟩

omit hr in
/-- A part that is parsed if a condition on the next token holds, and absent otherwise. -/
theorem sound_optional {sym : Sym} {t : TokenType} {neg : Bool} {p : Prog Node}
    (hp : SoundNode src sym p) (hnone : Derives true sym [] [none]) :
    SoundHandle src sym ((peek t).bind fun b =>
      if b = neg then p.bind fun n => push n else .ret none) := by
  intro rest nodes h s' hc hrun
  have key : ∀ b : Bool, (if b = neg then p.bind fun n => push n else
      .ret none : Prog Handle).run src ⟨rest, nodes⟩ = .ok h s' →
      ∃ used rest' new o, rest = used ++ rest' ∧ s' = ⟨rest', nodes ++ new⟩ ∧
        Derives true sym (used.map (lexeme src)) [o] ∧ Kids (nodes ++ new) [h] [o] ∧
        new.length = sizes [o] ∧ (h = none ↔ o = none) := by
    intro b hb
    split at hb
    · obtain ⟨n, s1, h1, hb⟩ := inv_bind hb
      obtain ⟨u, rest', new, t, rfl, rfl, hd, hn, hl⟩ := hp _ _ _ _ hc h1
      cases hb
      refine ⟨u, rest', new ++ [n], some t, rfl, by simp, hd, ?_, by simp; omega, by simp⟩
      rw [← List.append_assoc]
      exact hn.pushed (by pfx)
    · obtain ⟨rfl, rfl⟩ := inv_ret hb
      exact ⟨[], rest, [], none, rfl, by simp, hnone, Kids.null, by simp, by simp⟩
  rcases inv_peek hc hrun with ⟨_, _, _, _, hrun⟩ | ⟨_, hrun⟩
  · exact key _ hrun
  · exact key _ hrun

theorem sound_requires : SoundNode src .optRequires (matchRequires rec) := by
  intro rest nodes n s' hc h
  unfold matchRequires at h
  obtain ⟨k, rest, rfl, hk, hc, h⟩ := inv_require hc h
  obtain ⟨u, rest', new, t, rfl, h2, hd, hn, hl⟩ := hr .expression _ _ _ _ hc h
  refine ⟨k :: u, rest', new, t, rfl, h2, ?_, hn, hl⟩
  simpa [lexeme_tok hk (by decide)] using Derives.someRequires hd

theorem sound_function : SoundAnnotated src .function (matchFunction rec) := by
  intro a A wa rest nodes n s' ha hda hc h
  unfold matchFunction mkFunction at h
  obtain ⟨k, rest, rfl, hk, hc, h⟩ := inv_require hc h
  obtain ⟨id, rest, rfl, hid, hc, h⟩ := inv_require hc h
  obtain ⟨lp, rest, rfl, hlp, hc, h⟩ := inv_require hc h
  obtain ⟨ph, s1, h1, h⟩ := inv_bind h
  have h1 : ((peek .right_parenthesis).bind fun b =>
      if b = false then (matchParameterSequence rec).bind fun n => push n
      else .ret none).run src ⟨rest, nodes⟩ = .ok ph s1 := by
    rw [← h1]; congr 2; funext b; cases b <;> rfl
  obtain ⟨u1, rest, new1, o1, rfl, rfl, hd1, hk1, hl1, _⟩ :=
    sound_optional (sound_parameterSequence hr) .noParameters _ _ _ _ hc h1
  obtain ⟨rp, rest, rfl, hrp, hc, h⟩ := inv_require hc.right h
  obtain ⟨ar, rest, rfl, har, hc, h⟩ := inv_require hc h
  obtain ⟨ty, s2, h2, h⟩ := inv_bind h
  obtain ⟨u2, rest, new2, t2, rfl, rfl, hd2, hn2, hl2⟩ := sound_type hr _ _ _ _ hc h2
  obtain ⟨rh, s3, h3, h⟩ := inv_bind h
  have h3 : ((peek .keyword_requires).bind fun b =>
      if b = true then (matchRequires rec).bind fun n => push n
      else .ret none).run src ⟨rest, nodes ++ new1 ++ new2⟩ = .ok rh s3 := by
    rw [← h3]; rfl
  obtain ⟨u3, rest, new3, o3, rfl, rfl, hd3, hk3, hl3, _⟩ :=
    sound_optional (sound_requires hr) .noRequires _ _ _ _ hc.right h3
  obtain ⟨b, s4, h4, h⟩ := inv_bind h
  obtain ⟨u4, rest, new4, t4, rfl, rfl, hd4, hn4, hl4⟩ := sound_block hr _ _ _ _ hc.right.right h4
  have h := inv_extract h
  obtain ⟨ah, h, hka⟩ := ann_push ha (by pfx) h
  have h := inv_push h
  have h := inv_push h
  obtain ⟨_, h⟩ := inv_assert h
  obtain ⟨_, h⟩ := inv_assert h
  obtain ⟨rfl, rfl⟩ := inv_ret h
  refine ⟨k :: id :: lp :: u1 ++ rp :: ar :: u2 ++ u3 ++ u4, rest,
    new1 ++ new2 ++ new3 ++ new4 ++ a.toList ++ [ty] ++ [b], _, by simp, by simp, ?_,
    ⟨[A] ++ [o1] ++ [some t2] ++ [o3] ++ [some t4], rfl, ?_⟩, by simp at hl1 hl3 ⊢; omega⟩
  · have := Derives.function (x := tokenText src id) hda hd1 hd2 hd3 hd4
    simpa [lexeme_tok hk (by decide), lexeme_ident hid, lexeme_tok hlp (by decide),
      lexeme_tok hrp (by decide), lexeme_tok har (by decide)] using this
  · simp only [← List.append_assoc]
    exact Kids.append (Kids.append (Kids.append (Kids.append (hka _ (by pfx))
      (hk1.mono (by pfx))) (NodeReads.pushed (hn2.mono (by pfx)) (by pfx)))
      (hk3.mono (by pfx))) (NodeReads.pushed (hn4.mono (by pfx)) (by pfx))

theorem sound_declaration : SoundNode src .declaration (matchDeclaration rec) := by
  intro rest nodes n s' hc h
  unfold matchDeclaration at h
  have h := inv_peekAny hc h
  have hfun := (sound_function hr).weaken (fun _ _ => Derives.declFunction)
  have hconst := (sound_const hr).weaken (fun _ _ => Derives.declConst)
  split at h
  · refine sound_annotated hr ?_ _ _ _ _ hc h
    intro an A wa rest nodes n s' _ _ hc h
    unfold matchAnnotatedDeclaration at h
    rcases inv_peek hc h with ⟨_, _, _, _, h⟩ | ⟨_, h⟩
    · exact ⟨_, hconst, h⟩
    rcases inv_peek hc h with ⟨_, _, _, _, h⟩ | ⟨_, h⟩
    · exact ⟨_, hfun, h⟩
    · cases h
  · exact hconst.without _ _ _ _ hc h
  · exact hfun.without _ _ _ _ hc h
  · exact (sound_staticAssert hr).weaken (fun _ _ => Derives.declStaticAssert) _ _ _ _ hc h
  · cases h

/-! ### Loops -/

omit hr in
/-- One more element of a loop. -/
theorem sound_step {D : List Spec.Terminal → List (Option Tree) → Prop} {acc hs : List Handle}
    {w w' : List Token} {rest' : List Token} {nodes new new' : List Node} {n : Node} {t : Tree}
    {ts : List (Option Tree)} {s' : State} {r : List Handle}
    (hn : NodeReads (nodes ++ new) n t) (hl : new.length + 1 = t.size)
    (hr : r = acc ++ [some (nodes ++ new).length] ++ hs)
    (hk : Kids (nodes ++ new ++ [n] ++ new') hs ts) (hl' : new'.length = sizes ts)
    (hs' : s' = ⟨rest', nodes ++ new ++ [n] ++ new'⟩)
    (hd : D ((w ++ w').map (lexeme src)) ([some t] ++ ts)) :
    ∃ used rest'' new'' hs'' ts'', w ++ w' ++ rest' = used ++ rest'' ∧
      s' = ⟨rest'', nodes ++ new''⟩ ∧ D (used.map (lexeme src)) ts'' ∧ r = acc ++ hs'' ∧
      Kids (nodes ++ new'') hs'' ts'' ∧ new''.length = sizes ts'' := by
  refine ⟨w ++ w', rest', new ++ [n] ++ new', [some (nodes ++ new).length] ++ hs,
    [some t] ++ ts, rfl, by simp [hs'], hd, by simp [hr], ?_, by simp; omega⟩
  simp only [← List.append_assoc]
  exact Kids.append (hn.pushed (by pfx)) hk

theorem sound_arguments (demand : Bool) (acc : List Handle) :
    SoundRule src (.arguments demand acc) (argumentsLoop rec demand acc) := by
  intro rest nodes r s' hc h
  unfold argumentsLoop at h
  have more : ∀ {s' : State} {r : List Handle}, ((rec .expression).bind fun e =>
      (push e).bind fun h => (expect .comma).bind fun c =>
        rec (.arguments c.isSome (acc ++ [h]))).run src ⟨rest, nodes⟩ = .ok r s' →
      ∃ used rest' new hs ts, rest = used ++ rest' ∧ s' = ⟨rest', nodes ++ new⟩ ∧
      (∃ w', used.map (lexeme src) = w' ++ [tok .right_parenthesis] ∧
        Derives true .arguments w' ts) ∧ r = acc ++ hs ∧ Kids (nodes ++ new) hs ts ∧
      new.length = sizes ts := by
    intro s' r h
    obtain ⟨e, s1, h1, h⟩ := inv_bind h
    obtain ⟨u, rest, new, t, rfl, rfl, hd, hn, hl⟩ := hr .expression _ _ _ _ hc h1
    have h := inv_push h
    rcases inv_expect hc.right h with ⟨k, rest, rfl, hk, hc2, h⟩ | ⟨_, h⟩
    · obtain ⟨u2, rest', new2, hs, ts, rfl, rfl, ⟨w, e', hd2⟩, rfl, hks, hl2⟩ :=
        hr (.arguments true _) _ _ _ _ hc2 h
      rw [show u ++ k :: (u2 ++ rest') = u ++ (k :: u2) ++ rest' by simp]
      refine sound_step (D := fun w ts => ∃ w', w = w' ++ [tok .right_parenthesis] ∧
        Derives true .arguments w' ts) hn hl rfl hks hl2 rfl ?_
      have := Derives.argumentsComma hd hd2
      refine ⟨_, ?_, this⟩
      simp [lexeme_tok hk (by decide), e']
    · obtain ⟨u2, rest', new2, hs, ts, rfl, rfl, ⟨w, e', hd2⟩, rfl, hks, hl2⟩ :=
        hr (.arguments false _) _ _ _ _ hc.right h
      rw [← List.append_assoc]
      refine sound_step (D := fun w ts => ∃ w', w = w' ++ [tok .right_parenthesis] ∧
        Derives true .arguments w' ts) hn hl rfl hks hl2 rfl ?_
      generalize hsy : (if false = true then Sym.arguments else .optArguments) = sy at hd2
      simp at hsy
      subst hsy
      cases hd2 with
      | noArguments =>
        exact ⟨u.map (lexeme src), by simp [e'], by simpa using Derives.argument hd⟩
      | someArguments hd2 =>
        refine ⟨_, ?_, Derives.argumentsNoComma rfl hd hd2⟩
        simp [e']
  cases demand with
  | true =>
    obtain ⟨used, rest', new, hs, ts, h1, h2, ⟨w, h3, h4⟩, h5, h6, h7⟩ := more h
    exact ⟨used, rest', new, hs, ts, h1, h2, ⟨w, h3, h4⟩, h5, h6, h7⟩
  | false =>
    rcases inv_expect hc h with ⟨k, rest, rfl, hk, hc2, h⟩ | ⟨_, h⟩
    · obtain ⟨rfl, rfl⟩ := inv_ret h
      refine ⟨[k], rest, [], [], [], rfl, by simp, ⟨[], ?_, .noArguments⟩, by simp, .nil, by simp⟩
      simp [lexeme_tok hk (by decide)]
    · obtain ⟨used, rest', new, hs, ts, h1, h2, ⟨w, h3, h4⟩, h5, h6, h7⟩ := more h
      exact ⟨used, rest', new, hs, ts, h1, h2, ⟨w, h3, .someArguments h4⟩, h5, h6, h7⟩

theorem sound_parameters (acc : List Handle) :
    SoundRule src (.parameters acc) (parametersLoop rec acc) := by
  intro rest nodes r s' hc h
  obtain ⟨⟨pos, ps⟩, s1, h, h0⟩ := inv_bind h
  cases h0
  unfold parametersLoop at h
  obtain ⟨p, s1, h1, h⟩ := inv_bind h
  obtain ⟨u, rest, new, t, rfl, rfl, hd, hn, hl⟩ := sound_parameter hr _ _ _ _ hc h1
  have h := inv_push h
  rcases inv_expect hc.right h with ⟨k, rest, rfl, hk, hc2, h⟩ | ⟨_, h⟩
  · have h' : ((rec (.parameters (acc ++ [some (nodes ++ new).length]))).bind
        fun r => .ret r.2).run src ⟨rest, nodes ++ new ++ [p]⟩ = .ok ps s' := by
      rw [run_bind, h]; rfl
    obtain ⟨u2, rest', new2, hs, ts, rfl, rfl, hd2, rfl, hks, hl2⟩ :=
      hr (.parameters _) _ _ _ _ hc2 h'
    rw [show u ++ k :: (u2 ++ rest') = u ++ (k :: u2) ++ rest' by simp]
    refine sound_step hn hl rfl hks hl2 rfl ?_
    have := Derives.parameters hd hd2
    simpa [lexeme_tok hk (by decide)] using this
  · cases h
    refine ⟨u, rest, new ++ [p], [some (nodes ++ new).length], [some t], rfl, by simp,
      .lastParameter hd, rfl, ?_, by simp; omega⟩
    rw [← List.append_assoc]
    exact hn.pushed (by pfx)

theorem sound_annotations (acc : List Handle) :
    SoundRule src (.annotations acc) (annotationsLoop rec acc) := by
  intro rest nodes r s' hc h
  obtain ⟨⟨pos, ps⟩, s1, h, h0⟩ := inv_bind h
  cases h0
  unfold annotationsLoop at h
  obtain ⟨p, s1, h1, h⟩ := inv_bind h
  obtain ⟨u, rest, new, t, rfl, rfl, hd, hn, hl⟩ := sound_annotation hr _ _ _ _ hc h1
  have h := inv_push h
  rcases inv_peek hc.right h with ⟨_, _, _, _, h⟩ | ⟨_, h⟩
  · simp only [if_true] at h
    have h' : ((rec (.annotations (acc ++ [some (nodes ++ new).length]))).bind
        fun r => .ret r.2).run src ⟨rest, nodes ++ new ++ [p]⟩ = .ok ps s' := by
      rw [run_bind, h]; rfl
    obtain ⟨u2, rest', new2, hs, ts, rfl, rfl, hd2, rfl, hks, hl2⟩ :=
      hr (.annotations _) _ _ _ _ hc.right h'
    rw [← List.append_assoc]
    refine sound_step hn hl rfl hks hl2 rfl ?_
    simpa using Derives.annotations hd hd2
  · cases h
    refine ⟨u, rest, new ++ [p], [some (nodes ++ new).length], [some t], rfl, by simp,
      .lastAnnotation hd, rfl, ?_, by simp; omega⟩
    rw [← List.append_assoc]
    exact hn.pushed (by pfx)

theorem sound_annotationArguments (acc : List Handle) :
    SoundRule src (.annotationArguments acc) (annotationArgumentsLoop rec acc) := by
  intro rest nodes r s' hc h
  unfold annotationArgumentsLoop at h
  obtain ⟨p, s1, h1, h⟩ := inv_bind h
  obtain ⟨u, rest, new, t, rfl, rfl, hd, hn, hl⟩ := sound_annotationArgument _ _ _ _ hc h1
  have h := inv_push h
  rcases inv_expect hc.right h with ⟨k, rest, rfl, hk, hc2, h⟩ | ⟨_, h⟩
  · obtain ⟨u2, rest', new2, hs, ts, rfl, rfl, hd2, rfl, hks, hl2⟩ :=
      hr (.annotationArguments _) _ _ _ _ hc2 h
    rw [show u ++ k :: (u2 ++ rest') = u ++ (k :: u2) ++ rest' by simp]
    refine sound_step hn hl rfl hks hl2 rfl ?_
    have := Derives.annotationArguments hd hd2
    simpa [lexeme_tok hk (by decide)] using this
  · cases h
    refine ⟨u, rest, new ++ [p], [some (nodes ++ new).length], [some t], rfl, by simp,
      .annotationArgument hd, rfl, ?_, by simp; omega⟩
    rw [← List.append_assoc]
    exact hn.pushed (by pfx)

theorem sound_statements (acc : List Handle) :
    SoundRule src (.statements acc) (statementsLoop rec acc) := by
  intro rest nodes r s' hc h
  unfold statementsLoop at h
  rcases inv_expect hc h with ⟨k, rest, rfl, hk, hc2, h⟩ | ⟨_, h⟩
  · obtain ⟨rfl, rfl⟩ := inv_ret h
    refine ⟨[k], rest, [], [], [], rfl, by simp, ⟨[], ?_, .noStatements⟩, by simp, .nil, by simp⟩
    simp [lexeme_tok hk (by decide)]
  · obtain ⟨p, s1, h1, h⟩ := inv_bind h
    obtain ⟨u, rest, new, t, rfl, rfl, hd, hn, hl⟩ := sound_statement hr _ _ _ _ hc h1
    have h := inv_push h
    obtain ⟨u2, rest', new2, hs, ts, rfl, rfl, ⟨w, e, hd2⟩, rfl, hks, hl2⟩ :=
      hr (.statements _) _ _ _ _ hc.right h
    rw [← List.append_assoc]
    refine sound_step (D := fun w ts => ∃ w', w = w' ++ [tok .right_brace] ∧
      Derives true .statements w' ts) hn hl rfl hks hl2 rfl ?_
    refine ⟨_, ?_, Derives.statements hd hd2⟩
    simp [e]

theorem sound_declarations (acc : List Handle) :
    SoundRule src (.declarations acc) (declarationsLoop rec acc) := by
  refine ⟨?_, ?_⟩
  · intro rest nodes r s' hc h
    unfold declarationsLoop at h
    have h := inv_peekAny hc h
    split at h
    · obtain ⟨rfl, rfl⟩ := inv_ret h
      exact ⟨[], rest, [], [], [], rfl, by simp, .noDeclarations, by simp, .nil, by simp⟩
    · obtain ⟨p, s1, h1, h⟩ := inv_bind h
      obtain ⟨u, rest, new, t, rfl, rfl, hd, hn, hl⟩ := sound_declaration hr _ _ _ _ hc h1
      have h := inv_push h
      obtain ⟨u2, rest', new2, hs, ts, rfl, rfl, hd2, rfl, hks, hl2⟩ :=
        (hr (.declarations _)).1 _ _ _ _ hc.right h
      rw [← List.append_assoc]
      refine sound_step hn hl rfl hks hl2 rfl ?_
      simpa using Derives.declarations hd hd2
  · intro rest nodes r s' hc h
    unfold declarationsLoop at h
    have h := inv_peekAny hc h
    split at h
    · rename_i he
      rw [(inv_ret h).2]
      simpa using he
    · obtain ⟨p, s1, h1, h⟩ := inv_bind h
      obtain ⟨u, rest, new, t, rfl, rfl, hd, hn, hl⟩ := sound_declaration hr _ _ _ _ hc h1
      have h := inv_push h
      exact (hr (.declarations _)).2 _ _ _ _ hc.right h

theorem sound_body : ∀ r, SoundRule src r (body rec r)
  | .expression => sound_expression hr
  | .ifExpression => sound_ifExpression hr
  | .arguments d acc => sound_arguments hr d acc
  | .parameters acc => sound_parameters hr acc
  | .annotations acc => sound_annotations hr acc
  | .annotationArguments acc => sound_annotationArguments hr acc
  | .ifStatement a => sound_if hr a
  | .statements acc => sound_statements hr acc
  | .declarations acc => sound_declarations hr acc

theorem sound_program : SoundNode src .program (matchProgram rec) ∧
    ∀ rest nodes n s', NoC rest → (matchProgram rec).run src ⟨rest, nodes⟩ = .ok n s' →
      s'.rest = [] := by
  constructor
  · intro rest nodes n s' hc h
    unfold matchProgram at h
    obtain ⟨p, s1, h1, h⟩ := inv_bind h
    obtain ⟨u, rest, new, t, rfl, rfl, hd, hn, hl⟩ := sound_declaration hr _ _ _ _ hc h1
    have h := inv_push h
    obtain ⟨ds, s2, h2, h⟩ := inv_bind h
    obtain ⟨u2, rest', new2, hs, ts, rfl, rfl, hd2, rfl, hks, hl2⟩ :=
      (hr (.declarations _)).1 _ _ _ _ hc.right h2
    obtain ⟨rfl, rfl⟩ := inv_ret h
    refine ⟨u ++ u2, rest', new ++ [p] ++ new2, _, by simp, by simp, ?_,
      ⟨[some t] ++ ts, rfl, ?_⟩, by simp; omega⟩
    · simpa using Derives.program hd hd2
    · simp only [← List.append_assoc]
      exact Kids.append (hn.pushed (by pfx)) hks
  · intro rest nodes n s' hc h
    unfold matchProgram at h
    obtain ⟨p, s1, h1, h⟩ := inv_bind h
    obtain ⟨u, rest, new, t, rfl, rfl, hd, hn, hl⟩ := sound_declaration hr _ _ _ _ hc h1
    have h := inv_push h
    obtain ⟨ds, s2, h2, h⟩ := inv_bind h
    have := (hr (.declarations _)).2 _ _ _ _ hc.right h2
    cases h
    exact this

end

theorem sound_parseRule : ∀ n r, SoundRule src r (parseRule n r)
  | 0 => fun r => by
    cases r with
    | expression => exact fun _ _ _ _ _ h => nomatch h
    | ifExpression => exact fun _ _ _ _ _ h => nomatch h
    | arguments => exact fun _ _ _ _ _ h => nomatch h
    | parameters => exact fun _ _ _ _ _ h => nomatch h
    | annotations => exact fun _ _ _ _ _ h => nomatch h
    | annotationArguments => exact fun _ _ _ _ _ h => nomatch h
    | ifStatement => exact fun _ _ _ _ _ _ _ _ _ h => nomatch h
    | statements => exact fun _ _ _ _ _ h => nomatch h
    | declarations => exact ⟨fun _ _ _ _ _ h => (nomatch h), fun _ _ _ _ _ h => (nomatch h)⟩
  | n + 1 => sound_body (sound_parseRule n)

end Bms.Parse
