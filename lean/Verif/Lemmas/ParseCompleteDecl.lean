import Verif.Lemmas.ParseComplete

/-!
# What the grammar derives is accepted by the parser: declarations and statements
-/

namespace Bms.Parse

open Spec (Tree Derives Reads ReadsAll Sym tok ident lexeme tokenText textual unobstructed
  comparisonOperators)

variable {α β : Type} {src : List Char} {m : Nat} {rec : (r : Rule) → Prog r.Result}

theorem snd_ok {p : Prog (α × β)} {s s' : State} {b : β}
    (h : (p.bind fun r => .ret r.2).run src s = .ok b s') :
    ∃ a, p.run src s = .ok (a, b) s' := by
  rw [run_bind] at h
  cases hp : p.run src s with
  | ok r s1 => rw [hp] at h; cases h; exact ⟨r.1, rfl⟩
  | err e s1 => rw [hp] at h; cases h
  | throws => rw [hp] at h; cases h
  | diverge => rw [hp] at h; cases h

theorem Kids.isEmpty {ns : List Node} {hs : List Handle} {ts : List (Option Tree)}
    (h : Kids ns hs ts) (ht : ts ≠ []) : (!hs.isEmpty) = true := by
  cases h with
  | nil => exact absurd rfl ht
  | null _ => rfl
  | child _ _ _ => rfl

theorem nextIn_of_starts {L : List TokenType} {w : List Spec.Terminal} {used : List Token}
    (h : StartsIn L w) (he : used.map (lexeme src) = w) (rest : List Token) :
    NextIn L (used ++ rest) := by
  obtain ⟨x, w', rfl, hx⟩ := h
  obtain ⟨t, u, rfl, ht, _⟩ := split_cons he
  exact ⟨t, u ++ rest, rfl, by rw [show t.type = x.1 from congrArg Prod.fst ht]; exact hx⟩

section
variable (hfix : ∀ r s, s.rest.length ≤ m → (rec r).run src s = (body rec r).run src s)

/-! ### Annotations -/

theorem c_value {u : List Token} {v : Token} {ty : TokenType} {x : List Char} {rest : List Token}
    {key : List Char} {pos : Token → Span} {e : RuleError} {nodes : List Node}
    (hc : Ctx src m (v :: rest)) (hv : lexeme src v = (ty, x))
    (ht : ty ∈ Spec.integerLiterals ++ Spec.booleanLiterals) :
    ((expectIf TokenType.isLiteral).bind fun o => match o with
        | none => Prog.fail e
        | some value => (extract value).bind fun valueString =>
          if value.type = .string_literal then
            (assert (decide (2 ≤ valueString.length))).bind fun _ =>
              Prog.ret (⟨pos value, .annotation_argument key
                ((valueString.drop 1).take (valueString.length - 2)) value.type, []⟩ : Node)
          else Prog.ret ⟨pos value, .annotation_argument key valueString value.type, []⟩).run src
        ⟨v :: rest, nodes⟩ = .ok ⟨pos v, .annotation_argument key x ty, []⟩ ⟨rest, nodes⟩ := by
  have h1 := type_of_lexeme hv
  refine Eq.trans (fwd_expectIf hc (by rw [h1]; revert ht; cases ty <;> decide)) ?_
  refine Eq.trans (fwd_extract hc.inRange (text_of_lexeme hv (by revert ht; cases ty <;> decide))) ?_
  rw [if_neg (by rw [h1]; intro e; subst e; revert ht; decide), h1]
  rfl

theorem c_valueString {v : Token} {q q' : Char} {x : List Char} {rest : List Token}
    {key : List Char} {pos : Token → Span} {e : RuleError} {nodes : List Node}
    (hc : Ctx src m (v :: rest)) (hv : lexeme src v = (.string_literal, q :: x ++ [q'])) :
    ((expectIf TokenType.isLiteral).bind fun o => match o with
        | none => Prog.fail e
        | some value => (extract value).bind fun valueString =>
          if value.type = .string_literal then
            (assert (decide (2 ≤ valueString.length))).bind fun _ =>
              Prog.ret (⟨pos value, .annotation_argument key
                ((valueString.drop 1).take (valueString.length - 2)) value.type, []⟩ : Node)
          else Prog.ret ⟨pos value, .annotation_argument key valueString value.type, []⟩).run src
        ⟨v :: rest, nodes⟩ =
      .ok ⟨pos v, .annotation_argument key x .string_literal, []⟩ ⟨rest, nodes⟩ := by
  have h1 := type_of_lexeme hv
  refine Eq.trans (fwd_expectIf hc (by rw [h1]; rfl)) ?_
  refine Eq.trans (fwd_extract hc.inRange (text_of_lexeme hv (by decide))) ?_
  rw [if_pos h1, h1]
  refine Eq.trans (fwd_assert (by simp)) ?_
  simp [Prog.run]

/-- A value without a key. -/
theorem c_argumentNode {ty : TokenType} {y x : List Char} (hty : ty ≠ .identifier)
    (hv : ∀ {v : Token} {rest : List Token} {e : RuleError} {nodes : List Node},
      Ctx src m (v :: rest) → lexeme src v = (ty, y) →
      ((expectIf TokenType.isLiteral).bind fun o => match o with
        | none => Prog.fail e
        | some value => (extract value).bind fun valueString =>
          if value.type = .string_literal then
            (assert (decide (2 ≤ valueString.length))).bind fun _ =>
              Prog.ret (⟨value.span, .annotation_argument []
                ((valueString.drop 1).take (valueString.length - 2)) value.type, []⟩ : Node)
          else Prog.ret ⟨value.span, .annotation_argument [] valueString value.type, []⟩).run src
        ⟨v :: rest, nodes⟩ = .ok ⟨v.span, .annotation_argument [] x ty, []⟩ ⟨rest, nodes⟩) :
    CNode src m matchAnnotationArgument Any [(ty, y)]
      [some (.node (.annotation_argument [] x ty) [])] := by
  refine ⟨_, rfl, ?_⟩
  intro used rest he hc _ nodes
  obtain ⟨v, u, rfl, hl, he⟩ := split_cons he
  obtain rfl := split_nil he
  norm
  exact mk_ok (by
    steps [fwd_expect_none hc (NextNot.cons _ (type_of_lexeme hl) hty), hv hc hl])
    (List.prefix_refl _) (by exact ⟨[], rfl, .nil⟩)

/-- A value with a key. -/
theorem c_keyNode {k : List Char} {ty : TokenType} {y x : List Char}
    (hv : ∀ {v : Token} {rest : List Token} {e : RuleError} {nodes : List Node} {pos : Span},
      Ctx src m (v :: rest) → lexeme src v = (ty, y) →
      ((expectIf TokenType.isLiteral).bind fun o => match o with
        | none => Prog.fail e
        | some value => (extract value).bind fun valueString =>
          if value.type = .string_literal then
            (assert (decide (2 ≤ valueString.length))).bind fun _ =>
              Prog.ret (⟨pos, .annotation_argument k
                ((valueString.drop 1).take (valueString.length - 2)) value.type, []⟩ : Node)
          else Prog.ret ⟨pos, .annotation_argument k valueString value.type, []⟩).run src
        ⟨v :: rest, nodes⟩ = .ok ⟨pos, .annotation_argument k x ty, []⟩ ⟨rest, nodes⟩) :
    CNode src m matchAnnotationArgument Any [ident k, tok .assign, (ty, y)]
      [some (.node (.annotation_argument k x ty) [])] := by
  refine ⟨_, rfl, ?_⟩
  intro used rest he hc _ nodes
  obtain ⟨id, u, rfl, hid, he⟩ := split_cons he
  obtain ⟨eq, u, rfl, heq, he⟩ := split_cons he
  obtain ⟨v, u, rfl, hl, he⟩ := split_cons he
  obtain rfl := split_nil he
  norm
  have h1 : (require .annotation_argument .assign).run src ⟨eq :: v :: rest, nodes⟩ =
      .ok eq ⟨v :: rest, nodes⟩ := by
    have := fwd_require (r := .annotation_argument) (f := fun t => .ret t) (nodes := nodes)
      hc.tail (type_tok heq)
    rw [run_bind] at this
    revert this
    cases (require .annotation_argument .assign).run src ⟨eq :: v :: rest, nodes⟩ <;>
      intro this <;> first | exact this | cases this
  exact mk_ok (by
    steps [fwd_expect hc (type_ident hid), fwd_bind h1, fwd_extract hc.inRange (text_ident hid),
      hv (pos := id.span) hc.tail.tail hl])
    (List.prefix_refl _) (by exact ⟨[], rfl, .nil⟩)

theorem c_argumentValue {t x} (ht : t ∈ Spec.integerLiterals ++ Spec.booleanLiterals) :
    Complete src m rec .annotationArgument [(t, x)]
      [some (.node (.annotation_argument [] x t) [])] := by
  refine ⟨c_argumentNode (by intro e; subst e; revert ht; decide) fun hc hl =>
    c_value (u := []) (pos := fun v => v.span) hc hl ht, _, _, rfl, ?_⟩
  show t ∈ _
  revert ht; cases t <;> decide

theorem c_argumentString {q x q'} : Complete src m rec .annotationArgument
    [(.string_literal, q :: x ++ [q'])]
    [some (.node (.annotation_argument [] x .string_literal) [])] := by
  refine ⟨c_argumentNode (by decide) fun hc hl => c_valueString (pos := fun v => v.span) hc hl,
    _, _, rfl, ?_⟩
  show TokenType.string_literal ∈ _
  decide

theorem c_keyValue {k t x} (ht : t ∈ Spec.integerLiterals ++ Spec.booleanLiterals) :
    Complete src m rec .annotationArgument [ident k, tok .assign, (t, x)]
      [some (.node (.annotation_argument k x t) [])] :=
  ⟨c_keyNode fun hc hl => c_value (u := []) (pos := fun _ => _) hc hl ht, _, _, rfl,
    List.mem_cons_self⟩

theorem c_keyString {k q x q'} : Complete src m rec .annotationArgument
    [ident k, tok .assign, (.string_literal, q :: x ++ [q'])]
    [some (.node (.annotation_argument k x .string_literal) [])] :=
  ⟨c_keyNode fun hc hl => c_valueString (pos := fun _ => _) hc hl, _, _, rfl,
    List.mem_cons_self⟩

theorem c_annotationArgument {w ts} (ih : Complete src m rec .annotationArgument w ts) :
    Complete src m rec .annotationArguments w ts := by
  obtain ⟨⟨t, rfl, ih⟩, hst⟩ := ih
  refine ⟨?_, hst, by simp⟩
  intro used rest acc he hc hn nodes
  obtain ⟨n, ns, hrun, hp, hr⟩ := ih used rest he hc trivial nodes
  refine ⟨[some ns.length], ns ++ [n], ?_, by ext, hr.pushed (by ext)⟩
  steps [fwd_bind hrun, fwd_push, fwd_expect_none hc.right hn]

include hfix in
theorem c_annotationArguments {w ts w' ts'} (ih : Complete src m rec .annotationArgument w ts)
    (ih' : Complete src m rec .annotationArguments w' ts') :
    Complete src m rec .annotationArguments (w ++ tok .comma :: w') (ts ++ ts') := by
  obtain ⟨⟨t, rfl, ih⟩, hst⟩ := ih
  obtain ⟨ih', _, _⟩ := ih'
  refine ⟨?_, hst.append, by simp⟩
  intro used rest acc he hc hn nodes
  norm
  obtain ⟨u, u', rfl, hu, he⟩ := split_append he
  obtain ⟨c, u', rfl, hcm, he⟩ := split_cons he
  norm
  obtain ⟨n, ns, hrun, hp, hr⟩ := ih u _ hu hc trivial nodes
  obtain ⟨hs, ns', hrun', hp', hk⟩ := ih' u' rest (acc ++ [some ns.length]) he hc.right.tail hn
    (ns ++ [n])
  refine ⟨[some ns.length] ++ hs, ns', ?_, by ext, Kids.append (hr.pushed hp') hk⟩
  rw [← List.append_assoc]
  steps [fwd_bind hrun, fwd_push, fwd_expect hc.right (type_tok hcm),
    (hfix (.annotationArguments _) _ hc.right.tail.len).trans hrun']

theorem c_annotation {x} :
    Complete src m rec .annotation [tok .at_sign, ident x] [some (.node (.annotation x) [])] := by
  refine ⟨⟨_, rfl, ?_⟩, _, rfl⟩
  intro used rest he hc hn nodes
  obtain ⟨a, u, rfl, ha, he⟩ := split_cons he
  obtain ⟨id, u, rfl, hid, he⟩ := split_cons he
  obtain rfl := split_nil he
  norm
  exact mk_ok (by
    steps [fwd_require hc (type_tok ha), fwd_require hc.tail (type_ident hid),
      fwd_handle (a := []) (s' := ⟨rest, nodes⟩) (by steps [fwd_expect_none hc.tail.tail hn]),
      fwd_extract hc.tail.inRange (text_ident hid)])
    (List.prefix_refl _) (by exact ⟨[], rfl, .nil⟩)

theorem c_annotationEmpty {x} : Complete src m rec .annotation
    [tok .at_sign, ident x, tok .left_parenthesis, tok .right_parenthesis]
    [some (.node (.annotation x) [])] := by
  refine ⟨⟨_, rfl, ?_⟩, _, rfl⟩
  intro used rest he hc hn nodes
  obtain ⟨a, u, rfl, ha, he⟩ := split_cons he
  obtain ⟨id, u, rfl, hid, he⟩ := split_cons he
  obtain ⟨lp, u, rfl, hlp, he⟩ := split_cons he
  obtain ⟨rp, u, rfl, hrp, he⟩ := split_cons he
  obtain rfl := split_nil he
  norm
  exact mk_ok (by
    steps [fwd_require hc (type_tok ha), fwd_require hc.tail (type_ident hid),
      fwd_handle (a := []) (s' := ⟨rest, nodes⟩) (by
        steps [fwd_expect hc.tail.tail (type_tok hlp), fwd_expect hc.tail.tail.tail (type_tok hrp)]),
      fwd_extract hc.tail.inRange (text_ident hid)])
    (List.prefix_refl _) (by exact ⟨[], rfl, .nil⟩)

include hfix in
theorem c_annotationArgs {x w ts} (ih : Complete src m rec .annotationArguments w ts) :
    Complete src m rec .annotation
      (tok .at_sign :: ident x :: tok .left_parenthesis :: w ++ [tok .right_parenthesis])
      [some (.node (.annotation x) ts)] := by
  obtain ⟨ih, hst, hts⟩ := ih
  refine ⟨⟨_, rfl, ?_⟩, _, rfl⟩
  intro used rest he hc hn nodes
  norm
  obtain ⟨a, u, rfl, ha, he⟩ := split_cons he
  obtain ⟨id, u, rfl, hid, he⟩ := split_cons he
  obtain ⟨lp, u, rfl, hlp, he⟩ := split_cons he
  obtain ⟨u, u', rfl, hu, he⟩ := split_append he
  obtain ⟨rp, u', rfl, hrp, he⟩ := split_cons he
  obtain rfl := split_nil he
  norm
  obtain ⟨hs, ns, hrun, hp, hk⟩ := ih u (rp :: rest) [] hu hc.tail.tail.tail
    (NextNot.cons _ (type_tok hrp) (by decide)) nodes
  have hrun := (hfix (.annotationArguments []) _ hc.tail.tail.tail.len).trans hrun
  simp only [List.nil_append] at hrun
  have hnx := nextIn_of_starts hst hu (rp :: rest)
  exact mk_ok (by
    steps [fwd_require hc (type_tok ha), fwd_require hc.tail (type_ident hid),
      fwd_handle (a := hs) (s' := ⟨rest, ns⟩) (by
        steps [fwd_expect hc.tail.tail (type_tok hlp),
          fwd_expect_none hc.tail.tail.tail (hnx.not (by decide)),
          fwd_bind (a := hs) (s' := ⟨rp :: rest, ns⟩) (by
            steps [fwd_bind hrun, fwd_assert (hk.isEmpty hts)]),
          fwd_require hc.tail.tail.tail.right (type_tok hrp)]),
      fwd_extract hc.tail.inRange (text_ident hid)])
    hp (by exact ⟨ts, rfl, hk⟩)

theorem c_lastAnnotation {w ts} (ih : Complete src m rec .annotation w ts) :
    Complete src m rec .annotations w ts := by
  obtain ⟨⟨t, rfl, ih⟩, hst⟩ := ih
  refine ⟨?_, hst, by simp⟩
  intro used rest acc he hc hn nodes
  obtain ⟨n, ns, hrun, hp, hr⟩ := ih used rest he hc hn.2 nodes
  refine ⟨[some ns.length], ns ++ [n], ?_, by ext, hr.pushed (by ext)⟩
  steps [fwd_bind (a := (n.pos, acc ++ [some ns.length])) (s' := ⟨rest, ns ++ [n]⟩) (by
    steps [fwd_bind hrun, fwd_push, fwd_peek_none hc.right hn.1])]

include hfix in
theorem c_annotations {w ts w' ts'} (ih : Complete src m rec .annotation w ts)
    (ih' : Complete src m rec .annotations w' ts') :
    Complete src m rec .annotations (w ++ w') (ts ++ ts') := by
  obtain ⟨⟨t, rfl, ih⟩, w1, rfl⟩ := ih
  obtain ⟨ih', ⟨w2, rfl⟩, _⟩ := ih'
  refine ⟨?_, ⟨_, rfl⟩, by simp⟩
  intro used rest acc he hc hn nodes
  obtain ⟨u, u', rfl, hu, he⟩ := split_append he
  have he' := he
  obtain ⟨a, u', rfl, ha, he⟩ := split_cons he
  norm
  obtain ⟨n, ns, hrun, hp, hr⟩ := ih u _ hu hc (NextNot.cons _ (type_tok ha) (by decide)) nodes
  obtain ⟨hs, ns', hrun', hp', hk⟩ := ih' (a :: u') rest (acc ++ [some ns.length]) he'
    hc.right hn (ns ++ [n])
  obtain ⟨sp, hrun'⟩ := snd_ok hrun'
  refine ⟨[some ns.length] ++ hs, ns', ?_, by ext, Kids.append (hr.pushed hp') hk⟩
  rw [← List.append_assoc]
  steps [fwd_bind (a := (sp, acc ++ [some ns.length] ++ hs)) (s' := ⟨rest, ns'⟩) (by
    steps [fwd_bind hrun, fwd_push, fwd_peek hc.right (type_tok ha),
      (hfix (.annotations _) _ hc.right.len).trans hrun'])]

theorem c_noAnnotations : Complete src m rec .optAnnotations [] [none] :=
  ⟨none, rfl, .inl ⟨rfl, rfl⟩⟩

include hfix in
theorem c_someAnnotations {w ts} (ih : Complete src m rec .annotations w ts) :
    Complete src m rec .optAnnotations w [some (.node .annotation_list ts)] := by
  obtain ⟨ih, ⟨w', rfl⟩, hts⟩ := ih
  refine ⟨_, rfl, .inr ⟨_, w', rfl, rfl, ?_⟩⟩
  intro used rest he hc hn nodes
  obtain ⟨hs, ns, hrun, hp, hk⟩ := ih used rest [] he hc hn nodes
  obtain ⟨sp, hrun⟩ := snd_ok hrun
  have hrun := (hfix (.annotations []) _ hc.len).trans hrun
  simp only [List.nil_append] at hrun
  exact mk_ok (by steps [fwd_bind hrun, fwd_assert (hk.isEmpty hts)]) hp (by exact ⟨ts, rfl, hk⟩)

/-! ### Declarations -/

include hfix in
theorem c_initializer {w e} (ih : Complete src m rec .expression w e) :
    Complete src m rec .initializer (tok .assign :: w) e := by
  obtain ⟨⟨t, rfl, ih⟩, _⟩ := ih
  refine ⟨⟨t, rfl, ?_⟩, _, rfl⟩
  intro used rest he hc hn nodes
  obtain ⟨k, u, rfl, hk, he⟩ := split_cons he
  norm
  obtain ⟨n, ns, hrun, hp, hr⟩ := ih u rest he hc.tail hn nodes
  exact ⟨n, ns, by
    steps [fwd_require hc (type_tok hk), (hfix .expression _ hc.tail.len).trans hrun], hp, hr⟩

theorem c_const {wa a x wt t w e} (iha : Complete src m rec .optAnnotations wa a)
    (iht : Complete src m rec .optType wt t) (ih : Complete src m rec .initializer w e) :
    Complete src m rec .const_ (wa ++ tok .keyword_const :: ident x :: wt ++ w ++ [tok .semicolon])
      [some (.node (.const x) (a ++ t ++ e))] := by
  obtain ⟨A, rfl, hA⟩ := iha
  obtain ⟨⟨o, rfl, iht⟩, _⟩ := iht
  obtain ⟨⟨t, rfl, ih⟩, w0, rfl⟩ := ih
  refine ⟨wa, A, tok .keyword_const, ident x :: wt ++ (tok .assign :: w0) ++ [tok .semicolon], _,
    by simp, rfl, hA, rfl, ?_⟩
  intro used rest he hc _ nodes an han
  norm
  obtain ⟨k, u, rfl, hk, he⟩ := split_cons he
  obtain ⟨id, u, rfl, hid, he⟩ := split_cons he
  obtain ⟨u, u', rfl, hu, he⟩ := split_append he
  rw [show tok .assign :: (w0 ++ [tok .semicolon]) = (tok .assign :: w0) ++ [tok .semicolon]
    from rfl] at he
  obtain ⟨u', u'', rfl, hu', he⟩ := split_append he
  obtain ⟨sc, u'', rfl, hsc, he⟩ := split_cons he
  obtain rfl := split_nil he
  norm
  have hnx : NextIn [.assign] (u' ++ sc :: rest) := nextIn_of_starts ⟨_, _, rfl, by simp⟩ hu' _
  obtain ⟨h, ns, hrun, hp, hkd, _⟩ := iht u _ hu hc.tail.tail (hnx.not (by decide)) nodes
  obtain ⟨n, ns', hrun', hp', hr⟩ := ih u' _ hu' hc.tail.tail.right
    (.cons _ (type_tok hsc) (by decide)) ns
  obtain ⟨h', ns'', hrun'', hp'', hka⟩ := fwd_ann (src := src) han (hp.trans hp') rest
  have p1 : ns <+: ns'' ++ [n] := by ext
  exact mk_ok (ns := ns'' ++ [n]) (by
    steps [fwd_require hc (type_tok hk), fwd_require hc.tail (type_ident hid),
      fwd_extract hc.tail.inRange (text_ident hid), fwd_bind hrun, fwd_bind hrun',
      fwd_require hc.tail.tail.right.right (type_tok hsc), hrun'', fwd_push, fwd_assert rfl])
    (hp.trans p1) (by
      exact ⟨_, rfl, Kids.append (Kids.append (hka.mono (by ext)) (hkd.mono p1))
        ((hr.mono hp'').pushed (by ext))⟩)

theorem c_letType {wa a x wt t} (iha : Complete src m rec .optAnnotations wa a)
    (iht : Complete src m rec .type wt t) :
    Complete src m rec .let_
      (wa ++ tok .keyword_let :: ident x :: tok .colon :: wt ++ [tok .semicolon])
      [some (.node (.let x) (a ++ t ++ [none]))] := by
  obtain ⟨A, rfl, hA⟩ := iha
  obtain ⟨t, rfl, iht⟩ := iht
  refine ⟨wa, A, tok .keyword_let, ident x :: tok .colon :: wt ++ [tok .semicolon], _,
    by simp, rfl, hA, rfl, ?_⟩
  intro used rest he hc _ nodes an han
  norm
  obtain ⟨k, u, rfl, hk, he⟩ := split_cons he
  obtain ⟨id, u, rfl, hid, he⟩ := split_cons he
  obtain ⟨c, u, rfl, hcl, he⟩ := split_cons he
  obtain ⟨u, u', rfl, hu, he⟩ := split_append he
  obtain ⟨sc, u'', rfl, hsc, he⟩ := split_cons he
  obtain rfl := split_nil he
  norm
  obtain ⟨n, ns, hrun, hp, hr⟩ := iht u _ hu hc.tail.tail.tail trivial nodes
  have hc2 := hc.tail.tail.tail.right
  obtain ⟨h', ns'', hrun'', hp'', hka⟩ := fwd_ann (src := src) han
    (hp.trans (List.prefix_append ns [n])) rest
  exact mk_ok (by
    steps [fwd_require hc (type_tok hk), fwd_require hc.tail (type_ident hid),
      fwd_extract hc.tail.inRange (text_ident hid),
      fwd_bind (a := some ns.length) (s' := ⟨sc :: rest, ns ++ [n]⟩) (by
        steps [fwd_expect hc.tail.tail (type_tok hcl), fwd_bind hrun]),
      fwd_peek_none hc2 (NextNot.cons _ (type_tok hsc) (by decide)),
      fwd_bind (a := none) (s' := ⟨sc :: rest, ns ++ [n]⟩) rfl,
      fwd_require hc2 (type_tok hsc), hrun'', fwd_assert rfl])
    ((hp.trans (List.prefix_append ns [n])).trans hp'') (by
      exact ⟨_, rfl, Kids.append (Kids.append hka (hr.pushed hp'')) Kids.null⟩)

theorem c_letInit {wa a x wt t w e} (iha : Complete src m rec .optAnnotations wa a)
    (iht : Complete src m rec .optType wt t) (ih : Complete src m rec .initializer w e) :
    Complete src m rec .let_ (wa ++ tok .keyword_let :: ident x :: wt ++ w ++ [tok .semicolon])
      [some (.node (.let x) (a ++ t ++ e))] := by
  obtain ⟨A, rfl, hA⟩ := iha
  obtain ⟨⟨o, rfl, iht⟩, _⟩ := iht
  obtain ⟨⟨t, rfl, ih⟩, w0, rfl⟩ := ih
  refine ⟨wa, A, tok .keyword_let, ident x :: wt ++ (tok .assign :: w0) ++ [tok .semicolon], _,
    by simp, rfl, hA, rfl, ?_⟩
  intro used rest he hc _ nodes an han
  norm
  obtain ⟨k, u, rfl, hk, he⟩ := split_cons he
  obtain ⟨id, u, rfl, hid, he⟩ := split_cons he
  obtain ⟨u, u', rfl, hu, he⟩ := split_append he
  rw [show tok .assign :: (w0 ++ [tok .semicolon]) = (tok .assign :: w0) ++ [tok .semicolon]
    from rfl] at he
  obtain ⟨u', u'', rfl, hu', he⟩ := split_append he
  obtain ⟨sc, u'', rfl, hsc, he⟩ := split_cons he
  obtain rfl := split_nil he
  norm
  have hnx : NextIn [.assign] (u' ++ sc :: rest) := nextIn_of_starts ⟨_, _, rfl, by simp⟩ hu' _
  obtain ⟨h, ns, hrun, hp, hkd, _⟩ := iht u _ hu hc.tail.tail (hnx.not (by decide)) nodes
  obtain ⟨n, ns', hrun', hp', hr⟩ := ih u' _ hu' hc.tail.tail.right
    (.cons _ (type_tok hsc) (by decide)) ns
  have p0 : nodes <+: ns' ++ [n] := by ext
  obtain ⟨h', ns'', hrun'', hp'', hka⟩ := fwd_ann (src := src) han p0 rest
  have p1 : ns <+: ns'' := List.IsPrefix.trans (by ext) hp''
  have hpeek : (if h.isNone then Prog.ret true else peek .assign : Prog Bool).run src
      ⟨u' ++ sc :: rest, ns⟩ = .ok true ⟨u' ++ sc :: rest, ns⟩ := by
    cases h with
    | none => rfl
    | some h =>
      obtain ⟨tk, r, e, ht⟩ := hnx
      simp only [List.mem_singleton] at ht
      rw [e]
      rw [e] at hc
      have := fwd_peek (f := .ret) (nodes := ns) hc.tail.tail.right ht
      rw [run_bind] at this
      revert this
      show _ → (peek TokenType.assign).run src _ = _
      cases (peek TokenType.assign).run src ⟨tk :: r, ns⟩ <;>
        intro this <;> first | exact this | cases this
  exact mk_ok (by
    steps [fwd_require hc (type_tok hk), fwd_require hc.tail (type_ident hid),
      fwd_extract hc.tail.inRange (text_ident hid), fwd_bind hrun, fwd_bind hpeek,
      fwd_bind (a := some ns'.length) (s' := ⟨sc :: rest, ns' ++ [n]⟩) (by steps [fwd_bind hrun']),
      fwd_require hc.tail.tail.right.right (type_tok hsc), hrun'',
      fwd_assert (Bool.or_true _)])
    (hp.trans p1) (by
      exact ⟨_, rfl, Kids.append (Kids.append hka (hkd.mono p1)) (hr.pushed hp'')⟩)

theorem c_staticAssert {w e} (ih : Complete src m rec .parenthesized w e) :
    Complete src m rec .static_assert (tok .keyword_static_assert :: w ++ [tok .semicolon])
      [some (.node .static_assert e)] := by
  obtain ⟨⟨t, rfl, ih⟩, _⟩ := ih
  refine ⟨⟨_, rfl, ?_⟩, _, _, rfl, by simp⟩
  intro used rest he hc _ nodes
  norm
  obtain ⟨k, u, rfl, hk, he⟩ := split_cons he
  obtain ⟨u, u', rfl, hu, he⟩ := split_append he
  obtain ⟨sc, u'', rfl, hsc, he⟩ := split_cons he
  obtain rfl := split_nil he
  norm
  obtain ⟨n, ns, hrun, hp, hr⟩ := ih u _ hu hc.tail trivial nodes
  exact mk_ok (ns := ns ++ [n]) (by
    steps [fwd_require hc (type_tok hk), fwd_bind hrun, fwd_require hc.tail.right (type_tok hsc),
      fwd_push, fwd_assert rfl]) (by ext) (by exact ⟨[some t], rfl, hr.pushed (by ext)⟩)

theorem c_parameter {x w t} (ih : Complete src m rec .type w t) :
    Complete src m rec .parameter (ident x :: tok .colon :: w)
      [some (.node (.parameter x) t)] := by
  obtain ⟨t, rfl, ih⟩ := ih
  refine ⟨⟨_, rfl, ?_⟩, _, _, rfl, by simp⟩
  intro used rest he hc _ nodes
  obtain ⟨id, u, rfl, hid, he⟩ := split_cons he
  obtain ⟨c, u, rfl, hcl, he⟩ := split_cons he
  norm
  obtain ⟨n, ns, hrun, hp, hr⟩ := ih u _ he hc.tail.tail trivial nodes
  exact mk_ok (ns := ns ++ [n]) (by
    steps [fwd_require hc (type_ident hid), fwd_require hc.tail (type_tok hcl), fwd_bind hrun,
      fwd_extract hc.inRange (text_ident hid), fwd_push, fwd_assert rfl]) (by ext)
    (by exact ⟨[some t], rfl, hr.pushed (by ext)⟩)

theorem c_lastParameter {w ts} (ih : Complete src m rec .parameter w ts) :
    Complete src m rec .parameters w ts := by
  obtain ⟨⟨t, rfl, ih⟩, hst⟩ := ih
  refine ⟨?_, hst, by simp⟩
  intro used rest acc he hc hn nodes
  obtain ⟨n, ns, hrun, hp, hr⟩ := ih used rest he hc trivial nodes
  refine ⟨[some ns.length], ns ++ [n], ?_, by ext, hr.pushed (by ext)⟩
  steps [fwd_bind (a := (n.pos, acc ++ [some ns.length])) (s' := ⟨rest, ns ++ [n]⟩) (by
    steps [fwd_bind hrun, fwd_push, fwd_expect_none hc.right hn])]

include hfix in
theorem c_parameters {w ts w' ts'} (ih : Complete src m rec .parameter w ts)
    (ih' : Complete src m rec .parameters w' ts') :
    Complete src m rec .parameters (w ++ tok .comma :: w') (ts ++ ts') := by
  obtain ⟨⟨t, rfl, ih⟩, hst⟩ := ih
  obtain ⟨ih', _, _⟩ := ih'
  refine ⟨?_, hst.append, by simp⟩
  intro used rest acc he hc hn nodes
  obtain ⟨u, u', rfl, hu, he⟩ := split_append he
  obtain ⟨c, u', rfl, hcm, he⟩ := split_cons he
  norm
  obtain ⟨n, ns, hrun, hp, hr⟩ := ih u _ hu hc trivial nodes
  obtain ⟨hs, ns', hrun', hp', hk⟩ := ih' u' rest (acc ++ [some ns.length]) he
    hc.right.tail hn (ns ++ [n])
  obtain ⟨sp, hrun'⟩ := snd_ok hrun'
  refine ⟨[some ns.length] ++ hs, ns', ?_, by ext, Kids.append (hr.pushed hp') hk⟩
  rw [← List.append_assoc]
  steps [fwd_bind (a := (sp, acc ++ [some ns.length] ++ hs)) (s' := ⟨rest, ns'⟩) (by
    steps [fwd_bind hrun, fwd_push, fwd_expect hc.right (type_tok hcm),
      (hfix (.parameters _) _ hc.right.tail.len).trans hrun'])]

include hfix in
theorem c_someParameters {w ts} (ih : Complete src m rec .parameters w ts) :
    Complete src m rec .optParameters w [some (.node .parameter_list ts)] := by
  obtain ⟨ih, hst, hts⟩ := ih
  refine .inr ⟨⟨_, rfl, ?_⟩, hst⟩
  intro used rest he hc hn nodes
  obtain ⟨hs, ns, hrun, hp, hk⟩ := ih used rest [] he hc hn nodes
  obtain ⟨sp, hrun⟩ := snd_ok hrun
  have hrun := (hfix (.parameters []) _ hc.len).trans hrun
  simp only [List.nil_append] at hrun
  exact mk_ok (by steps [fwd_bind hrun, fwd_assert (hk.isEmpty hts)]) hp (by exact ⟨ts, rfl, hk⟩)

include hfix in
theorem c_someRequires {w e} (ih : Complete src m rec .expression w e) :
    Complete src m rec .optRequires (tok .keyword_requires :: w) e := by
  obtain ⟨⟨t, rfl, ih⟩, _⟩ := ih
  refine .inr ⟨⟨t, rfl, ?_⟩, _, _, rfl, by simp⟩
  intro used rest he hc hn nodes
  obtain ⟨k, u, rfl, hk, he⟩ := split_cons he
  norm
  obtain ⟨n, ns, hrun, hp, hr⟩ := ih u rest he hc.tail hn nodes
  exact ⟨n, ns, by
    steps [fwd_require hc (type_tok hk), (hfix .expression _ hc.tail.len).trans hrun], hp, hr⟩

theorem c_function {wa a x wp p wr r wq q wb b} (iha : Complete src m rec .optAnnotations wa a)
    (ihp : Complete src m rec .optParameters wp p) (ihr : Complete src m rec .type wr r)
    (ihq : Complete src m rec .optRequires wq q) (ihb : Complete src m rec .block wb b) :
    Complete src m rec .function
      (wa ++ tok .keyword_function :: ident x :: tok .left_parenthesis :: wp ++
          tok .right_parenthesis :: tok .right_arrow :: wr ++ wq ++ wb)
      [some (.node (.function x) (a ++ p ++ r ++ q ++ b))] := by
  obtain ⟨A, rfl, hA⟩ := iha
  obtain ⟨r, rfl, ihr⟩ := ihr
  obtain ⟨⟨b, rfl, ihb⟩, hsb⟩ := ihb
  -- the parameters
  obtain ⟨P, rfl, ihP⟩ : ∃ P, p = [P] ∧ ∀ u rp rest nodes, u.map (lexeme src) = wp →
      rp.type = .right_parenthesis → Ctx src m (u ++ rp :: rest) →
      ∃ h ns, ((do
        if ← peek .right_parenthesis then return none
        else
          let r ← matchParameterSequence rec
          push r : Prog Handle)).run src ⟨u ++ rp :: rest, nodes⟩ = .ok h ⟨rp :: rest, ns⟩ ∧
        nodes <+: ns ∧ Kids ns [h] [P] := by
    rcases ihp with ⟨rfl, rfl⟩ | ⟨⟨P, rfl, ihp⟩, hst⟩
    · refine ⟨none, rfl, ?_⟩
      intro u rp rest nodes hu hrp hc
      obtain rfl := split_nil hu
      refine ⟨none, nodes, ?_, List.prefix_refl _, Kids.null⟩
      steps [fwd_peek hc hrp]
    · refine ⟨some P, rfl, ?_⟩
      intro u rp rest nodes hu hrp hc
      obtain ⟨n, ns, hrun, hp, hr⟩ := ihp u (rp :: rest) hu hc (NextNot.cons _ hrp (by decide)) nodes
      refine ⟨some ns.length, ns ++ [n], ?_, by ext, hr.pushed (by ext)⟩
      steps [fwd_peek_none hc ((nextIn_of_starts hst hu _).not (by decide)), fwd_bind hrun]
  -- the requirement
  obtain ⟨Q, rfl, ihQ⟩ : ∃ Q, q = [Q] ∧ ∀ u rest nodes, u.map (lexeme src) = wq →
      NextIn [.left_brace] rest → Ctx src m (u ++ rest) →
      ∃ h ns, ((do
        if ← peek .keyword_requires then
          let r ← matchRequires rec
          push r
        else return none : Prog Handle)).run src ⟨u ++ rest, nodes⟩ = .ok h ⟨rest, ns⟩ ∧
        nodes <+: ns ∧ Kids ns [h] [Q] := by
    rcases ihq with ⟨rfl, rfl⟩ | ⟨⟨Q, rfl, ihq⟩, hst⟩
    · refine ⟨none, rfl, ?_⟩
      intro u rest nodes hu hn hc
      obtain rfl := split_nil hu
      refine ⟨none, nodes, ?_, List.prefix_refl _, Kids.null⟩
      steps [fwd_peek_none hc (hn.not (by decide))]
    · refine ⟨some Q, rfl, ?_⟩
      intro u rest nodes hu hn hc
      obtain ⟨n, ns, hrun, hp, hr⟩ := ihq u rest hu hc (hn.mono (by decide)) nodes
      refine ⟨some ns.length, ns ++ [n], ?_, by ext, hr.pushed (by ext)⟩
      obtain ⟨y, w', rfl, hy⟩ := hst
      simp only [List.mem_singleton] at hy
      obtain ⟨k, u, rfl, hk, hu⟩ := split_cons hu
      steps [fwd_peek hc ((show k.type = y.1 from congrArg Prod.fst hk).trans hy), fwd_bind hrun]
  refine ⟨wa, A, tok .keyword_function, ident x :: tok .left_parenthesis :: wp ++
    tok .right_parenthesis :: tok .right_arrow :: wr ++ wq ++ wb, _, by simp, rfl, hA, rfl, ?_⟩
  intro used rest he hc _ nodes an han
  norm
  obtain ⟨k, u, rfl, hk, he⟩ := split_cons he
  obtain ⟨id, u, rfl, hid, he⟩ := split_cons he
  obtain ⟨lp, u, rfl, hlp, he⟩ := split_cons he
  obtain ⟨u, u1, rfl, hu, he⟩ := split_append he
  obtain ⟨rp, u1, rfl, hrp, he⟩ := split_cons he
  obtain ⟨ar, u1, rfl, har, he⟩ := split_cons he
  obtain ⟨u1, u2, rfl, hu1, he⟩ := split_append he
  obtain ⟨u2, u3, rfl, hu2, he⟩ := split_append he
  norm
  have hc1 := hc.tail.tail.tail
  have hc2 := hc1.right.tail.tail
  obtain ⟨h1, ns1, hrun1, hp1, hk1⟩ := ihP u rp _ nodes hu (type_tok hrp) hc1
  obtain ⟨n2, ns2, hrun2, hp2, hr2⟩ := ihr u1 _ hu1 hc2 trivial ns1
  obtain ⟨h3, ns3, hrun3, hp3, hk3⟩ := ihQ u2 _ ns2 hu2 (nextIn_of_starts hsb he rest) hc2.right
  obtain ⟨n4, ns4, hrun4, hp4, hr4⟩ := ihb u3 _ he hc2.right.right trivial ns3
  have p0 : nodes <+: ns4 := ((hp1.trans hp2).trans hp3).trans hp4
  obtain ⟨h5, ns5, hrun5, hp5, hka⟩ := fwd_ann (src := src) han p0 rest
  have p3 : ns3 <+: ns5 ++ [n2] ++ [n4] := by ext
  have p2 : ns2 <+: ns5 := (hp3.trans hp4).trans hp5
  exact mk_ok (ns := ns5 ++ [n2] ++ [n4]) (by
    steps [fwd_require hc (type_tok hk), fwd_require hc.tail (type_ident hid),
      fwd_require hc.tail.tail (type_tok hlp), fwd_bind hrun1,
      fwd_require hc1.right (type_tok hrp), fwd_require hc1.right.tail (type_tok har),
      fwd_bind hrun2, fwd_bind hrun3, fwd_bind hrun4,
      fwd_extract hc.tail.inRange (text_ident hid), hrun5, fwd_push, fwd_push, fwd_assert rfl,
      fwd_assert rfl])
    ((hp1.trans (hp2.trans hp3)).trans p3) (by
      exact ⟨_, rfl, Kids.append (Kids.append (Kids.append (Kids.append (hka.mono (by ext))
        (hk1.mono ((hp2.trans hp3).trans p3))) ((hr2.mono p2).pushed (by ext)))
        (hk3.mono p3)) (((hr4.mono hp5).mono (by ext)).pushed (by ext))⟩)

theorem annReads_none {nodes : List Node} : AnnReads nodes none none := trivial

/-- From a function that is called after annotations were parsed to the function that parses the
annotations. -/
theorem c_annotated {p : Option Node → Prog Node} {top : Prog Node} {after : Node → Prog Node}
    {wa : List Spec.Terminal} {A : Option Tree} {x : Spec.Terminal} {w' : List Spec.Terminal} {t : Tree}
    {N : List Token → Prop} (hA : COptAnn src m rec wa A)
    (hx : x.1 ≠ .at_sign ∧ x.1 ≠ .left_parenthesis)
    (hrun : ∀ used rest, used.map (lexeme src) = x :: w' → Ctx src m (used ++ rest) → N rest →
      ∀ nodes a, AnnReads nodes a A → ∃ n ns, (p a).run src ⟨used ++ rest, nodes⟩ =
        .ok n ⟨rest, ns⟩ ∧ nodes <+: ns ∧ NodeReads ns n t)
    (hd : ∀ used rest nodes, used.map (lexeme src) = x :: w' → Ctx src m (used ++ rest) →
      top.run src ⟨used ++ rest, nodes⟩ = (p none).run src ⟨used ++ rest, nodes⟩)
    (ht : ∀ tk rest nodes, tk.type = .at_sign → Ctx src m (tk :: rest) →
      top.run src ⟨tk :: rest, nodes⟩ =
        ((matchAnnotationSequence rec).bind after).run src ⟨tk :: rest, nodes⟩)
    (ha : ∀ used rest nodes an, used.map (lexeme src) = x :: w' → Ctx src m (used ++ rest) →
      (after an).run src ⟨used ++ rest, nodes⟩ = (p (some an)).run src ⟨used ++ rest, nodes⟩) :
    CNode src m top N (wa ++ x :: w') [some t] ∧ StartsIn [.at_sign, x.1] (wa ++ x :: w') := by
  rcases hA with ⟨rfl, rfl⟩ | ⟨T, wa', rfl, rfl, hann⟩
  · refine ⟨⟨t, rfl, ?_⟩, _, _, rfl, by simp⟩
    intro used rest he hc hn nodes
    rw [hd used rest nodes he hc]
    exact hrun used rest he hc hn nodes none annReads_none
  · refine ⟨⟨t, rfl, ?_⟩, _, _, rfl, by simp⟩
    intro used rest he hc hn nodes
    obtain ⟨u, u', rfl, hu, he'⟩ := split_append he
    rw [List.append_assoc] at hc ⊢
    have hu2 := hu
    have he2 := he'
    obtain ⟨tk, u2, rfl, htk, hu2⟩ := split_cons hu2
    obtain ⟨tk', u2', rfl, htk', he2⟩ := split_cons he2
    obtain ⟨an, ns, h1, h2, h3⟩ := hann _ (tk' :: u2' ++ rest) hu hc
      (AfterOperand.cons (ty := x.1) _ (congrArg Prod.fst htk') hx) nodes
    obtain ⟨n, ns', h4, h5, h6⟩ := hrun _ rest he' hc.right hn ns (some an) h3
    refine ⟨n, ns', ?_, h2.trans h5, h6⟩
    rw [← h4, ← ha _ rest ns an he' hc.right]
    exact (ht tk _ nodes (type_tok htk) hc).trans (fwd_bind h1)

theorem head_type {used rest : List Token} {x : Spec.Terminal} {w' : List Spec.Terminal}
    (he : used.map (lexeme src) = x :: w') :
    ∃ tk r, used ++ rest = tk :: r ∧ tk.type = x.1 := by
  obtain ⟨tk, u, rfl, h, _⟩ := split_cons he
  exact ⟨tk, u ++ rest, rfl, congrArg Prod.fst h⟩

/-- Running a function that looks at the type of the next token. -/
theorem fwd_dispatch {used rest : List Token} {nodes : List Node} {x : Spec.Terminal}
    {w' : List Spec.Terminal} {f : Option TokenType → Prog β}
    (he : used.map (lexeme src) = x :: w') (hc : Ctx src m (used ++ rest)) :
    (peekAny.bind f).run src ⟨used ++ rest, nodes⟩ =
      (f (some x.1)).run src ⟨used ++ rest, nodes⟩ := by
  obtain ⟨tk, r, e, ht⟩ := head_type (rest := rest) he
  rw [e] at hc ⊢
  exact fwd_peekAny hc ht

theorem c_declConst {w ts} (ih : Complete src m rec .const_ w ts) :
    Complete src m rec .declaration w ts := by
  obtain ⟨wa, A, x, w', t, rfl, rfl, hA, hx, ih⟩ := ih
  refine ⟨(c_annotated (p := matchConst rec) (after := matchAnnotatedDeclaration rec) hA
    (by rw [hx]; decide) ih ?_ ?_ ?_).1, by simp⟩
  · intro used rest nodes he hc
    refine (fwd_dispatch he hc).trans ?_
    rw [hx]
  · intro tk rest nodes ht hc
    exact fwd_peekAny hc ht
  · intro used rest nodes an he hc
    obtain ⟨tk, r, e, ht⟩ := head_type (rest := rest) he
    rw [e] at hc ⊢
    exact fwd_peek hc (ht.trans hx)

theorem c_declFunction {w ts} (ih : Complete src m rec .function w ts) :
    Complete src m rec .declaration w ts := by
  obtain ⟨wa, A, x, w', t, rfl, rfl, hA, hx, ih⟩ := ih
  refine ⟨(c_annotated (p := matchFunction rec) (after := matchAnnotatedDeclaration rec) hA
    (by rw [hx]; decide) ih ?_ ?_ ?_).1, by simp⟩
  · intro used rest nodes he hc
    refine (fwd_dispatch he hc).trans ?_
    rw [hx]
  · intro tk rest nodes ht hc
    exact fwd_peekAny hc ht
  · intro used rest nodes an he hc
    obtain ⟨tk, r, e, ht⟩ := head_type (rest := rest) he
    rw [e] at hc ⊢
    exact (fwd_peek_none hc (NextNot.cons _ (ht.trans hx) (by decide))).trans
      (fwd_peek hc (ht.trans hx))

theorem c_declStaticAssert {w ts} (ih : Complete src m rec .static_assert w ts) :
    Complete src m rec .declaration w ts := by
  obtain ⟨⟨t, rfl, ih⟩, x, w', rfl, hx⟩ := ih
  simp only [List.mem_singleton] at hx
  refine ⟨⟨t, rfl, ?_⟩, by simp⟩
  intro used rest he hc hn nodes
  obtain ⟨n, ns, h1, h2, h3⟩ := ih used rest he hc trivial nodes
  refine ⟨n, ns, ((fwd_dispatch he hc).trans ?_).trans h1, h2, h3⟩
  rw [hx]

theorem c_noDeclarations : Complete src m rec .declarations [] [] := by
  intro used rest acc he hc hn nodes
  obtain rfl := split_nil he
  subst hn
  refine ⟨[], nodes, ?_, List.prefix_refl _, .nil⟩
  rw [List.append_nil acc]
  rfl

include hfix in
theorem c_declarations {w ts w' ts'} (ih : Complete src m rec .declaration w ts)
    (ih' : Complete src m rec .declarations w' ts') :
    Complete src m rec .declarations (w ++ w') (ts ++ ts') := by
  obtain ⟨⟨t, rfl, ih⟩, hw⟩ := ih
  intro used rest acc he hc hn nodes
  obtain ⟨u, u', rfl, hu, he⟩ := split_append he
  norm
  obtain ⟨n, ns, h1, h2, h3⟩ := ih u _ hu hc trivial nodes
  obtain ⟨hs, ns', h1', h2', h3'⟩ := ih' u' rest (acc ++ [some ns.length]) he hc.right hn (ns ++ [n])
  refine ⟨[some ns.length] ++ hs, ns', ?_, by ext, Kids.append (h3.pushed h2') h3'⟩
  rw [← List.append_assoc acc]
  cases w with
  | nil => exact absurd rfl hw
  | cons x w1 =>
    steps [fwd_dispatch hu hc, fwd_bind h1, fwd_push, (hfix (.declarations _) _ hc.right.len).trans h1']

include hfix in
theorem c_program {w ts w' ts'} (ih : Complete src m rec .declaration w ts)
    (ih' : Complete src m rec .declarations w' ts') :
    Complete src m rec .program (w ++ w') [some (.node .program (ts ++ ts'))] := by
  obtain ⟨⟨t, rfl, ih⟩, hw⟩ := ih
  refine ⟨_, rfl, ?_⟩
  intro used rest he hc hn nodes
  obtain ⟨u, u', rfl, hu, he⟩ := split_append he
  norm
  obtain ⟨n, ns, h1, h2, h3⟩ := ih u _ hu hc trivial nodes
  obtain ⟨hs, ns', h1', h2', h3'⟩ := ih' u' rest [some ns.length] he hc.right hn (ns ++ [n])
  exact mk_ok (by
    steps [fwd_bind h1, fwd_push, fwd_bind ((hfix (.declarations _) _ hc.right.len).trans h1')])
    (by ext) (by exact ⟨_, rfl, Kids.append (h3.pushed h2') h3'⟩)

/-! ### Statements -/

include hfix in
theorem c_block {w ts} (ih : Complete src m rec .statements w ts) :
    Complete src m rec .block (tok .left_brace :: w ++ [tok .right_brace])
      [some (.node .block_statement ts)] := by
  obtain ⟨ih, _⟩ := ih
  refine ⟨⟨_, rfl, ?_⟩, _, _, rfl, by simp⟩
  intro used rest he hc _ nodes
  norm
  obtain ⟨lb, u, rfl, hlb, he⟩ := split_cons he
  norm
  obtain ⟨hs, ns, h1, h2, h3⟩ := ih u rest [] he hc.tail trivial nodes
  simp only [List.nil_append] at h1
  exact mk_ok (by
    steps [fwd_require hc (type_tok hlb), fwd_bind ((hfix (.statements _) _ hc.tail.len).trans h1)])
    h2 (by exact ⟨_, rfl, h3⟩)

theorem c_noStatements : Complete src m rec .statements [] [] := by
  refine ⟨?_, .inl rfl⟩
  intro used rest acc he hc _ nodes
  obtain ⟨rb, u, rfl, hrb, he⟩ := split_cons he
  obtain rfl := split_nil he
  norm
  refine ⟨[], nodes, ?_, List.prefix_refl _, .nil⟩
  rw [List.append_nil]
  steps [fwd_expect hc (type_tok hrb)]

include hfix in
theorem c_statements {w ts w' ts'} (ih : Complete src m rec .statement w ts)
    (ih' : Complete src m rec .statements w' ts') :
    Complete src m rec .statements (w ++ w') (ts ++ ts') := by
  obtain ⟨⟨t, rfl, ih⟩, hst⟩ := ih
  obtain ⟨ih', hst'⟩ := ih'
  refine ⟨?_, .inr hst.append⟩
  intro used rest acc he hc _ nodes
  norm
  obtain ⟨u, u', rfl, hu, he⟩ := split_append he
  norm
  have hnx : NextNot .keyword_else (u' ++ rest) := by
    rcases hst' with rfl | hst'
    · have : StartsIn [.right_brace] ([] ++ [tok .right_brace]) := ⟨_, _, rfl, by simp⟩
      exact (nextIn_of_starts this he rest).not (by decide)
    · exact (nextIn_of_starts hst'.append he rest).not (by decide)
  obtain ⟨n, ns, h1, h2, h3⟩ := ih u _ hu hc hnx nodes
  obtain ⟨hs, ns', h1', h2', h3'⟩ := ih' u' rest (acc ++ [some ns.length]) he hc.right trivial
    (ns ++ [n])
  refine ⟨[some ns.length] ++ hs, ns', ?_, by ext, Kids.append (h3.pushed h2') h3'⟩
  rw [← List.append_assoc acc]
  steps [fwd_expect_none hc ((nextIn_of_starts hst hu _).not (by decide)), fwd_bind h1, fwd_push,
    (hfix (.statements _) _ hc.right.len).trans h1']

theorem StartsIn.mono {L L' : List TokenType} {w : List Spec.Terminal} (h : StartsIn L w)
    (hL : ∀ x ∈ L, x ∈ L') : StartsIn L' w := by
  obtain ⟨x, w', rfl, hx⟩ := h
  exact ⟨x, w', rfl, hL _ hx⟩

/-- A statement that may have annotations. -/
theorem c_annotatedStatement {p : Option Node → Prog Node}
    {wa : List Spec.Terminal} {A : Option Tree} {x : Spec.Terminal} {w' : List Spec.Terminal} {t : Tree}
    {N : List Token → Prop} (hA : COptAnn src m rec wa A)
    (hx : x.1 ∈ annotatedStatementExpected)
    (hrun : ∀ used rest, used.map (lexeme src) = x :: w' → Ctx src m (used ++ rest) → N rest →
      ∀ nodes a, AnnReads nodes a A → ∃ n ns, (p a).run src ⟨used ++ rest, nodes⟩ =
        .ok n ⟨rest, ns⟩ ∧ nodes <+: ns ∧ NodeReads ns n t)
    (hN : ∀ rest, NextNot .keyword_else rest → N rest)
    (hd : ∀ used rest nodes, used.map (lexeme src) = x :: w' → Ctx src m (used ++ rest) →
      (matchStatement rec).run src ⟨used ++ rest, nodes⟩ =
        (p none).run src ⟨used ++ rest, nodes⟩)
    (ha : ∀ used rest nodes an, used.map (lexeme src) = x :: w' → Ctx src m (used ++ rest) →
      (matchAnnotatedStatement rec an).run src ⟨used ++ rest, nodes⟩ =
        (p (some an)).run src ⟨used ++ rest, nodes⟩) :
    Complete src m rec .statement (wa ++ x :: w') [some t] := by
  have := c_annotated (p := p) (top := matchStatement rec) (after := matchAnnotatedStatement rec)
    (N := NextNot .keyword_else) hA
    (by revert hx; cases x.1 <;> decide) (fun used rest he hc hn => hrun used rest he hc (hN _ hn))
    hd (fun tk rest nodes ht hc => fwd_peekAny hc ht) ha
  refine ⟨this.1, this.2.mono ?_⟩
  intro y hy
  simp only [List.mem_cons, List.not_mem_nil, or_false] at hy
  rcases hy with rfl | rfl
  · decide
  · revert hx; cases x.1 <;> decide

theorem c_stmtLet {w ts} (ih : Complete src m rec .let_ w ts) :
    Complete src m rec .statement w ts := by
  obtain ⟨wa, A, x, w', t, rfl, rfl, hA, hx, ih⟩ := ih
  refine c_annotatedStatement (p := matchLet rec) hA (by rw [hx]; decide) ih (fun _ _ => trivial)
    ?_ ?_
  · intro used rest nodes he hc
    refine (fwd_dispatch he hc).trans ?_
    rw [hx]
  · intro used rest nodes an he hc
    refine (fwd_dispatch he hc).trans ?_
    rw [hx]

theorem c_stmtConst {w ts} (ih : Complete src m rec .const_ w ts) :
    Complete src m rec .statement w ts := by
  obtain ⟨wa, A, x, w', t, rfl, rfl, hA, hx, ih⟩ := ih
  refine c_annotatedStatement (p := matchConst rec) hA (by rw [hx]; decide) ih (fun _ _ => trivial)
    ?_ ?_
  · intro used rest nodes he hc
    refine (fwd_dispatch he hc).trans ?_
    rw [hx]
  · intro used rest nodes an he hc
    refine (fwd_dispatch he hc).trans ?_
    rw [hx]

include hfix in
theorem c_stmtIf {w ts} (ih : Complete src m rec .if_ w ts) :
    Complete src m rec .statement w ts := by
  obtain ⟨wa, A, x, w', t, rfl, rfl, hA, hx, ih⟩ := ih
  refine c_annotatedStatement (p := matchIf rec) hA (by rw [hx]; decide) ih (fun _ h => h)
    ?_ ?_
  · intro used rest nodes he hc
    refine (fwd_dispatch he hc).trans ?_
    rw [hx]
    exact hfix (.ifStatement none) _ hc.len
  · intro used rest nodes an he hc
    refine (fwd_dispatch he hc).trans ?_
    rw [hx]
    exact hfix (.ifStatement (some an)) _ hc.len

/-- A statement without annotations. -/
theorem c_plainStatement {p : Prog Node} {ty : TokenType} {w ts} (h : CNode src m p Any w ts)
    (hs : StartsIn [ty] w) (hty : ty ∈ statementExpected)
    (hd : ∀ used rest nodes w' (x : Spec.Terminal), used.map (lexeme src) = x :: w' → x.1 = ty →
      Ctx src m (used ++ rest) →
      (matchStatement rec).run src ⟨used ++ rest, nodes⟩ = p.run src ⟨used ++ rest, nodes⟩) :
    Complete src m rec .statement w ts := by
  obtain ⟨t, rfl, ih⟩ := h
  refine ⟨⟨t, rfl, ?_⟩, hs.mono (by simpa using hty)⟩
  obtain ⟨x, w', rfl, hx⟩ := hs
  simp only [List.mem_singleton] at hx
  intro used rest he hc hn nodes
  rw [hd used rest nodes w' x he hx hc]
  exact ih used rest he hc trivial nodes

theorem c_stmtStaticAssert {w ts} (ih : Complete src m rec .static_assert w ts) :
    Complete src m rec .statement w ts := by
  refine c_plainStatement ih.1 ih.2 (by decide) ?_
  intro used rest nodes w' x he hx hc
  refine (fwd_dispatch he hc).trans ?_
  rw [hx]

theorem c_stmtBlock {w ts} (ih : Complete src m rec .block w ts) :
    Complete src m rec .statement w ts := by
  refine c_plainStatement ih.1 ih.2 (by decide) ?_
  intro used rest nodes w' x he hx hc
  refine (fwd_dispatch he hc).trans ?_
  rw [hx]

theorem c_break : Complete src m rec .statement [tok .keyword_break, tok .semicolon]
    [some (.node .break [])] := by
  refine c_plainStatement (p := matchBreak) (ty := .keyword_break) ⟨_, rfl, ?_⟩
    ⟨_, _, rfl, by simp⟩ (by decide) ?_
  · intro used rest he hc _ nodes
    obtain ⟨k, u, rfl, hk, he⟩ := split_cons he
    obtain ⟨sc, u, rfl, hsc, he⟩ := split_cons he
    obtain rfl := split_nil he
    norm
    exact mk_ok (by steps [fwd_require hc (type_tok hk), fwd_require hc.tail (type_tok hsc)])
      (List.prefix_refl _) (by exact ⟨[], rfl, .nil⟩)
  · intro used rest nodes w' x he hx hc
    refine (fwd_dispatch he hc).trans ?_
    rw [hx]

theorem c_continue : Complete src m rec .statement [tok .keyword_continue, tok .semicolon]
    [some (.node .continue [])] := by
  refine c_plainStatement (p := matchContinue) (ty := .keyword_continue) ⟨_, rfl, ?_⟩
    ⟨_, _, rfl, by simp⟩ (by decide) ?_
  · intro used rest he hc _ nodes
    obtain ⟨k, u, rfl, hk, he⟩ := split_cons he
    obtain ⟨sc, u, rfl, hsc, he⟩ := split_cons he
    obtain rfl := split_nil he
    norm
    exact mk_ok (by steps [fwd_require hc (type_tok hk), fwd_require hc.tail (type_tok hsc)])
      (List.prefix_refl _) (by exact ⟨[], rfl, .nil⟩)
  · intro used rest nodes w' x he hx hc
    refine (fwd_dispatch he hc).trans ?_
    rw [hx]

theorem c_returnVoid : Complete src m rec .statement [tok .keyword_return, tok .semicolon]
    [some (.node .return_statement [none])] := by
  refine c_plainStatement (p := matchReturn rec) (ty := .keyword_return) ⟨_, rfl, ?_⟩
    ⟨_, _, rfl, by simp⟩ (by decide) ?_
  · intro used rest he hc _ nodes
    obtain ⟨k, u, rfl, hk, he⟩ := split_cons he
    obtain ⟨sc, u, rfl, hsc, he⟩ := split_cons he
    obtain rfl := split_nil he
    norm
    exact mk_ok (by steps [fwd_require hc (type_tok hk), fwd_expect hc.tail (type_tok hsc)])
      (List.prefix_refl _) (by exact ⟨[none], rfl, Kids.null⟩)
  · intro used rest nodes w' x he hx hc
    refine (fwd_dispatch he hc).trans ?_
    rw [hx]

include hfix in
theorem c_return {w e} (ih : Complete src m rec .expression w e) :
    Complete src m rec .statement (tok .keyword_return :: w ++ [tok .semicolon])
      [some (.node .return_statement e)] := by
  obtain ⟨⟨t, rfl, ih⟩, hst⟩ := ih
  refine c_plainStatement (p := matchReturn rec) (ty := .keyword_return) ⟨_, rfl, ?_⟩
    ⟨_, _, rfl, by simp⟩ (by decide) ?_
  · intro used rest he hc _ nodes
    norm
    obtain ⟨k, u, rfl, hk, he⟩ := split_cons he
    obtain ⟨u, u', rfl, hu, he⟩ := split_append he
    obtain ⟨sc, u', rfl, hsc, he⟩ := split_cons he
    obtain rfl := split_nil he
    norm
    obtain ⟨n, ns, h1, h2, h3⟩ := ih u _ hu hc.tail (.cons _ (type_tok hsc) (by decide)) nodes
    exact mk_ok (ns := ns ++ [n]) (by
      steps [fwd_require hc (type_tok hk),
        fwd_expect_none hc.tail ((nextIn_of_starts hst hu _).not (by decide)),
        fwd_bind ((hfix .expression _ hc.tail.len).trans h1),
        fwd_require hc.tail.right (type_tok hsc), fwd_push])
      (by ext) (by exact ⟨[some t], rfl, h3.pushed (by ext)⟩)
  · intro used rest nodes w' x he hx hc
    refine (fwd_dispatch he hc).trans ?_
    rw [hx]

theorem peek1_eq {t t' : Token} {rest : List Token} (hc : Ctx src m (t :: t' :: rest)) :
    (peekToken1 (t :: t' :: rest)).map (·.type) = some t'.type := by
  simp only [peekToken1, hc.skip, peekToken, hc.tail.skip, List.head?_cons, Option.map_some]

include hfix in
theorem c_assignment {wa a x w e} (iha : Complete src m rec .optAnnotations wa a)
    (ih : Complete src m rec .expression w e) :
    Complete src m rec .statement (wa ++ ident x :: tok .assign :: w ++ [tok .semicolon])
      [some (.node (.assignment x) (a ++ e))] := by
  obtain ⟨A, rfl, hA⟩ := iha
  obtain ⟨⟨t, rfl, ih⟩, _⟩ := ih
  rw [show wa ++ ident x :: tok .assign :: w ++ [tok .semicolon] =
    wa ++ ident x :: (tok .assign :: w ++ [tok .semicolon]) by simp]
  refine c_annotatedStatement (N := Any) (p := matchAssignmentStatement rec) hA
    (by show TokenType.identifier ∈ _; decide) ?_
    (fun _ _ => trivial) ?_ ?_
  · intro used rest he hc _ nodes an han
    norm
    obtain ⟨id, u, rfl, hid, he⟩ := split_cons he
    obtain ⟨eq, u, rfl, heq, he⟩ := split_cons he
    obtain ⟨u, u', rfl, hu, he⟩ := split_append he
    obtain ⟨sc, u', rfl, hsc, he⟩ := split_cons he
    obtain rfl := split_nil he
    norm
    obtain ⟨n, ns, h1, h2, h3⟩ := ih u _ hu hc.tail.tail (.cons _ (type_tok hsc) (by decide)) nodes
    obtain ⟨h, ns', h1', h2', h3'⟩ := fwd_ann (src := src) han h2 (sc :: rest)
    exact mk_ok (ns := ns' ++ [n]) (by
      steps [fwd_bind (a := ⟨id.span, .assignment x, [h, some ns'.length]⟩)
        (s' := ⟨sc :: rest, ns' ++ [n]⟩) (by
          steps [fwd_require hc (type_ident hid), fwd_require hc.tail (type_tok heq),
            fwd_bind ((hfix .expression _ hc.tail.tail.len).trans h1),
            fwd_extract hc.inRange (text_ident hid), h1', fwd_push, fwd_assert rfl]),
        fwd_require hc.tail.tail.right (type_tok hsc)])
      (h2.trans (by ext)) (by
        exact ⟨_, rfl, Kids.append (h3'.mono (by ext)) ((h3.mono h2').pushed (by ext))⟩)
  · intro used rest nodes he hc
    refine (fwd_dispatch he hc).trans ?_
    have he' := he
    obtain ⟨id, u, rfl, hid, he⟩ := split_cons he
    obtain ⟨eq, u, rfl, heq, he⟩ := split_cons he
    refine (fwd_dispatch he' hc).trans ?_
    rw [if_neg (by simp)]
    refine (fwd_peek1 rfl).trans ?_
    exact congrArg (fun p => Prog.run src p _)
      (if_pos ((peek1_eq hc).trans (by rw [type_tok heq])))
  · intro used rest nodes an he hc
    exact fwd_dispatch he hc

theorem c_callStatement {x w cs}
    (ih : Complete src m rec .call w [some (.node (.function_call_expression x false) cs)]) :
    Complete src m rec .statement (w ++ [tok .semicolon])
      [some (.node (.function_call_expression x true) cs)] := by
  obtain ⟨⟨t, ht, ih⟩, y, w', rfl⟩ := ih
  cases ht
  refine c_plainStatement (p := matchAssignmentOrCall rec) (ty := .identifier) ⟨_, rfl, ?_⟩
    ⟨_, _, rfl, by simp⟩ (by decide) ?_
  · intro used rest he hc _ nodes
    have he0 := he
    obtain ⟨u, u', rfl, hu, he⟩ := split_append he
    obtain ⟨sc, u', rfl, hsc, he⟩ := split_cons he
    obtain rfl := split_nil he
    have hdisp := fwd_dispatch (β := Node) (nodes := nodes) he0 hc (f := fun t =>
      if t ≠ some .identifier then .fail ⟨.statement, [.identifier]⟩
      else (Prog.peek1 .ret).bind fun lookahead =>
        if lookahead.map (·.type) = some .assign then matchAssignmentStatement rec none
        else (matchCallStatement rec).bind setIsStatement)
    norm
    rw [List.append_assoc] at hdisp
    obtain ⟨n, ns, h1, h2, h3⟩ := ih u (sc :: rest) hu hc
      (AfterOperand.cons _ (type_tok hsc) (by decide)) nodes
    have hset : ∃ n', (setIsStatement n).run src ⟨rest, ns⟩ = .ok n' ⟨rest, ns⟩ ∧
        NodeReads ns n' (.node (.function_call_expression x true) cs) := by
      obtain ⟨cs', e, hk⟩ := h3
      obtain ⟨pos, kind, ch⟩ := n
      cases e
      exact ⟨_, rfl, cs, rfl, hk⟩
    obtain ⟨n', hset, hr'⟩ := hset
    refine ⟨n', ns, ?_, h2, hr'⟩
    refine Eq.trans hdisp ?_
    rw [if_neg (by simp)]
    refine Eq.trans (fwd_peek1 rfl) ?_
    obtain ⟨id, u1, rfl, hid, hu⟩ := split_cons hu
    obtain ⟨lp, u1, rfl, hlp, hu⟩ := split_cons hu
    norm
    have hne : ¬(peekToken1 (id :: lp :: u1 ++ ([sc] ++ rest))).map (·.type) = some .assign := by
      rw [show id :: lp :: u1 ++ ([sc] ++ rest) = id :: lp :: (u1 ++ sc :: rest) by simp,
        peek1_eq hc, type_tok hlp]
      decide
    refine Eq.trans (congrArg (fun p => Prog.run src p _) (if_neg hne)) ?_
    steps [fwd_bind (a := n) (s' := ⟨rest, ns⟩) (by
      steps [fwd_bind h1, fwd_require hc.tail.tail.right (type_tok hsc)]), hset]
  · intro used rest nodes w' x he hx hc
    refine (fwd_dispatch he hc).trans ?_
    rw [hx]

include hfix in
theorem c_if {wa a w c wb b we e} (iha : Complete src m rec .optAnnotations wa a)
    (ihc : Complete src m rec .expression w c) (ihb : Complete src m rec .block wb b)
    (ihe : Complete src m rec .optElse we e) :
    Complete src m rec .if_ (wa ++ tok .keyword_if :: w ++ wb ++ we)
      [some (.node .if_statement (a ++ c ++ b ++ e))] := by
  obtain ⟨A, rfl, hA⟩ := iha
  obtain ⟨⟨c, rfl, ihc⟩, _⟩ := ihc
  obtain ⟨⟨b, rfl, ihb⟩, hsb⟩ := ihb
  obtain ⟨E, rfl, ihE⟩ : ∃ E, e = [E] ∧ ∀ u rest nodes, u.map (lexeme src) = we →
      NextNot .keyword_else rest → Ctx src m (u ++ rest) →
      ∃ h ns, ((do
        if ← peek .keyword_else then
          let r ← matchElse rec
          push r
        else return none : Prog Handle)).run src ⟨u ++ rest, nodes⟩ = .ok h ⟨rest, ns⟩ ∧
        nodes <+: ns ∧ Kids ns [h] [E] := by
    rcases ihe with ⟨rfl, rfl⟩ | ⟨⟨E, rfl, ihe⟩, hst⟩
    · refine ⟨none, rfl, ?_⟩
      intro u rest nodes hu hn hc
      obtain rfl := split_nil hu
      refine ⟨none, nodes, ?_, List.prefix_refl _, Kids.null⟩
      steps [fwd_peek_none hc hn]
    · refine ⟨some E, rfl, ?_⟩
      intro u rest nodes hu hn hc
      obtain ⟨n, ns, hrun, hp, hr⟩ := ihe u rest hu hc hn nodes
      refine ⟨some ns.length, ns ++ [n], ?_, by ext, hr.pushed (by ext)⟩
      obtain ⟨y, w', rfl, hy⟩ := hst
      simp only [List.mem_singleton] at hy
      obtain ⟨k, u, rfl, hk, hu⟩ := split_cons hu
      steps [fwd_peek hc ((show k.type = y.1 from congrArg Prod.fst hk).trans hy), fwd_bind hrun]
  refine ⟨wa, A, tok .keyword_if, w ++ wb ++ we, _, by simp, rfl, hA, rfl, ?_⟩
  intro used rest he hc hn nodes an han
  norm
  obtain ⟨k, u, rfl, hk, he⟩ := split_cons he
  obtain ⟨u, u1, rfl, hu, he⟩ := split_append he
  obtain ⟨u1, u2, rfl, hu1, he⟩ := split_append he
  norm
  obtain ⟨n1, ns1, hrun1, hp1, hr1⟩ := ihc u _ hu hc.tail
    ((nextIn_of_starts hsb hu1 _).mono (by decide)) nodes
  obtain ⟨n2, ns2, hrun2, hp2, hr2⟩ := ihb u1 _ hu1 hc.tail.right trivial ns1
  obtain ⟨h3, ns3, hrun3, hp3, hk3⟩ := ihE u2 rest ns2 he hn hc.tail.right.right
  obtain ⟨h4, ns4, hrun4, hp4, hka⟩ := fwd_ann (src := src) han ((hp1.trans hp2).trans hp3) rest
  have p2 : ns2 <+: ns4 := hp3.trans hp4
  exact mk_ok (ns := ns4 ++ [n1] ++ [n2]) (by
    steps [fwd_require hc (type_tok hk), fwd_bind ((hfix .expression _ hc.tail.len).trans hrun1),
      fwd_bind hrun2, fwd_bind hrun3, hrun4, fwd_push, fwd_push, fwd_assert rfl, fwd_assert rfl])
    (((hp1.trans hp2).trans p2).trans (by ext)) (by
      exact ⟨_, rfl, Kids.append (Kids.append (Kids.append (hka.mono (by ext))
        ((hr1.mono (hp2.trans p2)).pushed (by ext)))
        (((hr2.mono p2).mono (by ext)).pushed (by ext))) (hk3.mono (hp4.trans (by ext)))⟩)

include hfix in
theorem c_elseIf {w ts} (ih : Complete src m rec .if_ (tok .keyword_if :: w) ts) :
    Complete src m rec .optElse (tok .keyword_else :: tok .keyword_if :: w) ts := by
  obtain ⟨wa, A, x, w', t, e, rfl, hA, hx, ih⟩ := ih
  rcases hA with ⟨rfl, rfl⟩ | ⟨T, wa', rfl, rfl, hann⟩
  · obtain ⟨rfl, rfl⟩ : tok .keyword_if = x ∧ w = w' := by simpa using e
    refine .inr ⟨⟨t, rfl, ?_⟩, _, _, rfl, by simp⟩
    intro used rest he hc hn nodes
    obtain ⟨k, u, rfl, hk, he⟩ := split_cons he
    norm
    obtain ⟨n, ns, h1, h2, h3⟩ := ih u rest he hc.tail hn nodes none annReads_none
    obtain ⟨i, u, rfl, hi, he⟩ := split_cons he
    exact ⟨n, ns, by
      steps [fwd_require hc (type_tok hk), fwd_peek hc.tail (type_tok hi),
        (hfix (.ifStatement none) _ hc.tail.len).trans h1], h2, h3⟩
  · simp at e

theorem c_elseBlock {w ts} (ih : Complete src m rec .block w ts) :
    Complete src m rec .optElse (tok .keyword_else :: w) ts := by
  obtain ⟨⟨t, rfl, ih⟩, hst⟩ := ih
  refine .inr ⟨⟨t, rfl, ?_⟩, _, _, rfl, by simp⟩
  intro used rest he hc hn nodes
  obtain ⟨k, u, rfl, hk, he⟩ := split_cons he
  norm
  obtain ⟨n, ns, h1, h2, h3⟩ := ih u rest he hc.tail trivial nodes
  exact ⟨n, ns, by
    steps [fwd_require hc (type_tok hk),
      fwd_peek_none hc.tail ((nextIn_of_starts hst he _).not (by decide)), h1], h2, h3⟩

include hfix in
theorem c_while {wa a w c wb b} (iha : Complete src m rec .optAnnotations wa a)
    (ihc : Complete src m rec .expression w c) (ihb : Complete src m rec .block wb b) :
    Complete src m rec .statement (wa ++ tok .keyword_while :: w ++ wb)
      [some (.node .while_statement (a ++ c ++ b))] := by
  obtain ⟨A, rfl, hA⟩ := iha
  obtain ⟨⟨c, rfl, ihc⟩, _⟩ := ihc
  obtain ⟨⟨b, rfl, ihb⟩, hsb⟩ := ihb
  rw [show wa ++ tok .keyword_while :: w ++ wb = wa ++ tok .keyword_while :: (w ++ wb) by simp]
  refine c_annotatedStatement (N := Any) (p := matchWhile rec) hA (by decide) ?_
    (fun _ _ => trivial) ?_ ?_
  · intro used rest he hc _ nodes an han
    obtain ⟨k, u, rfl, hk, he⟩ := split_cons he
    obtain ⟨u, u1, rfl, hu, he⟩ := split_append he
    norm
    obtain ⟨n1, ns1, hrun1, hp1, hr1⟩ := ihc u _ hu hc.tail
      ((nextIn_of_starts hsb he _).mono (by decide)) nodes
    obtain ⟨n2, ns2, hrun2, hp2, hr2⟩ := ihb u1 _ he hc.tail.right trivial ns1
    obtain ⟨h4, ns4, hrun4, hp4, hka⟩ := fwd_ann (src := src) han (hp1.trans hp2) rest
    exact mk_ok (ns := ns4 ++ [n1] ++ [n2]) (by
      steps [fwd_require hc (type_tok hk), fwd_bind ((hfix .expression _ hc.tail.len).trans hrun1),
        fwd_bind hrun2, hrun4, fwd_push, fwd_push, fwd_assert rfl, fwd_assert rfl])
      (((hp1.trans hp2).trans hp4).trans (by ext)) (by
        exact ⟨_, rfl, Kids.append (Kids.append (hka.mono (by ext))
          ((hr1.mono (hp2.trans hp4)).pushed (by ext)))
          (((hr2.mono hp4).mono (by ext)).pushed (by ext))⟩)
  · intro used rest nodes he hc
    exact fwd_dispatch he hc
  · intro used rest nodes an he hc
    exact fwd_dispatch he hc

/-! ### All cases -/

include hfix in
/-- Every sentence of the grammar is parsed. -/
theorem complete (hm : m < 2 ^ 64) {sym : Sym} {w : List Spec.Terminal} {ts : List (Option Tree)}
    (h : Derives false sym w ts) : Complete src m rec sym w ts := by
  induction h with
  | integer h => exact c_literal (by revert h; cases ‹TokenType› <;> decide)
  | boolean h => exact c_literal (by revert h; cases ‹TokenType› <;> decide)
  | string h => cases h
  | id => exact c_id
  | paren _ ih => exact c_paren ih
  | parenthesized _ ih => exact c_parenthesized hfix ih
  | noArguments => exact c_noArguments
  | someArguments _ ih => exact c_someArguments ih
  | argument _ ih => exact c_argument hfix ih
  | argumentsComma _ _ ih ih' => exact c_argumentsComma hfix ih ih'
  | argumentsNoComma h => cases h
  | call _ _ ih ih' => exact c_call hfix ih ih'
  | callPostfix _ ih => exact c_callPostfix ih
  | primary _ ih => exact ih
  | unary h _ ih => exact c_unary h ih
  | prefixPostfix _ ih => exact c_prefixPostfix ih
  | arithmetic h _ _ ih ih' => exact c_arithmetic h ih ih'
  | arithmeticPrefix _ ih => exact c_arithmeticPrefix ih
  | comparison h hd _ ih ih' => exact c_comparison h hd ih ih'
  | binaryComparison _ ih => exact c_binaryComparison hm ih
  | binary h hd hd' ih ih' => exact c_binary hm h hd hd' ih ih'
  | binaryPrefix hd ih => exact c_binaryPrefix hm hd ih
  | ifExpression _ _ _ ih ih' ih'' => exact c_ifExpression hfix ih ih' ih''
  | ifBinary _ ih => exact c_ifBinary ih
  | conversion _ _ ih ih' => exact c_conversion ih ih'
  | expressionConversion _ ih => exact c_expressionConversion ih
  | expressionIf _ ih => exact c_expressionIf hfix ih
  | typeVoid => exact c_typeSimple (by decide)
  | typeBool => exact c_typeSimple (by decide)
  | typeInt => exact c_typeSimple (by decide)
  | typeUint _ ih => exact c_typeUint ih
  | noType => exact c_noType
  | someType _ ih => exact c_someType ih
  | noAnnotations => exact c_noAnnotations
  | someAnnotations _ ih => exact c_someAnnotations hfix ih
  | lastAnnotation _ ih => exact c_lastAnnotation ih
  | annotations _ _ ih ih' => exact c_annotations hfix ih ih'
  | annotation => exact c_annotation
  | annotationEmpty => exact c_annotationEmpty
  | annotationArgs _ ih => exact c_annotationArgs hfix ih
  | annotationArgument _ ih => exact c_annotationArgument ih
  | annotationArguments _ _ ih ih' => exact c_annotationArguments hfix ih ih'
  | argumentValue h => exact c_argumentValue h
  | argumentString => exact c_argumentString
  | keyValue h => exact c_keyValue h
  | keyString => exact c_keyString
  | initializer _ ih => exact c_initializer hfix ih
  | const _ _ _ iha iht ih => exact c_const iha iht ih
  | letType _ _ iha iht => exact c_letType iha iht
  | letInit _ _ _ iha iht ih => exact c_letInit iha iht ih
  | staticAssert _ ih => exact c_staticAssert ih
  | parameter _ ih => exact c_parameter ih
  | lastParameter _ ih => exact c_lastParameter ih
  | parameters _ _ ih ih' => exact c_parameters hfix ih ih'
  | noParameters => exact .inl ⟨rfl, rfl⟩
  | someParameters _ ih => exact c_someParameters hfix ih
  | noRequires => exact .inl ⟨rfl, rfl⟩
  | someRequires _ ih => exact c_someRequires hfix ih
  | function _ _ _ _ _ iha ihp ihr ihq ihb => exact c_function iha ihp ihr ihq ihb
  | declConst _ ih => exact c_declConst ih
  | declFunction _ ih => exact c_declFunction ih
  | declStaticAssert _ ih => exact c_declStaticAssert ih
  | noDeclarations => exact c_noDeclarations
  | declarations _ _ ih ih' => exact c_declarations hfix ih ih'
  | program _ _ ih ih' => exact c_program hfix ih ih'
  | stmtLet _ ih => exact c_stmtLet ih
  | stmtConst _ ih => exact c_stmtConst ih
  | stmtStaticAssert _ ih => exact c_stmtStaticAssert ih
  | assignment _ _ iha ih => exact c_assignment hfix iha ih
  | callStatement _ ih => exact c_callStatement ih
  | break_ => exact c_break
  | continue_ => exact c_continue
  | returnVoid => exact c_returnVoid
  | return_ _ ih => exact c_return hfix ih
  | if_ _ _ _ _ iha ihc ihb ihe => exact c_if hfix iha ihc ihb ihe
  | noElse => exact .inl ⟨rfl, rfl⟩
  | elseIf _ ih => exact c_elseIf hfix ih
  | elseBlock _ ih => exact c_elseBlock ih
  | stmtIf _ ih => exact c_stmtIf hfix ih
  | while_ _ _ _ iha ihc ihb => exact c_while hfix iha ihc ihb
  | stmtBlock _ ih => exact c_stmtBlock ih
  | block _ ih => exact c_block hfix ih
  | noStatements => exact c_noStatements
  | statements _ _ ih ih' => exact c_statements hfix ih ih'

end

end Bms.Parse
