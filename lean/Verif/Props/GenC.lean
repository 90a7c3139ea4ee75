import Verif.Lemmas.GenCStmt
import Verif.Lemmas.CStmts

/-!
# Properties C69 and C70: what the generator of C code writes is the program
-/

namespace Bms

open Spec (Ident IfAny IsBlock IsIf)
open C (Consts WritableE WritableS WritableSs WritableD MeansE MeansS MeansSs MeansD MeansDs Tok CExpr CStmt CDecl Lexes
  Derives DerivesStmt DerivesStmts DerivesDecl DerivesProgram BinOp IsId RefersTo pt kw reserved Space Spelling)
open GenC (Options Language Dialect dialect)

/-! ## Expressions -/

/-- **C69, partial.** The text that is written for an expression consists of tokens that are an expression
of C with the same operations on the same operands, and they are no other expression. What is missing:
expressions that are not `Writable`, see the violations below. -/
theorem C69_expression_partial {cs : Consts} {o : Options} {l : Language} {e : AExpr} {inExpr : Bool} {s : List Char}
    (hw : WritableE cs o.alwaysParenthesize o.c23 e) (h : GenC.expr cs o (dialect l o) inExpr e = .ok s) :
    ∃ c, MeansE cs e c ∧ (∃ ts, Lexes s ts ∧ Derives (dialect l o) 0 ts c) ∧
      ∀ d ts c', Lexes s ts → Derives d 0 ts c' → c' = c := by
  obtain ⟨ts, c, h1, h2, h3⟩ := C.whole_writes (C.fits_dialect l o) hw h
  refine ⟨c, h3, ⟨ts, h1.lexes, h2⟩, fun d ts' c' h4 h5 => ?_⟩
  rw [h4.unique h1.lexes] at h5
  exact h5.unique h2

theorem C.sameLevel_group {op op' : ExprType} {p p' : BinOp} (hop : (op, p) ∈ C.binOps) (hop' : (op', p') ∈ C.binOps)
    (hl : p.level = p'.level) : GenC.groupOf op = GenC.groupOf op' := by
  have : ∀ x ∈ C.binOps, ∀ y ∈ C.binOps, x.2.level = y.2.level → GenC.groupOf x.1 = GenC.groupOf y.1 := by decide
  exact this _ hop _ hop' hl

/-- **C69 is violated by right operands on the same level.** For two operations on the same level of the
grammar, `a ∘ (b ∙ c)` is written in the same way as `(a ∘ b) ∙ c`: for example `a - (b - c)` as
`a - b - c`, and `a / (b * c)` as `a / b * c`. -/
theorem C69_right_operand_violation (cs : Consts) (o : Options) (d : Dialect) (inExpr : Bool) {k k' k2 k2' : Key}
    {cv cv' cv2 cv2' : Option Value} {op op' : ExprType} {p p' : BinOp} (a b c : AExpr)
    (hop : (op, p) ∈ C.binOps) (hop' : (op', p') ∈ C.binOps) (hl : p.level = p'.level)
    (ho : o.alwaysParenthesize = false) :
    GenC.expr cs o d inExpr (.binary k cv op a (.binary k' cv' op' b c)) =
      GenC.expr cs o d inExpr (.binary k2 cv2 op' (.binary k2' cv2' op a b) c) := by
  have hg := C.sameLevel_group hop hop' hl
  have h1 : ∀ x, GenC.needsParentheses op x = GenC.needsParentheses op' x := by
    intro x
    unfold GenC.needsParentheses
    rw [hg]
  have h2 : GenC.needsParentheses op op' = false := by
    unfold GenC.needsParentheses GenC.Group.compareReadably
    rw [hg, if_pos rfl]
  have h3 : GenC.needsParentheses op' op = false := by
    unfold GenC.needsParentheses GenC.Group.compareReadably
    rw [hg, if_pos rfl]
  simp only [GenC.expr, GenC.sub, ho, Bool.false_or, GenBms.exprType, h2, h3, h1]
  cases GenC.expr cs o d true a with
  | ok sa =>
    cases GenC.expr cs o d true b with
    | ok sb =>
      cases GenC.expr cs o d true c with
      | ok sc => simp [Bind.bind, Outcome.bind]
      | _ => rfl
    | _ => rfl
  | _ => rfl

/-- So what is written for `a ∘ (b ∙ c)` means `(a ∘ b) ∙ c`, and nothing else. -/
theorem C69_right_operand_meaning {cs : Consts} {o : Options} {l : Language} {inExpr : Bool} {s : List Char}
    {k k' : Key} {cv cv' : Option Value} {op op' : ExprType} {p p' : BinOp} {a b c : AExpr}
    (hop : (op, p) ∈ C.binOps) (hop' : (op', p') ∈ C.binOps) (hl : p.level = p'.level)
    (ho : o.alwaysParenthesize = false)
    (ha : WritableE cs false o.c23 a) (hb : WritableE cs false o.c23 b) (hc : WritableE cs false o.c23 c)
    (hbl : ¬ C.OnLevel p.level b) (hcl : ¬ C.OnLevel p'.level c)
    (h : GenC.expr cs o (dialect l o) inExpr (.binary k cv op a (.binary k' cv' op' b c)) = .ok s) :
    ∃ a' b' c', MeansE cs a a' ∧ MeansE cs b b' ∧ MeansE cs c c' ∧
      ∀ d ts x, Lexes s ts → Derives d 0 ts x → x = .bin p' (.bin p a' b') c' := by
  rw [C69_right_operand_violation cs o _ inExpr (k2 := k) (cv2 := cv) (k2' := k') (cv2' := cv') a b c hop hop' hl ho] at h
  obtain ⟨x, h1, -, h2⟩ := C69_expression_partial (l := l)
    (by rw [ho]; exact ⟨⟨p', hop', .inr hcl⟩, ⟨⟨p, hop, .inr hbl⟩, ha, hb⟩, hc⟩) h
  cases h1 with
  | binary h3 h4 h5 =>
    cases C.binOps_fun h3 hop'
    cases h4 with
    | binary h6 h7 h8 =>
      cases C.binOps_fun h6 hop
      exact ⟨_, _, _, h7, h8, h5, h2⟩

/-- No expression begins with `--` or `++`. -/
theorem C.derives_begin {d : Dialect} {p : Nat} {ts : List Tok} {e : CExpr} (h : Derives d p ts e) :
    ∃ t r, ts = t :: r ∧ t ≠ pt "--" ∧ t ≠ pt "++" := by
  refine Derives.rec (motive_1 := fun p ts e _ => ∃ t u, ts = t :: u ∧ t ≠ pt "--" ∧ t ≠ pt "++")
    (motive_2 := fun _ _ _ => True)
    ?up ?cond ?bin ?cast ?unary ?call ?num ?true_ ?false_ ?var ?paren ?nil ?one ?more h
  case up => exact fun _ ih => ih
  case cond => rintro _ _ _ _ _ _ _ _ _ ⟨t, u, rfl, h⟩ _ _; exact ⟨t, _, rfl, h⟩
  case bin => rintro _ _ _ _ _ _ _ ⟨t, u, rfl, h⟩ _; exact ⟨t, _, rfl, h⟩
  case unary => rintro _ _ op _ _; exact ⟨_, _, rfl, by cases op <;> decide⟩
  case nil => trivial
  case one => intros; trivial
  case more => intros; trivial
  all_goals (intros; exact ⟨_, _, rfl, by simp [pt, kw]⟩)

theorem C.lexes_double {c : Char} (hc : c = '-' ∨ c = '+') {s : List Char} {ts : List Tok} (h : Lexes (c :: c :: s) ts) :
    ∃ r, ts = .punct [c, c] :: r := by
  have hsp : Spelling [c, c] (.punct [c, c]) := by
    rcases hc with rfl | rfl
    · exact .punct (by decide)
    · exact .punct (by decide)
  have hp : ∀ c ∈ ['-', '+'], ¬ Spec.IdentPart c ∧ ∀ w ∈ C.punctuators, [c, c] <+: w → w = [c, c] := by decide
  obtain ⟨hp1, hp2⟩ := hp c (by rcases hc with rfl | rfl <;> simp)
  generalize hs : c :: c :: s = s' at h
  cases h with
  | nil => cases hs
  | space h1 h2 => cases hs; rcases hc with rfl | rfl <;> exact absurd h1 (by decide)
  | @token w t s2 ts2 hw hmax h2 =>
    have hl := hmax _ _ hsp (by rw [← hs]; exact ⟨s, rfl⟩)
    match w, hl with
    | [], hl => simp at hl
    | [_], hl => simp at hl
    | x :: y :: w, hl =>
      simp only [List.cons_append, List.cons.injEq] at hs
      obtain ⟨rfl, rfl, hs⟩ := hs
      cases hw with
      | word h => exact absurd ((C.ident_parts h).2.1 c (by simp)) hp1
      | number h => exact absurd (.inr h) hp1
      | punct h =>
        rw [hp2 _ h ⟨w, rfl⟩]
        exact ⟨_, rfl⟩

/-- **C69 is violated by two signs.** The text that is written for `-(-e)` begins with `--`, and so it is no
expression at all; and likewise for `+(+e)`. -/
theorem C69_sign_violation {cs : Consts} {o : Options} {d : Dialect} {inExpr : Bool} {k k' : Key} {cv cv' : Option Value}
    {op : ExprType} {e : AExpr} {s : List Char} (hop : op = .unary_minus ∨ op = .unary_plus)
    (ho : o.alwaysParenthesize = false)
    (h : GenC.expr cs o d inExpr (.prefix k cv op (.prefix k' cv' op e)) = .ok s) :
    ∀ d' p ts c, Lexes s ts → ¬ Derives d' p ts c := by
  intro d' p ts c h1 h2
  have hn : GenC.needsParentheses op op = false := by rcases hop with rfl | rfl <;> rfl
  simp only [GenC.expr, GenC.sub, ho, Bool.false_or, GenBms.exprType, hn] at h
  obtain ⟨s1, h3, h⟩ := C.ok_bind h
  obtain ⟨s2, h4, h3⟩ := C.ok_bind h3
  cases h3
  cases h
  obtain ⟨t, r, rfl, h5, h6⟩ := C.derives_begin h2
  rcases hop with rfl | rfl
  · obtain ⟨r', h7⟩ := C.lexes_double (.inl rfl) h1
    injection h7 with h7
    exact h5 h7
  · obtain ⟨r', h7⟩ := C.lexes_double (.inr rfl) h1
    injection h7 with h7
    exact h6 h7

theorem C.toStringInt_neg {x : Int} (h : x < 0) : ∃ s, toStringInt x = '-' :: s := by
  unfold toStringInt
  rw [if_neg (by omega)]
  exact ⟨_, rfl⟩

/-- **C69 is violated by negative constants behind a minus sign**, in the same way. -/
theorem C69_negative_violation {cs : Consts} {o : Options} {d : Dialect} {inExpr : Bool} {k k' : Key} {cv : Option Value}
    {x : Int} {lit : Option Lit} {s : List Char} (hx : x < 0) (ho : o.alwaysParenthesize = false)
    (h : GenC.expr cs o d inExpr (.prefix k cv .unary_minus (.literal k' (some ⟨.int, some x⟩) lit)) = .ok s) :
    ∀ d' p ts c, Lexes s ts → ¬ Derives d' p ts c := by
  intro d' p ts c h1 h2
  have hn : GenC.needsParentheses .unary_minus .literal = false := rfl
  simp only [GenC.expr, GenC.sub, ho, Bool.false_or, GenBms.exprType, hn] at h
  obtain ⟨s1, h3, h⟩ := C.ok_bind h
  cases h3
  cases h
  obtain ⟨u, hu⟩ := C.toStringInt_neg hx
  obtain ⟨t, r, rfl, h5, h6⟩ := C.derives_begin h2
  have h8 : Lexes ('-' :: '-' :: u) (t :: r) := by
    rw [← hu]
    exact h1
  obtain ⟨r', h7⟩ := C.lexes_double (.inl rfl) h8
  injection h7 with h7
  exact h5 h7

/-- How often a token occurs. -/
def C.occurrences (t : Tok) (ts : List Tok) : Nat := ts.countP (· = t)

theorem C.derives_balanced {d : Dialect} {p : Nat} {ts : List Tok} {e : CExpr} (h : Derives d p ts e) :
    occurrences (pt "(") ts = occurrences (pt ")") ts := by
  have hbin : ∀ op : BinOp, op.tok ≠ pt "(" ∧ op.tok ≠ pt ")" := by intro op; cases op <;> decide
  have hun : ∀ op : C.UnOp, op.tok ≠ pt "(" ∧ op.tok ≠ pt ")" := by intro op; cases op <;> decide
  refine Derives.rec (motive_1 := fun p ts e _ => occurrences (pt "(") ts = occurrences (pt ")") ts)
    (motive_2 := fun ts _ _ => occurrences (pt "(") ts = occurrences (pt ")") ts)
    ?up ?cond ?bin ?cast ?unary ?call ?num ?true_ ?false_ ?var ?paren ?nil ?one ?more h
  case up => exact fun _ ih => ih
  case one => exact fun _ ih => ih
  case cond =>
    intro c a b _ _ _ _ _ _ h1 h2 h3
    simp only [occurrences, List.countP_append, List.countP_cons] at *
    simp [pt] at *
    omega
  case bin =>
    intro l r _ _ op _ _ h1 h2
    simp only [occurrences, List.countP_append, List.countP_cons] at *
    simp [(hbin op).1, (hbin op).2]
    omega
  case cast =>
    intro t ty ts e ht _ ih
    have h1 : occurrences (pt "(") t = occurrences (pt ")") t := by
      cases ht <;> simp [occurrences, pt, kw]
    simp only [occurrences, List.countP_append, List.countP_cons] at *
    simp [pt] at *
    omega
  case unary =>
    intro ts e op _ ih
    simp only [occurrences, List.countP_cons] at *
    simp [(hun op).1, (hun op).2]
    exact ih
  case call =>
    intro x ts as _ _ ih
    simp only [occurrences, List.countP_append, List.countP_cons, List.countP_nil] at *
    simp [pt] at *
    omega
  case paren =>
    intro ts e _ ih
    simp only [occurrences, List.countP_append, List.countP_cons, List.countP_nil] at *
    simp [pt] at *
    omega
  case nil => rfl
  case more =>
    intro ts e rs es _ _ _ h1 h2
    simp only [occurrences, List.countP_append, List.countP_cons] at *
    simp [pt] at *
    omega
  case num => intros; simp [occurrences, pt]
  case var => intros; simp [occurrences, pt]
  case true_ => rfl
  case false_ => rfl

/-- **C69 is violated by conditional expressions.** The text has a parenthesis too many, `(` inside of
expressions and `)` elsewhere, and so it is no expression at all. -/
theorem C69_conditional_violation {cs : Consts} {o : Options} {l : Language} {inExpr : Bool} {k : Key} {cv : Option Value}
    {a c b : AExpr} {s : List Char} (ha : WritableE cs o.alwaysParenthesize o.c23 a)
    (hc : WritableE cs o.alwaysParenthesize o.c23 c) (hb : WritableE cs o.alwaysParenthesize o.c23 b)
    (h : GenC.expr cs o (dialect l o) inExpr (.ite k cv a c b) = .ok s) :
    ∀ d' p ts x, Lexes s ts → ¬ Derives d' p ts x := by
  intro d' p ts x h1 h2
  simp only [GenC.expr] at h
  obtain ⟨sc, hsc, h⟩ := C.ok_bind h
  obtain ⟨sa, hsa, h⟩ := C.ok_bind h
  obtain ⟨sb, hsb, h⟩ := C.ok_bind h
  cases h
  have hf := C.fits_dialect l o
  have key : ∀ {e s}, WritableE cs o.alwaysParenthesize o.c23 e → GenC.expr cs o (dialect l o) true e = .ok s →
      ∃ ts, C.Writes C.Stop (GenC.sub o .if_expression (GenBms.exprType e) s) ts ∧
        C.occurrences (pt "(") ts = C.occurrences (pt ")") ts := by
    intro e s hw he
    obtain ⟨⟨ts, ce, h3⟩, -⟩ := C.expr_writes hf e hw he
    obtain ⟨ts', h4⟩ := h3.sub (o := o) (q := 0) (outer := .if_expression) (by omega) (fun _ _ => Nat.zero_le _)
    exact ⟨ts', h4.writes, C.derives_balanced h4.derives⟩
  obtain ⟨tc, c1, c2⟩ := key hc hsc
  obtain ⟨ta, a1, a2⟩ := key ha hsa
  obtain ⟨tb, b1, b2⟩ := key hb hsb
  have e1 := (C.Writes.infix (w := "?".toList) (.punct (by decide))).append_any
    (a1.append ((C.Writes.infix (w := ":".toList) (.punct (by decide))).append_any b1) (.cons (by decide)))
  have e2 := c1.append e1 (.cons (by decide))
  have e3 : ∃ ts, Lexes ((if inExpr then ['('] else []) ++ GenC.sub o .if_expression (GenBms.exprType c) sc ++
      " ? ".toList ++ GenC.sub o .if_expression (GenBms.exprType a) sa ++ " : ".toList ++
      GenC.sub o .if_expression (GenBms.exprType b) sb ++ (if inExpr then [] else [')'])) ts ∧
      C.occurrences (pt "(") ts ≠ C.occurrences (pt ")") ts := by
    cases inExpr with
    | true =>
      have e4 := (C.Writes.solo (c := '(') (by decide)).append_any e2
      refine ⟨[.punct ['(']] ++ (tc ++ ([.punct "?".toList] ++ (ta ++ ([.punct ":".toList] ++ tb)))), ?_, ?_⟩
      · have := e4.lexes
        simp only [List.append_assoc, List.cons_append, List.nil_append, List.append_nil, if_true] at this ⊢
        exact this
      · simp only [C.occurrences, List.countP_append, List.countP_cons, List.countP_nil] at *
        simp [pt] at *
        omega
    | false =>
      have e4 := e2.append (C.Writes.solo (c := ')') (by decide)) (.cons (by decide))
      refine ⟨(tc ++ ([.punct "?".toList] ++ (ta ++ ([.punct ":".toList] ++ tb)))) ++ [.punct [')']], ?_, ?_⟩
      · have := e4.lexes
        simp only [List.append_assoc, List.cons_append, List.nil_append, List.append_nil] at this ⊢
        exact this
      · simp only [C.occurrences, List.countP_append, List.countP_cons, List.countP_nil] at *
        simp [pt] at *
        omega
  obtain ⟨ts', e5, e6⟩ := e3
  rw [h1.unique e5] at h2
  exact e6 (C.derives_balanced h2)

/-- **C69 is violated by constants with the option `c_23`.** Nothing is written where a constant is used, and
nothing is no expression. -/
theorem C69_constant_violation {cs : Consts} {o : Options} {d : Dialect} {inExpr : Bool} {k : Key} {cv v : Option Value}
    {x : Name} {ref : Option Lookup} {g : Bool} (hr : RefersTo cs ref v) (hc : o.c23 = true) :
    GenC.expr cs o d inExpr (.id k cv x ref g) = .ok [] ∧
      ∀ d' p ts c, Lexes [] ts → ¬ Derives d' p ts c := by
  obtain ⟨n, rfl, hn⟩ := hr
  constructor
  · simp only [GenC.expr, hn, if_pos hc]
  · intro d' p ts c h1 h2
    rw [h1.unique .nil] at h2
    obtain ⟨t, r, h3, _⟩ := C.derives_begin h2
    cases h3

/-- **C69 is violated by names that are words of C.** They are written as they are. -/
theorem C69_name_violation {cs : Consts} {o : Options} {d : Dialect} {inExpr : Bool} {k : Key} {cv : Option Value}
    {x : Name} {ref : Option Lookup} {g : Bool} (hr : ∀ v, ¬ RefersTo cs ref v) (hx : x ∈ reserved) (hi : Ident x)
    (ht : x ≠ "true".toList) (hf : x ≠ "false".toList) :
    GenC.expr cs o d inExpr (.id k cv x ref g) = .ok x ∧
      ∀ d' p ts c, Lexes x ts → ¬ Derives d' p ts c := by
  constructor
  · simp only [GenC.expr]
    cases ref with
    | none => rfl
    | some r =>
      cases r with
      | node n =>
        cases hn : cs n with
        | none => simp only [hn]
        | some v => exact absurd ⟨n, rfl, hn⟩ (hr v)
      | param n => rfl
      | builtin n => rfl
  · intro d' p ts c h1 h2
    rw [h1.unique (C.Writes.word hi).lexes] at h2
    generalize hts : [Tok.word x] = ts' at h2
    revert hts
    refine Derives.rec (motive_1 := fun p ts e _ => [Tok.word x] ≠ ts) (motive_2 := fun _ _ _ => True)
      ?up ?cond ?bin ?cast ?unary ?call ?num ?true_ ?false_ ?var ?paren ?nil ?one ?more h2
    case up => exact fun _ ih => ih
    case cond =>
      intro c a b _ _ _ h1 _ _ _ _ _ he
      obtain ⟨t, r, rfl, _⟩ := C.derives_begin h1
      simp at he
    case bin =>
      intro c a b _ op h1 _ _ _ he
      obtain ⟨t, r, rfl, _⟩ := C.derives_begin h1
      simp at he
    case cast => intros; simp
    case unary =>
      intro ts e op h1 _ he
      obtain ⟨t, r, rfl, _⟩ := C.derives_begin h1
      simp at he
    case call => intros; simp
    case num => intros; simp
    case true_ => intro he; injection he with he; injection he with he; exact ht he
    case false_ => intro he; injection he with he; injection he with he; exact hf he
    case var => intro y hy he; injection he with he; injection he with he; exact hy.2 (he ▸ hx)
    case paren => intros; simp
    all_goals (intros; trivial)

/-- The hypotheses of C69 are met: `a - (b - c)`, with constants that have values, is written `a - 5 - c`. -/
theorem C69_sample :
    let cs : Consts := fun k => if k = 1 then some (some ⟨.int, some 5⟩) else none
    let a : AExpr := .id 2 none ['a'] none false
    let b : AExpr := .id 3 none ['b'] (some (.node 1)) false
    let c : AExpr := .id 4 none ['c'] none false
    WritableE cs false false a ∧ WritableE cs false false b ∧ WritableE cs false false c ∧
    WritableE cs true false (.binary 5 none .binary_minus a (.binary 6 none .binary_minus b c)) ∧
    GenC.expr cs {} (dialect .c {}) false (.binary 5 none .binary_minus a (.binary 6 none .binary_minus b c)) =
      .ok "a - 5 - c".toList := by
  have hn : ∀ cs v, ¬ RefersTo cs none v := by rintro cs v ⟨n, h, -⟩; cases h
  have ha : IsId ['a'] := ⟨⟨by decide, by decide⟩, by decide⟩
  have hc : IsId ['c'] := ⟨⟨by decide, by decide⟩, by decide⟩
  have hb : ∀ cs : Consts, cs 1 = some (some ⟨.int, some 5⟩) → ∀ b,
      WritableE cs b false (.id 3 none ['b'] (some (.node 1)) false) := fun cs h _ =>
    .inr ⟨rfl, _, _, ⟨1, rfl, h⟩, ⟨by decide, by decide⟩, .small (by decide)⟩
  exact ⟨.inl ⟨hn _, ha⟩, hb _ rfl _, .inl ⟨hn _, hc⟩,
    ⟨⟨.sub, by decide, .inl rfl⟩, .inl ⟨hn _, ha⟩, ⟨.sub, by decide, .inl rfl⟩, hb _ rfl _, .inl ⟨hn _, hc⟩⟩,
    by decide +kernel⟩

end Bms
