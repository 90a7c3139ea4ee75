import Verif.Lemmas.GenC

/-!
# What the generator of C code writes for statements and programs
-/

namespace Bms.C

open Spec (Ident IdentStart IdentPart Literal IfAny IsBlock IsIf WholeParts)
open GenC (Options Dialect)
open GenBms (infixText parenthesize)

/-! ## Errors -/

theorem err_bind {α β : Type} {x : Outcome GenC.GenError α} {f : α → Outcome GenC.GenError β} {r : GenC.GenError}
    (h : (x >>= f) = .err r) : x = .err r ∨ ∃ a, x = .ok a ∧ f a = .err r := by
  cases x with
  | ok a => exact .inr ⟨a, rfl, h⟩
  | err e => cases h; exact .inl rfl
  | throws => cases h
  | ub => cases h

theorem generateType_err {o : Options} {d : Dialect} {t : CType} {r : GenC.GenError}
    (h : GenC.generateType o d t = .err r) : r = .unsupported_integer_width := by
  unfold GenC.generateType at h
  rcases err_bind h with h | ⟨_, _, h⟩
  · cases t with
    | uint w =>
      simp only [GenC.targetType] at h
      repeat' first
        | (cases h; rfl)
        | (rw [if_pos ‹_›] at h; cases h)
        | (split at h)
      all_goals first | (cases h; rfl) | cases h
    | _ => cases h
  · cases h

theorem constValue_err {v : Option Value} {r : GenC.GenError} : GenC.constValue v ≠ .err r := by
  intro h
  match v with
  | none => cases h
  | some ⟨_, none⟩ => cases h
  | some ⟨_, some _⟩ => cases h

theorem concreteType_err {t : AType} {r : GenC.GenError} :
    (t.concreteType : Outcome GenC.GenError (Option CType)) ≠ .err r := by
  intro h
  unfold AType.concreteType at h
  cases t with
  | base k cv b => cases b <;> cases h
  | uint k cv w e =>
    cases w with
    | none => cases h
    | some w =>
      cases hm : (CType.mkUint (w : Nat) : Outcome GenC.GenError CType) with
      | err r' =>
        simp only [CType.mkUint, Outcome.assert] at hm
        repeat' first
          | (rcases err_bind hm with hm | ⟨_, _, hm⟩)
          | (cases hm; done)
          | (split at hm)
      | _ => simp only [hm, Outcome.map] at h; cases h

theorem type_err {o : Options} {d : Dialect} {t : AType} {r : GenC.GenError} (h : GenC.type o d t = .err r) :
    r = .unsupported_integer_width := by
  unfold GenC.type at h
  rcases err_bind h with h | ⟨t', _, h⟩
  · exact absurd h concreteType_err
  · cases t' with
    | none => cases h
    | some t => exact generateType_err h

mutual

theorem expr_err {cs : Consts} {o : Options} {d : Dialect} (e : AExpr) {b : Bool} {r : GenC.GenError}
    (h : GenC.expr cs o d b e = .err r) : r = .unsupported_integer_width := by
  match e with
  | .literal k cv l => exact absurd h constValue_err
  | .id k cv x ref g =>
    simp only [GenC.expr] at h
    cases ref with
    | none => cases h
    | some l =>
      cases l with
      | node n =>
        simp only at h
        cases hn : cs n with
        | none => rw [hn] at h; cases h
        | some v =>
          rw [hn] at h
          simp only at h
          by_cases hc : o.c23 = true
          · rw [if_pos hc] at h; cases h
          · rw [if_neg hc] at h; exact absurd h constValue_err
      | param n => cases h
      | builtin n => cases h
  | .conversion k cv e t =>
    simp only [GenC.expr] at h
    rcases err_bind h with h | ⟨_, _, h⟩
    · exact type_err h
    · rcases err_bind h with h | ⟨_, _, h⟩
      · exact expr_err e h
      · cases h
  | .ite k cv l c r =>
    simp only [GenC.expr] at h
    rcases err_bind h with h | ⟨_, _, h⟩
    · exact expr_err c h
    · rcases err_bind h with h | ⟨_, _, h⟩
      · exact expr_err l h
      · rcases err_bind h with h | ⟨_, _, h⟩
        · exact expr_err r h
        · cases h
  | .binary k cv op l r =>
    simp only [GenC.expr] at h
    rcases err_bind h with h | ⟨_, _, h⟩
    · exact expr_err l h
    · rcases err_bind h with h | ⟨_, _, h⟩
      · exact expr_err r h
      · cases h
  | .prefix k cv op e =>
    simp only [GenC.expr] at h
    rcases err_bind h with h | ⟨_, _, h⟩
    · exact expr_err e h
    · cases h
  | .call k cv st x ref args =>
    simp only [GenC.expr] at h
    rcases err_bind h with h | ⟨_, _, h⟩
    · exact args_err args h
    · cases h

theorem args_err {cs : Consts} {o : Options} {d : Dialect} (es : List AExpr) {b : Bool} {r : GenC.GenError}
    (h : GenC.arguments cs o d b es = .err r) : r = .unsupported_integer_width := by
  match es with
  | [] => cases h
  | e :: es =>
    simp only [GenC.arguments] at h
    rcases err_bind h with h | ⟨_, _, h⟩
    · exact expr_err e h
    · rcases err_bind h with h | ⟨_, _, h⟩
      · exact args_err es h
      · cases h

end

theorem optInitializer_err {cs : Consts} {o : Options} {d : Dialect} {e : Option AExpr} {r : GenC.GenError}
    (h : GenC.optInitializer cs o d e = .err r) : r = .unsupported_integer_width := by
  cases e with
  | none => cases h
  | some e =>
    rcases err_bind h with h | ⟨_, _, h⟩
    · exact expr_err e h
    · cases h

theorem optValue_err {cs : Consts} {o : Options} {d : Dialect} {e : Option AExpr} {r : GenC.GenError}
    (h : GenC.optValue cs o d e = .err r) : r = .unsupported_integer_width := by
  cases e with
  | none => cases h
  | some e =>
    rcases err_bind h with h | ⟨_, _, h⟩
    · exact expr_err e h
    · cases h

theorem constant_err {o : Options} {d : Dialect} {n : Nat} {b : Bool} {cv : Option Value} {x : Name}
    {r : GenC.GenError} (h : GenC.constant o d n b cv x = .err r) :
    r = .unsupported_integer_width ∧ o.c23 = true ∨ r = .empty ∧ o.c23 = false := by
  unfold GenC.constant at h
  by_cases hc : o.c23 = true
  · rw [if_pos hc] at h
    refine .inl ⟨?_, hc⟩
    cases cv with
    | none => cases h
    | some v =>
      simp only at h
      rcases err_bind h with h | ⟨_, _, h⟩
      · exact generateType_err h
      · rcases err_bind h with h | ⟨_, _, h⟩
        · exact absurd h constValue_err
        · cases h
  · rw [if_neg hc] at h
    cases h
    exact .inr ⟨rfl, by simpa using hc⟩

/-- Statements that may be left out. -/
def Droppable (c23 : Bool) : AStmt → Prop
  | .const_ .. => c23 = false
  | .staticAssert .. => True
  | _ => False

mutual

theorem stmt_err {cs : Consts} {o : Options} {d : Dialect} (s : AStmt) {n : Nat} {b : Bool} {r : GenC.GenError}
    (h : GenC.stmt cs o d n b s = .err r) :
    r = .unsupported_integer_width ∨ r = .empty ∧ Droppable o.c23 s := by
  match s with
  | .const_ k cv x t e =>
    simp only [GenC.stmt] at h
    rcases err_bind h with h | ⟨_, _, h⟩
    · rcases constant_err h with h | h
      · exact .inl h.1
      · exact .inr h
    · cases h
  | .let_ k cv x t e =>
    simp only [GenC.stmt] at h
    cases cv with
    | none => cases h
    | some v =>
      rcases err_bind h with h | ⟨_, _, h⟩
      · exact .inl (generateType_err h)
      · rcases err_bind h with h | ⟨_, _, h⟩
        · exact .inl (optInitializer_err h)
        · cases h
  | .staticAssert .. =>
    simp only [GenC.stmt] at h
    cases h
    exact .inr ⟨rfl, trivial⟩
  | .ifThen k cv c b =>
    simp only [GenC.stmt] at h
    rcases err_bind h with h | ⟨_, _, h⟩
    · exact .inl (expr_err c h)
    · rcases err_bind h with h | ⟨_, _, h⟩
      · exact .inl (block_err b h)
      · cases h
  | .ifElse k cv c b e =>
    simp only [GenC.stmt] at h
    rcases err_bind h with h | ⟨_, _, h⟩
    · exact .inl (expr_err c h)
    · rcases err_bind h with h | ⟨_, _, h⟩
      · exact .inl (block_err b h)
      · by_cases hi : GenBms.isIf e = true
        · rw [if_pos hi] at h
          rcases err_bind h with h | ⟨_, _, h⟩
          · rcases stmt_err e h with h | ⟨_, h⟩
            · exact .inl h
            · cases e <;> first | exact h.elim | cases hi
          · cases h
        · rw [if_neg hi] at h
          rcases err_bind h with h | ⟨_, _, h⟩
          · exact .inl (block_err e h)
          · cases h
  | .while_ k cv c b =>
    simp only [GenC.stmt] at h
    rcases err_bind h with h | ⟨_, _, h⟩
    · exact .inl (expr_err c h)
    · rcases err_bind h with h | ⟨_, _, h⟩
      · exact .inl (block_err b h)
      · cases h
  | .control k cv c e =>
    simp only [GenC.stmt] at h
    rcases err_bind h with h | ⟨_, _, h⟩
    · exact .inl (optValue_err h)
    · cases h
  | .assign k cv x ref e =>
    simp only [GenC.stmt] at h
    rcases err_bind h with h | ⟨_, _, h⟩
    · exact .inl (expr_err e h)
    · cases h
  | .block k cv ss =>
    simp only [GenC.stmt] at h
    rcases err_bind h with h | ⟨_, _, h⟩
    · exact .inl (stmts_err ss h)
    · cases h
  | .call e =>
    refine .inl ?_
    cases e with
    | call k cv st x ref args =>
      cases st
      · simp only [GenC.stmt] at h
        rcases err_bind h with h | ⟨_, _, h⟩
        · exact expr_err _ h
        · cases h
      · simp only [GenC.stmt] at h
        rcases err_bind h with h | ⟨_, _, h⟩
        · exact expr_err _ h
        · cases h
    | _ =>
      simp only [GenC.stmt] at h
      rcases err_bind h with h | ⟨_, _, h⟩
      · exact expr_err _ h
      · cases h

theorem block_err {cs : Consts} {o : Options} {d : Dialect} (s : AStmt) {n : Nat} {b : Bool} {r : GenC.GenError}
    (h : GenC.asBlockC s (GenC.stmt cs o d n b s) = .err r) : r = .unsupported_integer_width := by
  match s with
  | .block k cv ss =>
    simp only [GenC.asBlockC, GenC.stmt] at h
    rcases err_bind h with h | ⟨_, _, h⟩
    · exact stmts_err ss h
    · cases h
  | .const_ .. | .let_ .. | .staticAssert .. | .ifThen .. | .ifElse .. | .while_ .. | .control .. | .assign ..
  | .call .. => cases h

theorem stmts_err {cs : Consts} {o : Options} {d : Dialect} (ss : List AStmt) {n : Nat} {r : GenC.GenError}
    (h : GenC.stmts cs o d n ss = .err r) : r = .unsupported_integer_width := by
  match ss with
  | [] => cases h
  | s :: ss =>
    simp only [GenC.stmts] at h
    cases hs : GenC.stmt cs o d n true s with
    | ok p =>
      rw [hs] at h
      rcases err_bind h with h | ⟨_, _, h⟩
      · exact stmts_err ss h
      · cases h
    | err e =>
      rw [hs] at h
      rcases stmt_err s hs with he | ⟨he, _⟩
      · subst he
        cases h
        rfl
      · subst he
        exact stmts_err ss h
    | throws => rw [hs] at h; cases h
    | ub => rw [hs] at h; cases h

end

theorem parameters_err {o : Options} {d : Dialect} {ps : List AParam} {b : Bool} {r : GenC.GenError}
    (h : GenC.parameters o d b ps = .err r) : r = .unsupported_integer_width := by
  induction ps generalizing b with
  | nil => cases h
  | cons p ps ih =>
    rcases err_bind h with h | ⟨_, _, h⟩
    · exact type_err h
    · rcases err_bind h with h | ⟨_, _, h⟩
      · exact ih h
      · cases h

/-- Declarations that may be left out. -/
def DroppableD (c23 : Bool) : ADecl → Prop
  | .const_ .. => c23 = false
  | .staticAssert .. => True
  | .function f => f.generic = true

theorem decl_err {cs : Consts} {o : Options} {d : Dialect} {x : ADecl} {b : Bool} {r : GenC.GenError}
    (h : GenC.decl cs o d b x = .err r) :
    r = .unsupported_integer_width ∨ r = .empty ∧ DroppableD o.c23 x := by
  cases x with
  | const_ k cv x t e =>
    rcases err_bind h with h | ⟨_, _, h⟩
    · rcases constant_err h with h | h
      · exact .inl h.1
      · exact .inr h
    · cases h
  | staticAssert => cases h; exact .inr ⟨rfl, trivial⟩
  | function f =>
    simp only [GenC.decl, GenC.function] at h
    by_cases hg : f.generic = true
    · rw [if_pos hg] at h
      cases h
      exact .inr ⟨rfl, hg⟩
    · rw [if_neg hg] at h
      refine .inl ?_
      rcases err_bind h with h | ⟨_, _, h⟩
      · exact type_err h
      · rcases err_bind h with h | ⟨_, _, h⟩
        · exact parameters_err h
        · rcases err_bind h with h | ⟨_, _, h⟩
          · rcases stmt_err _ h with h | ⟨_, h⟩
            · exact h
            · exact h.elim
          · cases h

theorem decls_err {cs : Consts} {o : Options} {d : Dialect} {ds : List ADecl} {b : Bool} {r : GenC.GenError}
    (h : GenC.decls cs o d b ds = .err r) : r = .unsupported_integer_width := by
  induction ds generalizing b with
  | nil => cases h
  | cons x ds ih =>
    simp only [GenC.decls] at h
    cases hs : GenC.decl cs o d true x with
    | ok p =>
      rw [hs] at h
      rcases err_bind h with h | ⟨_, _, h⟩
      · exact ih h
      · cases h
    | err e =>
      rw [hs] at h
      rcases decl_err hs with he | ⟨he, _⟩
      · subst he
        cases h
        rfl
      · subst he
        exact ih h
    | throws => rw [hs] at h; cases h
    | ub => rw [hs] at h; cases h

/-! ## Statements -/

/-- After the text, anything may follow. -/
abbrev Closed (s : List Char) (ts : List Tok) : Prop := Writes (fun _ => True) s ts

theorem indent_closed {o : Options} (hi : Space o.indentChar) (n : Nat) (b : Bool) :
    Closed (GenBms.indent o.toOptions n b) [] := by
  apply Writes.spaces
  intro c hc
  unfold GenBms.indent at hc
  by_cases hb : b = true
  · rw [if_pos hb] at hc
    rw [(List.mem_replicate.1 hc).2]
    exact hi
  · rw [if_neg hb] at hc
    cases hc

theorem separate_closed (b : Bool) : Closed (GenBms.separate b) [] := by
  unfold GenBms.separate
  cases b
  · exact .space (by decide)
  · exact .space (by decide)

theorem semicolon {s : List Char} {ts : List Tok} (h : Writes Stop s ts) : Closed (s ++ [';']) (ts ++ [pt ";"]) :=
  h.append (.solo (by decide)) (.cons (by decide))

theorem parens {s : List Char} {ts : List Tok} (h : Writes Stop s ts) :
    Closed (parenthesize s) (pt "(" :: ts ++ [pt ")"]) := by
  have h1 : Closed (s ++ [')']) (ts ++ [pt ")"]) := h.append (.solo (by decide)) (.cons (by decide))
  exact (Writes.solo (c := '(') (by decide)).append_any h1

theorem assign_writes {s : List Char} {ts : List Tok} (h : Writes Stop s ts) :
    Writes Stop (infixText .assign ++ s) (pt "=" :: ts) :=
  (Writes.infix (w := "=".toList) (.punct (by decide))).append_any h

theorem spaced {s : List Char} {ts : List Tok} {P : Char → Prop} (h : Writes P s ts) : Writes P (' ' :: s) ts :=
  (Writes.space (c := ' ') (by decide)).append_any h

/-- An expression as a whole. -/
theorem whole_writes {cs : Consts} {o : Options} {d : Dialect} (hf : Fits o d) {e : AExpr} {b : Bool} {s : List Char}
    (hw : WritableE cs o.alwaysParenthesize o.c23 e) (h : GenC.expr cs o d b e = .ok s) :
    ∃ ts c, Writes Stop s ts ∧ Derives d 0 ts c ∧ MeansE cs e c := by
  obtain ⟨⟨ts, c, h1⟩, _⟩ := expr_writes hf e hw h
  exact ⟨ts, c, h1.writes, h1.derives.down (by omega), h1.means⟩

theorem c23_dialect {o : Options} {d : Dialect} (hf : Fits o d) (hc : o.c23 = true) : d ≠ .c99 := by
  rintro rfl
  have := (hf (by decide)).1 hc
  cases this

theorem constant_writes {o : Options} {d : Dialect} (hf : Fits o d) (hi : Space o.indentChar) {n : Nat} {b : Bool}
    {cv : Option Value} {x : Name} {s : List Char}
    (hw : o.c23 = true → IsId x ∧ ∃ t v, cv = some ⟨t, some v⟩ ∧ WritableV t v)
    (h : GenC.constant o d n b cv x = .ok s) :
    o.c23 = true ∧ ∃ ts ty t v c, cv = some ⟨t, some v⟩ ∧ Closed s ts ∧ DerivesStmt d ts (.decl true ty x (some c)) ∧
      TypeIs t ty ∧ ConstIs t v c := by
  unfold GenC.constant at h
  by_cases hc : o.c23 = true
  · rw [if_pos hc] at h
    obtain ⟨hx, t, v, rfl, hv⟩ := hw hc
    simp only at h
    obtain ⟨st, h1, h⟩ := ok_bind h
    obtain ⟨sv, h2, h⟩ := ok_bind h
    cases h2
    cases h
    obtain ⟨tt, ty, h3, h4, h5⟩ := type_writes hf h1
    obtain ⟨tv, c, h6, h7, h8, _⟩ := value_writes (d := d) hv
    refine ⟨hc, _, ty, t, v, c, rfl, ?_, .constexpr h4 hx (h7.down (by omega)) (c23_dialect hf hc), h5, h8⟩
    have e1 := semicolon (assign_writes h6)
    have e2 := (Writes.word hx.1).append e1 (.cons (by decide))
    have e3 := h3.append (spaced e2) (.cons (by decide))
    have e4 := (kw_writes "constexpr" (by decide)).append (spaced e3) (.cons (by decide))
    have e5 := (indent_closed hi n b).append_any e4
    simp only [List.append_assoc, List.cons_append, List.nil_append] at e5 ⊢
    exact e5
  · rw [if_neg hc] at h
    cases h

theorem optInitializer_writes {cs : Consts} {o : Options} {d : Dialect} (hf : Fits o d) {e : Option AExpr}
    {s : List Char} (hw : IfAny (WritableE cs o.alwaysParenthesize o.c23) e)
    (h : GenC.optInitializer cs o d e = .ok s) :
    ∃ ts c, Closed (s ++ [';']) (ts ++ [pt ";"]) ∧ Heads Stop (s ++ [';']) ∧ DerivesInit d ts c ∧ MeansO cs e c := by
  cases e with
  | none =>
    cases h
    exact ⟨[], none, .solo (by decide), .cons (by decide), .none, .none⟩
  | some e =>
    obtain ⟨se, h1, h⟩ := ok_bind h
    cases h
    obtain ⟨ts, c, h2, h3, h4⟩ := whole_writes hf hw h1
    exact ⟨_, some c, semicolon (assign_writes h2), .cons (by decide), .some h3, .some h4⟩

theorem optValue_writes {cs : Consts} {o : Options} {d : Dialect} (hf : Fits o d) {e : Option AExpr}
    {s : List Char} (hw : IfAny (WritableE cs o.alwaysParenthesize o.c23) e)
    (h : GenC.optValue cs o d e = .ok s) :
    ∃ ts c, Closed (s ++ [';']) (ts ++ [pt ";"]) ∧ Heads Stop (s ++ [';']) ∧ DerivesValue d ts c ∧ MeansO cs e c := by
  cases e with
  | none =>
    cases h
    exact ⟨[], none, .solo (by decide), .cons (by decide), .none, .none⟩
  | some e =>
    obtain ⟨se, h1, h⟩ := ok_bind h
    cases h
    obtain ⟨ts, c, h2, h3, h4⟩ := whole_writes hf hw h1
    exact ⟨_, some c, semicolon (spaced h2), .cons (by decide), .some h3, .some h4⟩

theorem block_means {cs : Consts} {c23 : Bool} {s : AStmt} {c : CStmt} (h : IsBlock s) (hm : MeansS cs c23 s [c]) :
    IsCBlock c := by
  cases s <;> first | exact h.elim | skip
  cases hm
  trivial

theorem block_body {cs : Consts} {c23 : Bool} {k : Key} {cv : Option Value} {ss : List AStmt} {c : CStmt}
    (h : MeansS cs c23 (.block k cv ss) [c]) : ∃ ts, c = .block ts ∧ MeansSs cs c23 ss ts := by
  cases h with
  | block h => exact ⟨_, rfl, h⟩

theorem if_means {cs : Consts} {c23 : Bool} {s : AStmt} {c : CStmt} (h : IsIf s) (hm : MeansS cs c23 s [c]) :
    IsCIf c := by
  cases s <;> first | exact h.elim | skip
  · cases hm
    trivial
  · cases hm
    trivial

theorem droppable_means {cs : Consts} {c23 : Bool} {s : AStmt} (h : Droppable c23 s) : MeansS cs c23 s [] := by
  cases s <;> first | exact h.elim | skip
  · cases h
    exact .constDropped
  · exact .staticAssert

theorem asBlock_ok {s : AStmt} {r : Outcome GenC.GenError (List Char × Bool)} (h : IsBlock s) : GenC.asBlockC s r = r := by
  cases s <;> first | exact h.elim | rfl

theorem isIf_true {s : AStmt} (h : IsIf s) : GenBms.isIf s = true := by
  cases s <;> first | exact h.elim | rfl

theorem control_head {cs : Consts} {d : Dialect} {k : Key} {cv : Option Value} {c : Control} {e : Option AExpr} {te : List Tok} {ce : Option CExpr}
    {c23 : Bool} (hn : c ≠ .return_ → e = none) (h1 : DerivesValue d te ce) (h2 : MeansO cs e ce) :
    ∃ w s, GenBms.code (GenBms.controlToken c) = w ∧ Ident w ∧ DerivesStmt d (.word w :: te ++ [pt ";"]) s ∧
      MeansS cs c23 (.control k cv c e) [s] := by
  cases c with
  | return_ => exact ⟨_, _, rfl, by decide, .return_ h1, .return_ h2⟩
  | break_ =>
    cases hn (by decide)
    cases h2
    cases h1
    exact ⟨_, _, rfl, by decide, .break_, .break_⟩
  | continue_ =>
    cases hn (by decide)
    cases h2
    cases h1
    exact ⟨_, _, rfl, by decide, .continue_, .continue_⟩

mutual

theorem stmt_writes {cs : Consts} {o : Options} {d : Dialect} (hf : Fits o d) (hi : Space o.indentChar) (s : AStmt)
    {n : Nat} {b : Bool} {p : List Char × Bool} (hw : WritableS cs o.alwaysParenthesize o.c23 s)
    (h : GenC.stmt cs o d n b s = .ok p) :
    ∃ ts c, Closed p.1 ts ∧ DerivesStmt d ts c ∧ MeansS cs o.c23 s [c] := by
  match s with
  | .const_ k cv x t e =>
    simp only [GenC.stmt] at h
    obtain ⟨sc, h1, h⟩ := ok_bind h
    cases h
    obtain ⟨hc, ts, ty, ct, v, c, rfl, h2, h3, h4, h5⟩ := constant_writes hf hi hw h1
    refine ⟨ts, _, h2, h3, ?_⟩
    rw [hc]
    exact .const_ h4 h5
  | .let_ k cv x t e =>
    simp only [GenC.stmt] at h
    obtain ⟨hx, hcv, hwe⟩ := hw
    cases cv with
    | none => cases h
    | some v =>
      obtain ⟨st, h1, h⟩ := ok_bind h
      obtain ⟨se, h2, h⟩ := ok_bind h
      cases h
      obtain ⟨tt, ty, h3, h4, h5⟩ := type_writes hf h1
      obtain ⟨te, c, h6, h7, h8, h9⟩ := optInitializer_writes hf hwe h2
      refine ⟨_, _, ?_, .decl h4 hx h8, .let_ (v := v.val) h5 h9⟩
      have e2 := (Writes.word hx.1).append h6 h7
      have e3 := h3.append (spaced e2) (.cons (by decide))
      have e5 := (indent_closed hi n b).append_any e3
      simp only [List.append_assoc, List.cons_append, List.nil_append] at e5 ⊢
      exact e5
  | .staticAssert .. => simp only [GenC.stmt] at h; cases h
  | .ifThen k cv c b' =>
    simp only [GenC.stmt] at h
    obtain ⟨hwc, hb, hwb⟩ := hw
    obtain ⟨sc, h1, h⟩ := ok_bind h
    obtain ⟨sb, h2, h⟩ := ok_bind h
    cases h
    rw [asBlock_ok hb] at h2
    obtain ⟨tc, cc, h3, h4, h5⟩ := whole_writes hf hwc h1
    obtain ⟨tb, cb, h6, h7, h8⟩ := stmt_writes hf hi b' hwb h2
    refine ⟨_, _, ?_, .ifThen h4 h7 (block_means hb h8), .ifThen h5 h8⟩
    have e1 := (parens h3).append_any ((separate_closed o.breakAfterIf).append_any h6)
    have e2 := (kw_writes "if" (by decide)).append (spaced e1) (.cons (by decide))
    have e3 := (indent_closed hi n b).append_any e2
    simp only [List.append_assoc, List.cons_append, List.nil_append] at e3 ⊢
    exact e3
  | .ifElse k cv c b' e =>
    simp only [GenC.stmt] at h
    obtain ⟨hwc, hb, hwb, he, hwe⟩ := hw
    obtain ⟨sc, h1, h⟩ := ok_bind h
    obtain ⟨sb, h2, h⟩ := ok_bind h
    rw [if_pos (isIf_true he)] at h
    obtain ⟨se, h9, h⟩ := ok_bind h
    cases h
    rw [asBlock_ok hb] at h2
    obtain ⟨tc, cc, h3, h4, h5⟩ := whole_writes hf hwc h1
    obtain ⟨tb, cb, h6, h7, h8⟩ := stmt_writes hf hi b' hwb h2
    obtain ⟨te, ce, f1, f2, f3⟩ := stmt_writes hf hi e hwe h9
    refine ⟨_, _, ?_, .ifElse h4 h7 (block_means hb h8) f2 (.inl (if_means he f3)), .ifElse h5 h8 f3⟩
    have e0 := (kw_writes "else" (by decide)).append (spaced f1) (.cons (by decide))
    have e1 := (parens h3).append_any ((separate_closed o.breakAfterIf).append_any
      (h6.append_any ((indent_closed hi n sb.2).append_any e0)))
    have e2 := (kw_writes "if" (by decide)).append (spaced e1) (.cons (by decide))
    have e3 := (indent_closed hi n b).append_any e2
    simp only [List.append_assoc, List.cons_append, List.nil_append] at e3 ⊢
    exact e3
  | .while_ k cv c b' =>
    simp only [GenC.stmt] at h
    obtain ⟨hwc, hb, hwb⟩ := hw
    obtain ⟨sc, h1, h⟩ := ok_bind h
    obtain ⟨sb, h2, h⟩ := ok_bind h
    cases h
    rw [asBlock_ok hb] at h2
    obtain ⟨tc, cc, h3, h4, h5⟩ := whole_writes hf hwc h1
    obtain ⟨tb, cb, h6, h7, h8⟩ := stmt_writes hf hi b' hwb h2
    refine ⟨_, _, ?_, .while_ h4 h7 (block_means hb h8), .while_ h5 h8⟩
    have e1 := (parens h3).append_any ((separate_closed o.breakAfterIf).append_any h6)
    have e2 := (kw_writes "while" (by decide)).append (spaced e1) (.cons (by decide))
    have e3 := (indent_closed hi n b).append_any e2
    simp only [List.append_assoc, List.cons_append, List.nil_append] at e3 ⊢
    exact e3
  | .control k cv c e =>
    simp only [GenC.stmt] at h
    obtain ⟨hwe, hn⟩ := hw
    obtain ⟨se, h1, h⟩ := ok_bind h
    cases h
    obtain ⟨te, ce, h2, h3, h4, h5⟩ := optValue_writes hf hwe h1
    obtain ⟨w, s, h6, h7, h8, h9⟩ := control_head (k := k) (cv := cv) (c23 := o.c23) hn h4 h5
    refine ⟨_, _, ?_, h8, h9⟩
    rw [h6]
    have e2 := (Writes.word h7).append h2 h3
    have e3 := (indent_closed hi n b).append_any e2
    simp only [List.append_assoc, List.cons_append, List.nil_append] at e3 ⊢
    exact e3
  | .assign k cv x ref e =>
    simp only [GenC.stmt] at h
    obtain ⟨hx, hwe⟩ := hw
    obtain ⟨se, h1, h⟩ := ok_bind h
    cases h
    obtain ⟨te, ce, h2, h3, h4⟩ := whole_writes hf hwe h1
    refine ⟨_, _, ?_, .assign hx h3, .assign h4⟩
    have e1 := semicolon (assign_writes h2)
    have e2 := (Writes.word hx.1).append e1 (.cons (by decide))
    have e3 := (indent_closed hi n b).append_any e2
    simp only [List.append_assoc, List.cons_append, List.nil_append] at e3 ⊢
    exact e3
  | .block k cv ss =>
    simp only [GenC.stmt] at h
    obtain ⟨st, h1, h⟩ := ok_bind h
    cases h
    obtain ⟨ts, c, h2, h3, h4⟩ := stmts_writes hf hi ss hw h1
    refine ⟨_, _, ?_, .block h3, .block h4⟩
    have e1 := h2.append_any ((indent_closed hi n true).append_any (Writes.solo (c := '}') (by decide)))
    have e2 := (Writes.solo (c := '{') (by decide)).append_any ((Writes.space (c := '\n') (by decide)).append_any e1)
    simp only [List.append_assoc, List.cons_append, List.nil_append] at e2 ⊢
    exact e2
  | .call e => exact hw.elim

theorem stmts_writes {cs : Consts} {o : Options} {d : Dialect} (hf : Fits o d) (hi : Space o.indentChar)
    (ss : List AStmt) {n : Nat} {s : List Char} (hw : WritableSs cs o.alwaysParenthesize o.c23 ss)
    (h : GenC.stmts cs o d n ss = .ok s) :
    ∃ ts c, Closed s ts ∧ DerivesStmts d ts c ∧ MeansSs cs o.c23 ss c := by
  match ss with
  | [] => cases h; exact ⟨[], [], .nil _, .nil, .nil⟩
  | x :: ss =>
    simp only [GenC.stmts] at h
    cases hs : GenC.stmt cs o d n true x with
    | ok p =>
      rw [hs] at h
      obtain ⟨sr, h1, h⟩ := ok_bind h
      cases h
      obtain ⟨t1, c1, h2, h3, h4⟩ := stmt_writes hf hi x hw.1 hs
      obtain ⟨t2, c2, h5, h6, h7⟩ := stmts_writes hf hi ss hw.2 h1
      exact ⟨_, _, h2.append_any ((Writes.space (c := '\n') (by decide)).append_any h5), .cons h3 h6, .cons h4 h7⟩
    | err e =>
      rw [hs] at h
      rcases stmt_err x hs with he | ⟨he, hd⟩
      · subst he
        cases h
      · subst he
        obtain ⟨t2, c2, h5, h6, h7⟩ := stmts_writes hf hi ss hw.2 h
        exact ⟨_, _, h5, h6, .cons (droppable_means hd) h7⟩
    | throws => rw [hs] at h; cases h
    | ub => rw [hs] at h; cases h

end

/-! ## Programs -/

theorem decl_writes {cs : Consts} {o : Options} {d : Dialect} (hf : Fits o d) (hi : Space o.indentChar) {x : ADecl}
    {b : Bool} {p : List Char × Bool} (hw : WritableD cs o.alwaysParenthesize o.c23 x)
    (h : GenC.decl cs o d b x = .ok p) :
    ∃ ts c, Closed p.1 ts ∧ DerivesDecl d ts c ∧ MeansD cs o.c23 x [c] := by
  cases x with
  | const_ k cv x t e =>
    obtain ⟨sc, h1, h⟩ := ok_bind h
    cases h
    obtain ⟨hc, ts, ty, ct, v, c, rfl, h2, h3, h4, h5⟩ := constant_writes hf hi hw h1
    refine ⟨ts, _, h2, .const h3, ?_⟩
    rw [hc]
    exact .const_ h4 h5
  | staticAssert => cases h
  | function f =>
    simp only [GenC.decl, GenC.function] at h
    by_cases hg : f.generic = true
    · rw [if_pos hg] at h
      cases h
    · rw [if_neg hg] at h
      rw [Bool.not_eq_true] at hg
      obtain ⟨hx, hp, ⟨ct, ht⟩, hwb⟩ := hw hg
      obtain ⟨st, h1, h⟩ := ok_bind h
      obtain ⟨sp, h2, h⟩ := ok_bind h
      obtain ⟨sb, h3, h⟩ := ok_bind h
      cases h
      rw [hp] at h2
      cases h2
      rw [type_node ht] at h1
      obtain ⟨tt, ty, h4, h5, h6⟩ := type_writes hf h1
      obtain ⟨tb, cb, h7, h8, h9⟩ := stmt_writes hf hi _ (show WritableS _ _ _ (.block f.bodyKey none f.body) from hwb) h3
      obtain ⟨cb, rfl, h10⟩ := block_body h9
      · refine ⟨_, _, ?_, (.function h5 hx h8 trivial), .function hg ht h6 (by rw [hp]; exact .nil) h10⟩
        have e1 := (parens (kw_writes "void" (by decide))).append_any ((separate_closed o.breakAfterFunction).append_any h7)
        have e2 := (Writes.word hx.1).append e1 (.cons (by decide))
        have e3 := h4.append (spaced e2) (.cons (by decide))
        have e4 := (indent_closed hi 0 b).append_any e3
        simp only [List.append_assoc, List.cons_append, List.nil_append] at e4 ⊢
        exact e4

theorem droppable_meansD {cs : Consts} {c23 : Bool} {x : ADecl} (h : DroppableD c23 x) : MeansD cs c23 x [] := by
  cases x with
  | const_ => cases h; exact .constDropped
  | staticAssert => exact .staticAssert
  | function => exact .generic h

theorem decls_writes {cs : Consts} {o : Options} {d : Dialect} (hf : Fits o d) (hi : Space o.indentChar)
    {ds : List ADecl} {b : Bool} {s : List Char} (hw : ∀ x ∈ ds, WritableD cs o.alwaysParenthesize o.c23 x)
    (h : GenC.decls cs o d b ds = .ok s) :
    ∃ ts c, Closed s ts ∧ DerivesProgram d ts c ∧ MeansDs cs o.c23 ds c := by
  induction ds generalizing b s with
  | nil => cases h; exact ⟨[], [], .nil _, .nil, .nil⟩
  | cons x ds ih =>
    have hw' : ∀ x ∈ ds, WritableD cs o.alwaysParenthesize o.c23 x := fun y hy => hw y (List.mem_cons_of_mem _ hy)
    simp only [GenC.decls] at h
    cases hs : GenC.decl cs o d true x with
    | ok p =>
      rw [hs] at h
      obtain ⟨sr, h1, h⟩ := ok_bind h
      cases h
      obtain ⟨t1, c1, h2, h3, h4⟩ := decl_writes hf hi (hw x (by simp)) hs
      obtain ⟨t2, c2, h5, h6, h7⟩ := ih hw' h1
      refine ⟨_, _, ?_, .cons h3 h6, .cons h4 h7⟩
      have e1 := (Writes.space (c := '\n') (by decide)).append_any h5
      have e2 : Closed (if b = true then [] else ['\n']) [] := by
        cases b
        · exact .space (by decide)
        · exact .nil _
      have e3 := h2.append_any (e2.append_any e1)
      simp only [List.append_assoc, List.cons_append, List.nil_append] at e3 ⊢
      exact e3
    | err e =>
      rw [hs] at h
      rcases decl_err hs with he | ⟨he, hd⟩
      · subst he
        cases h
      · subst he
        obtain ⟨t2, c2, h5, h6, h7⟩ := ih hw' h
        exact ⟨_, _, h5, h6, .cons (droppable_meansD hd) h7⟩
    | throws => rw [hs] at h; cases h
    | ub => rw [hs] at h; cases h

end Bms.C
