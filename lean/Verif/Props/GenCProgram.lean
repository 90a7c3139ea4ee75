import Verif.Props.GenC
import Verif.Lemmas.GenCTypes

/-!
# Properties C70 and C71: generated C programs
-/

namespace Bms

open Spec (Ident IfAny IsBlock IsIf)
open C (Consts WritableE WritableS WritableSs WritableD MeansE MeansS MeansSs MeansD MeansDs Tok CExpr CStmt CDecl Lexes
  Derives DerivesStmt DerivesStmts DerivesDecl DerivesProgram BinOp IsId RefersTo pt kw reserved Space Spelling
  TypeOf TypesD Named ReadyD Known HasConst HasConstS HasConstSs Closed)
open GenC (Options Language Dialect dialect)

/-! ## Programs -/

/-- **C70, partial.** The text that is written for a program consists of tokens that are a program of C which
stands for the given program, and they are no other program. What is missing: programs that are not
`Writable`, see the violations below and those of C69. -/
theorem C70_program_partial {l : Language} {o : Options} {ds : List ADecl} {s : List Char} (hi : Space o.indentChar)
    (hw : ∀ d ∈ ds, WritableD (GenC.constants ds) o.alwaysParenthesize o.c23 d) (h : GenC.program l o ds = .ok s) :
    ∃ c, MeansDs (GenC.constants ds) o.c23 ds c ∧ (∃ ts, Lexes s ts ∧ DerivesProgram (dialect l o) ts c) ∧
      ∀ d ts c', Lexes s ts → DerivesProgram d ts c' → c' = c := by
  obtain ⟨ts, c, h1, h2, h3⟩ := C.decls_writes (C.fits_dialect l o) hi hw h
  refine ⟨c, h3, ⟨ts, h1.lexes, h2⟩, fun d ts' c' h4 h5 => ?_⟩
  rw [h4.unique h1.lexes] at h5
  exact h5.unique h2

theorem C.hasConstS_iff (s : AStmt) (k : Key) (v : Option Value) :
    (k, v) ∈ GenC.constantsS s ↔ HasConstS s k v := by
  refine AStmt.rec (motive_1 := fun s => (k, v) ∈ GenC.constantsS s ↔ HasConstS s k v)
    (motive_2 := fun ss => (k, v) ∈ GenC.constantsSs ss ↔ HasConstSs ss k v)
    ?_ ?_ ?_ ?_ ?_ ?_ ?_ ?_ ?_ ?_ ?_ ?_ s
  · intro k' cv x t e
    simp only [GenC.constantsS, List.mem_singleton, Prod.mk.injEq]
    exact ⟨fun ⟨h1, h2⟩ => h1 ▸ h2 ▸ .const_, fun h => by cases h; exact ⟨rfl, rfl⟩⟩
  · intro k' cv x t e
    simp only [GenC.constantsS, List.not_mem_nil, false_iff]
    intro h; cases h
  · intro k' cv e
    simp only [GenC.constantsS, List.not_mem_nil, false_iff]
    intro h; cases h
  · intro k' cv c b ih
    simp only [GenC.constantsS, ih]
    exact ⟨.ifThen, fun h => by cases h; assumption⟩
  · intro k' cv c b e ih ih'
    simp only [GenC.constantsS, List.mem_append, ih, ih']
    refine ⟨fun h => h.elim .ifElse .else_, fun h => ?_⟩
    cases h with
    | ifElse h => exact .inl h
    | else_ h => exact .inr h
  · intro k' cv c b ih
    simp only [GenC.constantsS, ih]
    exact ⟨.while_, fun h => by cases h; assumption⟩
  · intro k' cv c e
    simp only [GenC.constantsS, List.not_mem_nil, false_iff]
    intro h; cases h
  · intro k' cv x r e
    simp only [GenC.constantsS, List.not_mem_nil, false_iff]
    intro h; cases h
  · intro k' cv ss ih
    simp only [GenC.constantsS, ih]
    exact ⟨.block, fun h => by cases h; assumption⟩
  · intro e
    simp only [GenC.constantsS, List.not_mem_nil, false_iff]
    intro h; cases h
  · simp only [GenC.constantsSs, List.not_mem_nil, false_iff]
    intro h; cases h
  · intro s ss ih ih'
    simp only [GenC.constantsSs, List.mem_append, ih, ih']
    refine ⟨fun h => h.elim .head .tail, fun h => ?_⟩
    cases h with
    | head h => exact .inl h
    | tail h => exact .inr h

theorem C.hasConstSs_iff (ss : List AStmt) (k : Key) (v : Option Value) :
    (k, v) ∈ GenC.constantsSs ss ↔ HasConstSs ss k v := by
  have := C.hasConstS_iff (.block k none ss) k v
  simp only [GenC.constantsS] at this
  rw [this]
  exact ⟨fun h => by cases h; assumption, .block⟩

theorem C.hasConst_iff (ds : List ADecl) (k : Key) (v : Option Value) :
    (k, v) ∈ GenC.constantNodes ds ↔ HasConst ds k v := by
  induction ds with
  | nil =>
    simp only [GenC.constantNodes, List.not_mem_nil, false_iff]
    rintro (⟨h⟩ | ⟨h⟩) <;> cases h
  | cons d ds ih =>
    have hmono : HasConst ds k v → HasConst (d :: ds) k v := by
      rintro (h | ⟨h, h'⟩)
      · exact .global (List.mem_cons_of_mem _ h)
      · exact .inFunction (List.mem_cons_of_mem _ h) h'
    cases d with
    | const_ k' cv x t e =>
      simp only [GenC.constantNodes, List.mem_cons, Prod.mk.injEq, ih]
      constructor
      · rintro (⟨rfl, rfl⟩ | h)
        · exact .global (List.mem_cons_self)
        · exact hmono h
      · rintro (h | ⟨h, h'⟩)
        · rcases List.mem_cons.1 h with h | h
          · cases h; exact .inl ⟨rfl, rfl⟩
          · exact .inr (.global h)
        · rcases List.mem_cons.1 h with h | h
          · cases h
          · exact .inr (.inFunction h h')
    | staticAssert =>
      simp only [GenC.constantNodes, ih]
      refine ⟨hmono, ?_⟩
      rintro (h | ⟨h, h'⟩)
      · rcases List.mem_cons.1 h with h | h
        · cases h
        · exact .global h
      · rcases List.mem_cons.1 h with h | h
        · cases h
        · exact .inFunction h h'
    | function f =>
      simp only [GenC.constantNodes, List.mem_append, ih, C.hasConstSs_iff]
      constructor
      · rintro (h | h)
        · exact .inFunction (List.mem_cons_self) h
        · exact hmono h
      · rintro (h | ⟨h, h'⟩)
        · rcases List.mem_cons.1 h with h | h
          · cases h
          · exact .inr (.global h)
        · rcases List.mem_cons.1 h with h | h
          · cases h; exact .inl h'
          · exact .inr (.inFunction h h')

/-- **C70: the constants** that are used in the statement of C70 are those that the program declares. -/
theorem C70_constants (ds : List ADecl) (k : Key) :
    (∀ v, GenC.constants ds k = some v → HasConst ds k v) ∧
    (∀ v, HasConst ds k v → ∃ v', GenC.constants ds k = some v') := by
  constructor
  · intro v h
    rw [← C.hasConst_iff]
    have key : ∀ xs : List (Key × Option Value), xs.lookup k = some v → (k, v) ∈ xs := by
      intro xs h
      induction xs with
      | nil => cases h
      | cons x xs ih =>
        obtain ⟨a, b⟩ := x
        rw [List.lookup_cons] at h
        by_cases hk : k = a
        · subst hk
          simp at h
          simp [h]
        · rw [show (k == a) = false by simpa using hk] at h
          exact List.mem_cons_of_mem _ (ih h)
    exact key _ h
  · intro v h
    rw [← C.hasConst_iff] at h
    have key : ∀ xs : List (Key × Option Value), (k, v) ∈ xs → ∃ v', xs.lookup k = some v' := by
      intro xs h
      induction xs with
      | nil => cases h
      | cons x xs ih =>
        obtain ⟨a, b⟩ := x
        rw [List.lookup_cons]
        by_cases hk : k = a
        · subst hk
          simp
        · rw [show (k == a) = false by simpa using hk]
          rcases List.mem_cons.1 h with h | h
          · cases h; exact absurd rfl hk
          · exact ih h
    exact key _ h

/-! ## Violations -/

/-- **C70 is violated by `else` with a block.** The word `else` is left out: what is written is the
conditional statement without `else`, followed by the block, which is always executed. -/
theorem C70_else_violation {cs : Consts} {l : Language} {o : Options} {n : Nat} {b : Bool} {k k1 k2 : Key}
    {cv cv1 cv2 : Option Value} {c : AExpr} {ss ts : List AStmt} {p : List Char × Bool} (hi : Space o.indentChar)
    (hc : WritableE cs o.alwaysParenthesize o.c23 c) (hs : WritableSs cs o.alwaysParenthesize o.c23 ss)
    (ht : WritableSs cs o.alwaysParenthesize o.c23 ts)
    (h : GenC.stmt cs o (dialect l o) n b (.ifElse k cv c (.block k1 cv1 ss) (.block k2 cv2 ts)) = .ok p) :
    ∃ toks c' s' t', Lexes p.1 toks ∧ DerivesStmts (dialect l o) toks [.ifThen c' (.block s'), .block t'] ∧
      MeansE cs c c' ∧ MeansSs cs o.c23 ss s' ∧ MeansSs cs o.c23 ts t' ∧
      ∀ d x, ¬ DerivesStmt d toks x := by
  have hf := C.fits_dialect l o
  simp only [GenC.stmt, GenC.asBlockC, GenBms.isIf] at h
  obtain ⟨sc, h1, h⟩ := C.ok_bind h
  obtain ⟨sb, h2, h⟩ := C.ok_bind h
  replace h := (if_neg (c := (false = true)) (by decide)).symm.trans h
  obtain ⟨se, h3, h⟩ := C.ok_bind h
  obtain ⟨st, h2', h2⟩ := C.ok_bind h2
  obtain ⟨st2, h3', h3⟩ := C.ok_bind h3
  cases h2
  cases h3
  cases h
  obtain ⟨tc, cc, a1, a2, a3⟩ := C.whole_writes hf hc h1
  obtain ⟨tb, cb, a4, a5, a6⟩ := C.stmts_writes hf hi ss hs h2'
  obtain ⟨te, ce, b4, b5, b6⟩ := C.stmts_writes hf hi ts ht h3'
  have f1 := a4.append_any ((C.indent_closed hi n true).append_any (C.Writes.solo (c := '}') (by decide)))
  have f2 := (C.Writes.solo (c := '{') (by decide)).append_any ((C.Writes.space (c := '\n') (by decide)).append_any f1)
  have g1 := b4.append_any ((C.indent_closed hi n true).append_any (C.Writes.solo (c := '}') (by decide)))
  have g2 := (C.Writes.solo (c := '{') (by decide)).append_any ((C.Writes.space (c := '\n') (by decide)).append_any g1)
  have e1 := (C.parens a1).append_any ((C.separate_closed o.breakAfterIf).append_any (f2.append_any g2))
  have e2 := (C.kw_writes "if" (by decide)).append (C.spaced e1) (.cons (by decide))
  have e3 := ((C.indent_closed hi n b).append_any e2).lexes
  have hd1 : DerivesStmt (dialect l o) (kw "if" :: pt "(" :: tc ++ pt ")" :: (pt "{" :: tb ++ [pt "}"]))
      (.ifThen cc (.block cb)) := .ifThen a2 (.block a5) trivial
  have hd2 : DerivesStmt (dialect l o) (pt "{" :: te ++ [pt "}"]) (.block ce) := .block b5
  refine ⟨(kw "if" :: pt "(" :: tc ++ pt ")" :: (pt "{" :: tb ++ [pt "}"])) ++ ((pt "{" :: te ++ [pt "}"]) ++ []),
    cc, cb, ce, ?_, .cons hd1 (.cons hd2 .nil), a3, a6, b6, fun d x hx => ?_⟩
  · simp only [List.append_assoc, List.cons_append, List.nil_append, List.append_nil] at e3 ⊢
    exact e3
  · have := (C.stmt_split hd1).1 _ _ _ ((pt "{" :: te ++ [pt "}"]) ++ []) [] hx (by simp) (by simp [C.Follow, pt, kw])
      (by simp [C.Follow])
    have := this.2
    simp at this

theorem C.last_append {α : Type} {xs ys : List α} (h : ys ≠ []) : (xs ++ ys).getLast? = ys.getLast? := by
  cases hy : ys.getLast? with
  | none => exact absurd (List.getLast?_eq_none_iff.1 hy) h
  | some y => rw [List.getLast?_append, hy]; rfl

theorem C.last_cons {α : Type} {xs : List α} {x y : α} : (x :: (xs ++ [y])).getLast? = some y :=
  C.last_append (xs := x :: xs) (by simp)

theorem C.last_cons_append {α : Type} {xs ys : List α} {x y : α} : (x :: (xs ++ y :: ys)).getLast? = (y :: ys).getLast? :=
  C.last_append (xs := x :: xs) (by simp)

theorem C.last_cons_cons {α : Type} {ys : List α} {x y : α} : (x :: y :: ys).getLast? = (y :: ys).getLast? :=
  C.last_append (xs := [x]) (by simp)

/-- What ends a statement. -/
theorem C.stmt_last {d : Dialect} {ts : List Tok} {s : CStmt} (h : DerivesStmt d ts s) :
    ts.getLast? = some (pt ";") ∨ ts.getLast? = some (pt "}") := by
  refine DerivesStmt.rec (motive_1 := fun ts s _ => ts.getLast? = some (pt ";") ∨ ts.getLast? = some (pt "}"))
    (motive_2 := fun ts ss _ => True)
    ?decl ?constexpr ?ifThen ?ifElse ?while_ ?return_ ?break_ ?continue_ ?assign ?call ?block ?nil ?cons h
  case ifThen =>
    intro c b c' b' _ hb _ ih
    have hne : b ≠ [] := by rintro rfl; simp at ih
    rw [show kw "if" :: pt "(" :: c ++ pt ")" :: b = (kw "if" :: pt "(" :: c ++ [pt ")"]) ++ b by simp,
      C.last_append hne]
    exact ih
  case ifElse =>
    intro c b e c' b' e' _ _ _ _ _ _ ih
    have hne : e ≠ [] := by rintro rfl; simp at ih
    rw [show kw "if" :: pt "(" :: c ++ pt ")" :: b ++ kw "else" :: e =
      (kw "if" :: pt "(" :: c ++ pt ")" :: b ++ [kw "else"]) ++ e by simp,
      C.last_append hne]
    exact ih
  case while_ =>
    intro c b c' b' _ hb _ ih
    have hne : b ≠ [] := by rintro rfl; simp at ih
    rw [show kw "while" :: pt "(" :: c ++ pt ")" :: b = (kw "while" :: pt "(" :: c ++ [pt ")"]) ++ b by simp,
      C.last_append hne]
    exact ih
  case break_ => exact .inl rfl
  case continue_ => exact .inl rfl
  case nil => trivial
  case cons => intros; trivial
  case block => intros; exact .inr (by simp [C.last_cons])
  all_goals (intros; exact .inl (by simp [C.last_cons, C.last_cons_append, C.last_cons_cons]))

/-- **C70 is violated by calls of functions as statements**: the text is no statement, as there is no `;`. -/
theorem C70_call_violation {cs : Consts} {l : Language} {o : Options} {n : Nat} {b : Bool} {k : Key}
    {cv : Option Value} {x : Name} {ref : Option Lookup} {args : List AExpr} {p : List Char × Bool}
    (hi : Space o.indentChar) (hw : WritableE cs o.alwaysParenthesize o.c23 (.call k cv true x ref args))
    (h : GenC.stmt cs o (dialect l o) n b (.call (.call k cv true x ref args)) = .ok p) :
    (∃ ts c, Lexes p.1 ts ∧ DerivesStmt (dialect l o) (ts ++ [pt ";"]) c ∧
      MeansS cs o.c23 (.call (.call k cv true x ref args)) [c]) ∧
    ∀ d ts c, Lexes p.1 ts → ¬ DerivesStmt d ts c := by
  have hf := C.fits_dialect l o
  obtain ⟨hid, hwa⟩ := hw
  simp only [GenC.stmt, GenC.expr] at h
  obtain ⟨s1, h1, h⟩ := C.ok_bind h
  obtain ⟨sa, h2, h1⟩ := C.ok_bind h1
  cases h1
  cases h
  obtain ⟨ta, ca, h3, h4, h5⟩ := C.args_writes hf args hwa h2
  have e1 := (C.Writes.word hid.1).append (C.parens h3) (.cons (by decide))
  have e2 := ((C.indent_closed hi n b).append_any e1).lexes
  refine ⟨⟨_, .call (.call x ca), e2, ?_, .call (.call h5)⟩, ?_⟩
  · exact .call ((Derives.call hid h4).down (Nat.zero_le _)) trivial
  · intro d ts c h6 h7
    rw [h6.unique e2] at h7
    have := C.stmt_last h7
    simp [pt, C.last_cons] at this

/-- **C70 is violated by parameters of functions**: they are written as in BMS, `name: type`, and so the text
is no declaration. -/
theorem C70_parameter_violation {cs : Consts} {l : Language} {o : Options} {b : Bool} {f : AFn} {q : AParam}
    {qs : List AParam} {p : List Char × Bool} (hi : Space o.indentChar) (hg : f.generic = false) (hp : f.params = q :: qs)
    (hx : IsId f.name) (hq : ∀ r ∈ f.params, IsId r.name ∧ ∃ ct, TypeOf r.type ct) (hr : ∃ ct, TypeOf f.ret ct)
    (hb : WritableSs cs o.alwaysParenthesize o.c23 f.body)
    (h : GenC.decl cs o (dialect l o) b (.function f) = .ok p) :
    ∀ d ts c, Lexes p.1 ts → ¬ DerivesDecl d ts c := by
  have hf := C.fits_dialect l o
  obtain ⟨ct, ht⟩ := hr
  simp only [GenC.decl, GenC.function, hg] at h
  rw [if_neg (by decide)] at h
  obtain ⟨st, h1, h⟩ := C.ok_bind h
  obtain ⟨sp, h2, h⟩ := C.ok_bind h
  obtain ⟨sb, h3, h⟩ := C.ok_bind h
  cases h
  rw [C.type_node ht] at h1
  obtain ⟨tt, ty, h4, h5, h6⟩ := C.type_writes hf h1
  obtain ⟨tb, cb, h7, h8, h9⟩ := C.stmt_writes hf hi _
    (show WritableS _ _ _ (.block f.bodyKey none f.body) from hb) h3
  have key : ∀ (ps : List AParam) (first : Bool) (s : List Char),
      (∀ r ∈ ps, IsId r.name ∧ ∃ ct, TypeOf r.type ct) → ps ≠ [] →
      GenC.parameters o (dialect l o) first ps = .ok s → ∃ ts, C.Writes C.Stop s ts ∧ C.Heads C.Stop (',' :: ' ' :: s) ∧
        ∃ x r, ts = (if first then [] else [pt ","]) ++ .word x :: pt ":" :: r ∧ IsId x := by
    intro ps
    induction ps with
    | nil => intro _ _ _ h; exact absurd rfl h
    | cons r ps ih =>
      intro first s hps _ h
      obtain ⟨hid, ct, hct⟩ := hps r (by simp)
      obtain ⟨t, e1, h⟩ := C.ok_bind h
      obtain ⟨s', e2, h⟩ := C.ok_bind h
      cases h
      rw [C.type_node hct] at e1
      obtain ⟨tt, ty, e3, e4, e5⟩ := C.type_writes hf e1
      have e6 : ∃ tr, C.Writes C.Stop (t ++ s') (tt ++ tr) := by
        cases ps with
        | nil => cases e2; exact ⟨[], by simpa using e3⟩
        | cons r' ps =>
          obtain ⟨tr, g1, g2, -⟩ := ih false s' (fun x hx => hps x (List.mem_cons_of_mem _ hx)) (by simp) e2
          have hh : C.Heads C.Stop s' := by
            obtain ⟨t', e7, e8⟩ := C.ok_bind e2
            obtain ⟨s2, e9, e8⟩ := C.ok_bind e8
            cases e8
            exact .cons (by decide)
          exact ⟨tr, e3.append g1 hh⟩
      obtain ⟨tr, e6⟩ := e6
      have hcolon : C.Writes (fun _ => True) (':' :: [' ']) ([pt ":"] ++ []) :=
        (C.Writes.before (w := ":".toList) (.punct (by decide))).append (.space (by decide)) (.cons (by decide))
      have e7 := (C.Writes.word hid.1).append (hcolon.append_any e6) (.cons (by decide))
      cases first with
      | true =>
        refine ⟨_, ?_, .cons (by decide), r.name, tt ++ tr, rfl, hid⟩
        simp only [List.append_assoc, List.cons_append, List.nil_append, if_true, List.append_nil] at e7 ⊢
        exact e7
      | false =>
        refine ⟨_, ?_, .cons (by decide), r.name, tt ++ tr, rfl, hid⟩
        have e8 := (C.Writes.solo (c := ',') (by decide)).append_any (C.spaced e7)
        simp only [List.append_assoc, List.cons_append, List.nil_append, List.append_nil] at e8 ⊢
        exact e8
  obtain ⟨tp, e1, -, x, r, rfl, hidx⟩ := key f.params true sp hq (by simp [hp]) h2
  have g1 := (C.parens e1).append_any ((C.separate_closed o.breakAfterFunction).append_any h7)
  have g2 := (C.Writes.word hx.1).append g1 (.cons (by decide))
  have g3 := h4.append (C.spaced g2) (.cons (by decide))
  have g4 := ((C.indent_closed hi 0 b).append_any g3).lexes
  intro d ts c h10 h11
  have hts : ts = tt ++ (.word f.name :: pt "(" :: (.word x :: pt ":" :: r) ++ pt ")" :: tb) := by
    refine h10.unique ?_
    simp only [List.append_assoc, List.cons_append, List.nil_append, if_true] at g4 ⊢
    exact g4
  subst hts
  have hnot : ∀ w ∈ C.typeHeads, w ∈ reserved := C.typeHeads_reserved
  generalize hts : tt ++ (.word f.name :: pt "(" :: (.word x :: pt ":" :: r) ++ pt ")" :: tb) = ts at h11
  cases h11 with
    | const h12 => exact C.const_not_type (r := []) h12 h5 (by rw [List.append_nil, ← hts])
    | function ht' hx' hb' =>
      obtain ⟨-, h12⟩ := C.type_split h5 ht' hts
      injection h12 with _ h12
      injection h12 with _ h12
      injection h12 with h12
      injection h12 with h12
      exact hidx.2 (h12 ▸ by decide)
    | functionParams ht' hx' hp' hb' =>
      simp only [List.append_assoc, List.cons_append] at hts
      obtain ⟨-, h12⟩ := C.type_split h5 ht' hts
      injection h12 with _ h12
      injection h12 with _ h12
      have hfirst : ∀ {d ts ps}, C.DerivesParams d ts ps → ∃ w r, ts = .word w :: r ∧ w ∈ C.typeHeads := by
        intro d ts ps h
        cases h with
        | one h =>
          obtain ⟨w, r, rfl, hw⟩ := h.first
          exact ⟨w, _, rfl, hw⟩
        | more h =>
          obtain ⟨w, r, rfl, hw⟩ := h.first
          exact ⟨w, _, rfl, hw⟩
      obtain ⟨w, r', rfl, hw⟩ := hfirst hp'
      simp only [List.cons_append] at h12
      injection h12 with h12
      injection h12 with h12
      exact hidx.2 (h12 ▸ hnot w hw)

/-- The name of the function, if it is one. -/
def C.functionName : CDecl → Option Name
  | .function _ x _ _ => some x
  | .const .. => none

/-- The name of the function, if it is one that is not generic. -/
def C.concreteName : ADecl → Option Name
  | .function f => if f.generic = true then none else some f.name
  | _ => none

/-- **C70.** The functions of the C program are the functions of the program, in the same order, except for
generic functions: there is no code for their instances. -/
theorem C70_functions {cs : Consts} {c23 : Bool} {ds : List ADecl} {c : List CDecl} (h : MeansDs cs c23 ds c) :
    c.filterMap C.functionName = ds.filterMap C.concreteName := by
  induction h with
  | nil => rfl
  | cons h _ ih =>
    rw [List.filterMap_append, ih]
    cases h with
    | constDropped => rfl
    | const_ => rfl
    | staticAssert => rfl
    | generic h => simp [C.concreteName, h]
    | function h => simp [C.concreteName, C.functionName, h]

/-- **C70 is violated by generic functions**: in the program that is written, no function has the name of a
function which is generic, if no other function has it; but calls of its instances are written with this name. -/
theorem C70_generic_violation {l : Language} {o : Options} {ds : List ADecl} {s : List Char} {x : Name}
    (hi : Space o.indentChar) (hw : ∀ d ∈ ds, WritableD (GenC.constants ds) o.alwaysParenthesize o.c23 d)
    (h : GenC.program l o ds = .ok s) (hx : ∀ f, ADecl.function f ∈ ds → f.name = x → f.generic = true) :
    (∀ d ts c t ps b, Lexes s ts → DerivesProgram d ts c → CDecl.function t x ps b ∉ c) ∧
    ∀ cs k cv st ref as c, MeansE cs (.call k cv st x ref as) c → ∃ as', c = .call x as' := by
  constructor
  · obtain ⟨c, h1, -, h2⟩ := C70_program_partial hi hw h
    intro d ts c' t ps b h3 h4 hm
    rw [h2 d ts c' h3 h4] at hm
    have h5 : x ∈ c.filterMap C.functionName := List.mem_filterMap.2 ⟨_, hm, rfl⟩
    rw [C70_functions h1] at h5
    obtain ⟨e, h6, h7⟩ := List.mem_filterMap.1 h5
    cases e with
    | const_ => cases h7
    | staticAssert => cases h7
    | function f =>
      simp only [C.concreteName] at h7
      by_cases hg : f.generic = true
      · rw [if_pos hg] at h7; cases h7
      · rw [if_neg hg] at h7
        injection h7 with h7
        exact hg (hx f h6 h7)
  · intro cs k cv st ref as c h
    cases h with
    | call h => exact ⟨_, rfl⟩

/-! ## Errors -/

/-- **C71.** The only error is that a type has no name in the language. -/
theorem C71_error {l : Language} {o : Options} {ds : List ADecl} {r : GenC.GenError} (h : GenC.program l o ds = .err r) :
    r = .unsupported_integer_width := C.decls_err h

/-- **C71.** If analysis has found all values and types, then a text is written if all types have names in
the language, and otherwise the error is given. -/
theorem C71_types {l : Language} {o : Options} {ds : List ADecl}
    (h : ∀ d ∈ ds, ReadyD (GenC.constants ds) o.c23 d) :
    ((∃ s, GenC.program l o ds = .ok s) ↔ ∀ d ∈ ds, TypesD (Named l o.c23) o.c23 d) ∧
    (GenC.program l o ds = .err .unsupported_integer_width ↔ ¬ ∀ d ∈ ds, TypesD (Named l o.c23) o.c23 d) := by
  rcases C.decls_decided (l := l) (b := true) h with ⟨⟨s, h1⟩, h2⟩ | ⟨h1, h2⟩
  · have h1' : GenC.program l o ds = .ok s := h1
    exact ⟨⟨fun _ => h2, fun _ => ⟨s, h1'⟩⟩, ⟨fun h => (by rw [h1'] at h; cases h), fun h => absurd h2 h⟩⟩
  · have h1' : GenC.program l o ds = .err .unsupported_integer_width := h1
    exact ⟨⟨fun ⟨s, h⟩ => (by rw [h1'] at h; cases h), fun h => absurd h h2⟩, ⟨fun _ => h2, fun _ => h1'⟩⟩

/-- **C71 needs that values are known**: a constant that was accepted without value (see
`C57_unknown_violation`) makes the generator throw, where it is used, or with the option `c_23` where it is
declared. -/
theorem C71_unknown_violation {cs : Consts} {o : Options} {d : Dialect} {b : Bool} {k : Key} {cv : Option Value}
    {x : Name} {ref : Option Lookup} {g : Bool} {t : CType} :
    (o.c23 = false → RefersTo cs ref (some ⟨t, none⟩) →
      GenC.expr cs o d b (.id k cv x ref g) = .throws) ∧
    (o.c23 = true → (∃ s, GenC.generateType o d t = .ok s) → ∀ n sol,
      GenC.constant o d n sol (some ⟨t, none⟩) x = .throws) := by
  constructor
  · rintro hc ⟨n, rfl, hn⟩
    simp only [GenC.expr, hn, hc]
    rfl
  · rintro hc ⟨s, hs⟩ n sol
    simp only [GenC.constant, if_pos hc, hs]
    rfl

/-! ## A program that meets the hypotheses -/

namespace C

/-- `const c: Int = 5;`
`function f() -> Uint(32) { let x: Uint(32) = c as Uint(32); while x != 0 { if x == 1 { } else if true { x = ~(x + 1); } } return x; }` -/
def sample : List ADecl :=
  [.const_ 1 (some ⟨.int, some 5⟩) ['c'] none (.literal 2 (some ⟨.int, some 5⟩) (some (.integer ['5']))),
   .function ⟨3, none, ['f'], [], .uint 4 none (some 32) (.literal 5 none none), none, 6,
    [.let_ 7 (some ⟨.uint 32, none⟩) ['x'] (some (.uint 8 none (some 32) (.literal 9 none none)))
      (some (.conversion 10 none (.id 11 none ['c'] (some (.node 1)) false)
        (.uint 12 none (some 32) (.literal 13 none none)))),
     .while_ 14 none (.binary 15 none .not_equals (.id 16 none ['x'] (some (.node 7)) false)
        (.literal 17 (some ⟨.int, some 0⟩) none))
      (.block 18 none [.ifElse 19 none
        (.binary 20 none .equals (.id 21 none ['x'] (some (.node 7)) false) (.literal 22 (some ⟨.int, some 1⟩) none))
        (.block 23 none [])
        (.ifThen 24 none (.literal 25 (some ⟨.bool, some 1⟩) none)
          (.block 26 none [.assign 27 none ['x'] (some (.node 7)) (.prefix 28 none .bitwise_not
            (.binary 29 none .binary_plus (.id 30 none ['x'] (some (.node 7)) false)
              (.literal 31 (some ⟨.int, some 1⟩) none)))]))]),
      .control 32 none .return_ (some (.id 33 none ['x'] (some (.node 7)) false))],
    [], false, none, .unanalyzed⟩]

/-- The text of a program. -/
def textOf (l : Language) (o : Options) (ds : List ADecl) : Option (List Char) :=
  match GenC.program l o ds with
  | .ok text => some text
  | _ => none

def sampleText : List Char :=
  "uint32_t f(void) {\n    uint32_t x = (uint32_t)5;\n    while (x != 0) {\n        if (x == 1) {\n        }else if (true) {\n            x = ~(x + 1);\n        }\n    }\n    return x;\n}\n".toList

end C

/-- The hypotheses of C70 and C71 are met by a program. -/
theorem C70_sample : Space ({} : Options).indentChar ∧
    (∀ d ∈ C.sample, WritableD (GenC.constants C.sample) false false d) ∧
    (∀ d ∈ C.sample, ReadyD (GenC.constants C.sample) false d) ∧
    C.textOf .c {} C.sample = some C.sampleText := by
  have h1 : GenC.constants C.sample 1 = some (some ⟨.int, some 5⟩) := by decide
  have h7 : GenC.constants C.sample 7 = none := by decide
  have hf : IsId ['f'] := ⟨⟨by decide, by decide⟩, by decide⟩
  have hx : IsId ['x'] := ⟨⟨by decide, by decide⟩, by decide⟩
  have w0 : WritableE (GenC.constants C.sample) false false (.literal 17 (some ⟨.int, some 0⟩) none) :=
    ⟨_, _, rfl, ⟨by decide, by decide⟩, .small (by decide)⟩
  have w1 : ∀ k, WritableE (GenC.constants C.sample) false false (.literal k (some ⟨.int, some 1⟩) none) :=
    fun _ => ⟨_, _, rfl, ⟨by decide, by decide⟩, .small (by decide)⟩
  have wt : WritableE (GenC.constants C.sample) false false (.literal 25 (some ⟨.bool, some 1⟩) none) :=
    ⟨_, _, rfl, .inr rfl⟩
  have r7 : ∀ v, ¬ RefersTo (GenC.constants C.sample) (some (.node 7)) v := by
    rintro v ⟨n, hn, h⟩
    cases hn
    rw [h7] at h
    cases h
  have r1 : RefersTo (GenC.constants C.sample) (some (.node 1)) (some ⟨.int, some 5⟩) := ⟨1, rfl, h1⟩
  have r1' : ∀ v, RefersTo (GenC.constants C.sample) (some (.node 1)) v → Known v := by
    rintro v ⟨n, hn, h⟩
    cases hn
    rw [h1] at h
    cases h
    exact ⟨_, _, rfl⟩
  have wx : ∀ k, WritableE (GenC.constants C.sample) false false (.id k none ['x'] (some (.node 7)) false) :=
    fun _ => .inl ⟨r7, hx⟩
  have wc : WritableE (GenC.constants C.sample) false false (.id 11 none ['c'] (some (.node 1)) false) :=
    .inr ⟨rfl, _, _, r1, ⟨by decide, by decide⟩, .small (by decide)⟩
  have t32 : ∀ {k cv e}, TypeOf (.uint k cv (some 32) e) (.uint 32) := .uint (by decide) (by decide)
  refine ⟨by decide, ?_, ?_, by decide +kernel⟩
  · intro d hd
    generalize GenC.constants C.sample = cs at *
    simp only [C.sample, List.mem_cons, List.not_mem_nil, or_false] at hd
    rcases hd with rfl | rfl
    · intro h; cases h
    · intro _
      refine ⟨hf, rfl, ⟨_, t32⟩, ⟨hx, by simp, wc, _, t32⟩, ⟨⟨⟨.ne, by decide, .inr id⟩, wx 16, w0⟩, trivial,
        ⟨⟨⟨.eq, by decide, .inr id⟩, wx 21, w1 22⟩, trivial, trivial, trivial, wt, trivial, ⟨hx, ⟨.bnot, by decide⟩,
          .inr ?_, ⟨.add, by decide, .inr id⟩, wx 30, w1 31⟩, trivial⟩, trivial⟩, ⟨wx 33, fun h => absurd rfl h⟩, trivial⟩
      rintro (h | h) <;> cases h
  · intro d hd
    generalize GenC.constants C.sample = cs at *
    simp only [C.sample, List.mem_cons, List.not_mem_nil, or_false] at hd
    rcases hd with rfl | rfl
    · intro h; cases h
    · intro _
      have q7 : (false = false → ∀ v, RefersTo cs (some (.node 7)) v → Known v) := fun _ v h => absurd h (r7 v)
      exact ⟨⟨_, t32⟩, fun p hp => absurd hp (by simp), ⟨by simp, fun _ => r1', _, t32⟩,
        ⟨⟨q7, _, _, rfl⟩, trivial, ⟨⟨q7, _, _, rfl⟩, trivial, trivial, .inl trivial, ⟨_, _, rfl⟩, trivial,
          ⟨q7, _, _, rfl⟩, trivial⟩, trivial⟩, q7, trivial⟩

end Bms
