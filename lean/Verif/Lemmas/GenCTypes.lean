import Verif.Lemmas.GenCStmt

/-!
# For which programs the generator of C code gives a text
-/

namespace Bms.C

open Spec (IfAny IsBlock IsIf)
open GenC (Options Dialect Language dialect)
open GenBms (infixText parenthesize)

/-- The result is a text if `T` holds, and the error otherwise. -/
def Decided {α : Type} (r : Outcome GenC.GenError α) (T : Prop) : Prop :=
  (∃ a, r = .ok a) ∧ T ∨ r = .err .unsupported_integer_width ∧ ¬ T

theorem Decided.bind {α β : Type} {x : Outcome GenC.GenError α} {f : α → Outcome GenC.GenError β} {A B : Prop}
    (h : Decided x A) (h' : ∀ a, Decided (f a) B) : Decided (x >>= f) (A ∧ B) := by
  rcases h with ⟨⟨a, rfl⟩, hA⟩ | ⟨rfl, hA⟩
  · rcases h' a with ⟨⟨b, hb⟩, hB⟩ | ⟨hb, hB⟩
    · exact .inl ⟨⟨b, hb⟩, hA, hB⟩
    · exact .inr ⟨hb, fun h => hB h.2⟩
  · exact .inr ⟨rfl, fun h => hA h.1⟩

theorem Decided.ok {α : Type} {a : α} : Decided (.ok a) True := .inl ⟨⟨a, rfl⟩, trivial⟩

theorem Decided.congr {α : Type} {r : Outcome GenC.GenError α} {T T' : Prop} (h : Decided r T) (ht : T ↔ T') :
    Decided r T' := by
  rcases h with ⟨h1, h2⟩ | ⟨h1, h2⟩
  · exact .inl ⟨h1, ht.1 h2⟩
  · exact .inr ⟨h1, fun h => h2 (ht.2 h)⟩

theorem Decided.last {α β : Type} {x : Outcome GenC.GenError α} {f : α → β} {A : Prop} (h : Decided x A) :
    Decided (x >>= fun a => .ok (f a)) A :=
  (h.bind (B := True) fun _ => .ok).congr (by simp)

theorem cpp_dialect (l : Language) (o : Options) : dialect l o ≠ .cpp20 ∧ o.c23 = true ↔ l = .c ∧ o.c23 = true := by
  unfold dialect
  cases l <;> cases o.c23 <;> simp

theorem generateType_decided (l : Language) (o : Options) (t : CType) :
    Decided (GenC.generateType o (dialect l o) t) (Named l o.c23 t) := by
  cases t with
  | uint w =>
    unfold GenC.generateType
    refine Decided.last ?_
    simp only [GenC.targetType, Named, exactNames, List.map_cons, List.map_nil, List.mem_cons, List.not_mem_nil,
      or_false, cpp_dialect]
    by_cases hc : l = .c ∧ o.c23 = true
    · refine .inl ⟨?_, .inr hc⟩
      by_cases hp : o.preferBitint = true
      · rw [if_pos ⟨hc, hp⟩]; exact ⟨_, rfl⟩
      · rw [if_neg (fun h => hp h.2)]
        by_cases h8 : w = 8
        · rw [if_pos h8]; exact ⟨_, rfl⟩
        rw [if_neg h8]
        by_cases h8 : w = 16
        · rw [if_pos h8]; exact ⟨_, rfl⟩
        rw [if_neg h8]
        by_cases h8 : w = 32
        · rw [if_pos h8]; exact ⟨_, rfl⟩
        rw [if_neg h8]
        by_cases h8 : w = 64
        · rw [if_pos h8]; exact ⟨_, rfl⟩
        rw [if_neg h8, if_pos hc]
        exact ⟨_, rfl⟩
    · rw [if_neg (fun h => hc h.1)]
      by_cases h8 : w = 8
      · rw [if_pos h8]; exact .inl ⟨⟨_, rfl⟩, by simp [h8]⟩
      by_cases h16 : w = 16
      · rw [if_neg h8, if_pos h16]; exact .inl ⟨⟨_, rfl⟩, by simp [h16]⟩
      by_cases h32 : w = 32
      · rw [if_neg h8, if_neg h16, if_pos h32]; exact .inl ⟨⟨_, rfl⟩, by simp [h32]⟩
      by_cases h64 : w = 64
      · rw [if_neg h8, if_neg h16, if_neg h32, if_pos h64]; exact .inl ⟨⟨_, rfl⟩, by simp [h64]⟩
      rw [if_neg h8, if_neg h16, if_neg h32, if_neg h64, if_neg hc]
      exact .inr ⟨rfl, by simp [h8, h16, h32, h64]; exact fun h => by simpa [h] using hc⟩
  | void => exact .inl ⟨⟨_, rfl⟩, trivial⟩
  | bool => exact .inl ⟨⟨_, rfl⟩, trivial⟩
  | int => exact .inl ⟨⟨_, rfl⟩, trivial⟩

theorem typeOf_fun {t : AType} {a b : CType} (h : TypeOf t a) (h' : TypeOf t b) : a = b := by
  cases h <;> cases h' <;> rfl

theorem type_decided (l : Language) (o : Options) {t : AType} (h : ∃ ct, TypeOf t ct) :
    Decided (GenC.type o (dialect l o) t) (∀ ct, TypeOf t ct → Named l o.c23 ct) := by
  obtain ⟨ct, h⟩ := h
  rw [type_node h]
  refine (generateType_decided l o ct).congr ⟨fun hn ct' h' => ?_, fun hn => hn ct h⟩
  rw [typeOf_fun h' h]
  exact hn

theorem constValue_known {cv : Option Value} (h : Known cv) : ∃ s, GenC.constValue cv = .ok s := by
  obtain ⟨t, x, rfl⟩ := h
  exact ⟨_, rfl⟩

mutual

theorem expr_decided {cs : Consts} {l : Language} {o : Options} (e : AExpr) (b : Bool) (h : ReadyE cs o.c23 e) :
    Decided (GenC.expr cs o (dialect l o) b e) (TypesE (Named l o.c23) e) := by
  match e with
  | .literal k cv lit =>
    obtain ⟨s, hs⟩ := constValue_known h
    simp only [GenC.expr, hs]
    exact .ok
  | .id k cv x ref g =>
    refine .inl ⟨?_, trivial⟩
    simp only [GenC.expr]
    cases ref with
    | none => exact ⟨_, rfl⟩
    | some r =>
      cases r with
      | param n => exact ⟨_, rfl⟩
      | builtin n => exact ⟨_, rfl⟩
      | node n =>
        simp only
        cases hn : cs n with
        | none => exact ⟨_, rfl⟩
        | some v =>
          simp only
          by_cases hc : o.c23 = true
          · rw [if_pos hc]; exact ⟨_, rfl⟩
          · rw [if_neg hc]
            exact constValue_known (h (by simpa using hc) v ⟨n, rfl, hn⟩)
  | .conversion k cv e t =>
    simp only [GenC.expr]
    refine ((type_decided l o h.2).bind fun _ => (expr_decided e true h.1).last).congr ?_
    exact And.comm
  | .ite k cv a c r =>
    simp only [GenC.expr]
    refine ((expr_decided c true h.2.1).bind fun _ => (expr_decided a true h.1).bind fun _ =>
      (expr_decided r true h.2.2).last).congr ?_
    exact ⟨fun ⟨h1, h2, h3⟩ => ⟨h2, h1, h3⟩, fun ⟨h1, h2, h3⟩ => ⟨h2, h1, h3⟩⟩
  | .binary k cv op a r =>
    simp only [GenC.expr]
    exact (expr_decided a true h.1).bind fun _ => (expr_decided r true h.2).last
  | .prefix k cv op e =>
    simp only [GenC.expr]
    exact (expr_decided e true h).last
  | .call k cv st x ref args =>
    simp only [GenC.expr]
    exact (args_decided args true h).last

theorem args_decided {cs : Consts} {l : Language} {o : Options} (es : List AExpr) (b : Bool) (h : ReadyEs cs o.c23 es) :
    Decided (GenC.arguments cs o (dialect l o) b es) (TypesEs (Named l o.c23) es) := by
  match es with
  | [] => exact .ok
  | e :: es =>
    simp only [GenC.arguments]
    exact (expr_decided e true h.1).bind fun _ => (args_decided es false h.2).last

end

theorem optInitializer_decided {cs : Consts} {l : Language} {o : Options} {e : Option AExpr}
    (h : IfAny (ReadyE cs o.c23) e) :
    Decided (GenC.optInitializer cs o (dialect l o) e) (IfAny (TypesE (Named l o.c23)) e) := by
  cases e with
  | none => exact .ok
  | some e => exact (expr_decided e false h).last

theorem optValue_decided {cs : Consts} {l : Language} {o : Options} {e : Option AExpr}
    (h : IfAny (ReadyE cs o.c23) e) :
    Decided (GenC.optValue cs o (dialect l o) e) (IfAny (TypesE (Named l o.c23)) e) := by
  cases e with
  | none => exact .ok
  | some e => exact (expr_decided e false h).last

/-- The result for what may be left out. -/
def Decided' {α : Type} (r : Outcome GenC.GenError α) (T : Prop) : Prop :=
  Decided r T ∨ r = .err .empty ∧ T

theorem Decided'.last {α β : Type} {x : Outcome GenC.GenError α} {f : α → β} {A : Prop} (h : Decided' x A) :
    Decided' (x >>= fun a => .ok (f a)) A := by
  rcases h with h | ⟨rfl, h⟩
  · exact .inl h.last
  · exact .inr ⟨rfl, h⟩

theorem constant_decided {l : Language} {o : Options} {n : Nat} {b : Bool} {cv : Option Value} {x : Name}
    (h : o.c23 = true → Known cv) :
    Decided' (GenC.constant o (dialect l o) n b cv x) (o.c23 = true → ∀ v, cv = some v → Named l o.c23 v.type) := by
  unfold GenC.constant
  by_cases hc : o.c23 = true
  · rw [if_pos hc]
    obtain ⟨t, v, rfl⟩ := h hc
    refine .inl ?_
    simp only
    refine ((generateType_decided l o t).bind fun _ => (Decided.last (A := True) .ok)).congr ?_
    constructor
    · rintro ⟨h1, _⟩ _ v hv
      cases hv
      exact h1
    · intro h
      exact ⟨h hc _ rfl, trivial⟩
  · rw [if_neg hc]
    exact .inr ⟨rfl, fun h => absurd h hc⟩

theorem decided_of' {α : Type} {r : Outcome GenC.GenError α} {T : Prop} (h : Decided' r T) (hr : r ≠ .err .empty) :
    Decided r T := h.resolve_right fun h => hr h.1

mutual

theorem stmt_decided {cs : Consts} {l : Language} {o : Options} (s : AStmt) (n : Nat) (b : Bool)
    (h : ReadyS cs o.c23 s) :
    Decided' (GenC.stmt cs o (dialect l o) n b s) (TypesS (Named l o.c23) o.c23 s) := by
  match s with
  | .const_ k cv x t e =>
    simp only [GenC.stmt]
    exact (constant_decided h).last
  | .let_ k cv x t e =>
    simp only [GenC.stmt]
    cases cv with
    | none => exact absurd rfl h.1
    | some v =>
      refine .inl (((generateType_decided l o v.type).bind fun _ => (optInitializer_decided h.2).last).congr ?_)
      constructor
      · rintro ⟨h1, h2⟩
        exact ⟨fun v' hv => by cases hv; exact h1, h2⟩
      · rintro ⟨h1, h2⟩
        exact ⟨h1 v rfl, h2⟩
  | .staticAssert .. =>
    simp only [GenC.stmt]
    exact .inr ⟨rfl, trivial⟩
  | .ifThen k cv c b' =>
    simp only [GenC.stmt, asBlock_ok h.2.1]
    exact .inl ((expr_decided c false h.1).bind fun _ => (block_decided b' n false h.2.1 h.2.2).last)
  | .ifElse k cv c b' e =>
    obtain ⟨h1, h2, h3, h4, h5⟩ := h
    simp only [GenC.stmt, asBlock_ok h2]
    refine .inl ((expr_decided c false h1).bind fun _ => (block_decided b' n false h2 h3).bind fun p => ?_)
    rcases h4 with h4 | h4
    · rw [if_pos (isIf_true h4)]
      refine (decided_of' (stmt_decided e n false h5) fun hr => ?_).last
      rcases stmt_err e hr with h | ⟨_, h⟩
      · cases h
      · cases e <;> first | exact h | exact h4
    · rw [if_neg (by cases e <;> first | exact h4.elim | (simp [GenBms.isIf])), asBlock_ok h4]
      exact (block_decided e n p.2 h4 h5).last
  | .while_ k cv c b' =>
    simp only [GenC.stmt, asBlock_ok h.2.1]
    exact .inl ((expr_decided c false h.1).bind fun _ => (block_decided b' n false h.2.1 h.2.2).last)
  | .control k cv c e =>
    simp only [GenC.stmt]
    exact .inl (optValue_decided h).last
  | .assign k cv x ref e =>
    simp only [GenC.stmt]
    exact .inl (expr_decided e false h).last
  | .block k cv ss =>
    simp only [GenC.stmt]
    exact .inl (stmts_decided ss (n + 1) h).last
  | .call e =>
    refine .inl ?_
    cases e with
    | call k cv st x ref args =>
      cases st
      · simp only [GenC.stmt]
        exact (expr_decided _ false h).last
      · simp only [GenC.stmt]
        exact (expr_decided _ false h).last
    | _ =>
      simp only [GenC.stmt]
      exact (expr_decided _ false h).last

theorem block_decided {cs : Consts} {l : Language} {o : Options} (s : AStmt) (n : Nat) (b : Bool) (hb : IsBlock s)
    (h : ReadyS cs o.c23 s) :
    Decided (GenC.stmt cs o (dialect l o) n b s) (TypesS (Named l o.c23) o.c23 s) := by
  match s with
  | .block k cv ss =>
    simp only [GenC.stmt]
    exact (stmts_decided ss (n + 1) h).last
  | .const_ .. | .let_ .. | .staticAssert .. | .ifThen .. | .ifElse .. | .while_ .. | .control .. | .assign ..
  | .call .. => exact hb.elim

theorem stmts_decided {cs : Consts} {l : Language} {o : Options} (ss : List AStmt) (n : Nat)
    (h : ReadySs cs o.c23 ss) :
    Decided (GenC.stmts cs o (dialect l o) n ss) (TypesSs (Named l o.c23) o.c23 ss) := by
  match ss with
  | [] => exact .ok
  | s :: ss =>
    simp only [GenC.stmts]
    have h2 := stmts_decided (l := l) ss n h.2
    rcases stmt_decided (l := l) s n true h.1 with (⟨⟨p, hp⟩, ht⟩ | ⟨hp, ht⟩) | ⟨hp, ht⟩
    · rw [hp]
      refine h2.last.congr ?_
      exact ⟨fun h => ⟨ht, h⟩, fun h => h.2⟩
    · rw [hp]
      exact .inr ⟨rfl, fun h => ht h.1⟩
    · rw [hp]
      refine h2.congr ?_
      exact ⟨fun h => ⟨ht, h⟩, fun h => h.2⟩

end

theorem parameters_decided {l : Language} {o : Options} {ps : List AParam} {b : Bool}
    (h : ∀ p ∈ ps, ∃ ct, TypeOf p.type ct) :
    Decided (GenC.parameters o (dialect l o) b ps) (∀ p ∈ ps, ∀ ct, TypeOf p.type ct → Named l o.c23 ct) := by
  induction ps generalizing b with
  | nil => exact Decided.ok.congr (by simp)
  | cons p ps ih =>
    refine ((type_decided l o (h p (by simp))).bind fun _ =>
      (ih (b := false) fun q hq => h q (List.mem_cons_of_mem _ hq)).last).congr ?_
    simp

theorem decl_decided {cs : Consts} {l : Language} {o : Options} {x : ADecl} {b : Bool} (h : ReadyD cs o.c23 x) :
    Decided' (GenC.decl cs o (dialect l o) b x) (TypesD (Named l o.c23) o.c23 x) := by
  cases x with
  | const_ k cv x t e => exact (constant_decided h).last
  | staticAssert => exact .inr ⟨rfl, trivial⟩
  | function f =>
    simp only [GenC.decl, GenC.function]
    by_cases hg : f.generic = true
    · rw [if_pos hg]
      exact .inr ⟨rfl, fun h => by rw [hg] at h; cases h⟩
    · rw [if_neg hg]
      rw [Bool.not_eq_true] at hg
      obtain ⟨h1, h2, h3⟩ := h hg
      refine .inl (((type_decided l o h1).bind fun _ => (parameters_decided h2).bind fun _ =>
        (block_decided (.block f.bodyKey none f.body) 0 false trivial h3).last).congr ?_)
      exact ⟨fun h _ => h, fun h => h hg⟩

theorem decls_decided {cs : Consts} {l : Language} {o : Options} {ds : List ADecl} {b : Bool}
    (h : ∀ d ∈ ds, ReadyD cs o.c23 d) :
    Decided (GenC.decls cs o (dialect l o) b ds) (∀ d ∈ ds, TypesD (Named l o.c23) o.c23 d) := by
  induction ds generalizing b with
  | nil => exact Decided.ok.congr (by simp)
  | cons x ds ih =>
    simp only [GenC.decls]
    have h2 := fun b => ih (b := b) fun q hq => h q (List.mem_cons_of_mem _ hq)
    rcases decl_decided (l := l) (b := true) (h x (by simp)) with (⟨⟨p, hp⟩, ht⟩ | ⟨hp, ht⟩) | ⟨hp, ht⟩
    · rw [hp]
      refine (h2 false).last.congr ?_
      simp [ht]
    · rw [hp]
      exact .inr ⟨rfl, fun h => ht (h x (by simp))⟩
    · rw [hp]
      refine (h2 b).congr ?_
      simp [ht]

end Bms.C
