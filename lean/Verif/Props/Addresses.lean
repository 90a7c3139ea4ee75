import Verif.Lemmas.RenumberBoth
import Verif.Props.Again

/-!
# Property C91: the verdict on a program depends only on what is written
-/

namespace Bms

open Spec Parse
open GenBms (program Options)

/-! ## What is the same -/

/-- An instruction without the name of its variable. -/
def Spec.shape : Instr → Instr
  | .load _ => .load 0
  | .store _ => .store 0
  | i => i

/-- The variable that an instruction reads or writes. -/
def Spec.variableOf : Instr → Option Key
  | .load k => some k
  | .store k => some k
  | _ => none

/-- The same instructions, apart from the names of variables: where one program uses the same variable twice, so
does the other. -/
def Spec.SameCode (c c' : List Instr) : Prop :=
  c'.map shape = c.map shape ∧
    ∀ i j : Nat, (c'[i]?.bind variableOf = c'[j]?.bind variableOf) ↔ (c[i]?.bind variableOf = c[j]?.bind variableOf)

/-- What users of a function need to know about it: types of parameters and result, whether it is generic, the
widths for which there are instances, how far it is analyzed, and the address of its code. -/
def Spec.summary (f : AFn) : List CType × CType × Bool × List (List Nat) × Level × Option Nat :=
  ((signature f).1, (signature f).2, f.generic, f.instances.map AInstance.widths, f.level, f.address)

/-- The same verdict on two programs with the given nodes, in the same order: both are accepted, with the same
values of constants, the same functions and the same code; or there is the same error at the same node; or analysis
of both throws, is undefined or does not end. -/
inductive Spec.SameVerdict (ks ks' : List Key) : ARes Unit → ARes Unit → Prop where
  | ok {s s' : ASt} (code : SameCode s.code s'.code)
      (decl : ∀ (i : Nat) (k k' : Key), ks[i]? = some k → ks'[i]? = some k' → s'.decl k' = s.decl k)
      (fns : ∀ (i : Nat) (k k' : Key), ks[i]? = some k → ks'[i]? = some k' →
        (s'.fns k').map summary = (s.fns k).map summary) : SameVerdict ks ks' (.ok () s) (.ok () s')
  | err {e e' : AErr} (code : e'.code = e.code)
      (place : ∀ i : Nat, (ks'[i]? = some e'.fail) ↔ (ks[i]? = some e.fail)) : SameVerdict ks ks' (.err e) (.err e')
  | throws : SameVerdict ks ks' .throws .throws
  | ub : SameVerdict ks ks' .ub .ub
  | timeout : SameVerdict ks ks' .timeout .timeout

theorem Spec.SameVerdict.symm {ks ks' : List Key} {r r' : ARes Unit} (h : SameVerdict ks ks' r r') :
    SameVerdict ks' ks r' r := by
  cases h with
  | ok c d f =>
    exact .ok ⟨c.1.symm, fun i j => (c.2 i j).symm⟩ (fun i k k' h h' => (d i k' k h' h).symm)
      fun i k k' h h' => (f i k' k h' h).symm
  | err c p => exact .err c.symm fun i => (p i).symm
  | throws => exact .throws
  | ub => exact .ub
  | timeout => exact .timeout

/-! ## Renumbered programs -/

namespace Renumber

theorem sameCode {τ : Key → Key} (hi : Ren τ) (c : List Instr) : SameCode c (c.map (instr τ)) := by
  have hv : ∀ x : Instr, variableOf (instr τ x) = (variableOf x).map τ := fun x => by cases x <;> rfl
  refine ⟨?_, fun i j => ?_⟩
  · rw [List.map_map]
    exact List.map_congr_left fun x _ => by cases x <;> rfl
  · have hb : ∀ i : Nat, (c.map (instr τ))[i]?.bind variableOf = (c[i]?.bind variableOf).map τ := by
      intro i
      rw [List.getElem?_map]
      cases c[i]? with
      | none => rfl
      | some x => exact hv x
    rw [hb, hb]
    constructor
    · intro h
      cases hx : c[i]?.bind variableOf <;> cases hy : c[j]?.bind variableOf <;> rw [hx, hy] at h <;>
        simp only [Option.map_some, Option.map_none, reduceCtorEq, Option.some.injEq] at h
      exact congrArg some (hi.inj _ _ h)
    · intro h
      rw [h]

theorem summary_ren {τ : Key → Key} (f : AFn) : summary (fn τ f) = summary f := by
  simp only [summary, signature, fn, typeOf, typeCv_ren, List.map_map, Prod.mk.injEq, and_true, true_and]
  exact ⟨List.map_congr_left fun p _ => by simp only [Function.comp, param, typeCv_ren], rfl⟩

theorem sameVerdict {τ : Key → Key} (hi : Ren τ) {ks : List Key} {r r' : ARes Unit} (h : ResOn τ (fun a => a) r r') :
    SameVerdict ks (ks.map τ) r r' := by
  have hk : ∀ (i : Nat) (k k' : Key), ks[i]? = some k → (ks.map τ)[i]? = some k' → k' = τ k := by
    intro i k k' h1 h2
    rw [List.getElem?_map, h1] at h2
    exact (Option.some.inj h2).symm
  cases r <;> cases r' <;> first | exact h.elim | skip
  · obtain ⟨-, hs⟩ := h
    refine .ok ?_ (fun i k k' h1 h2 => ?_) fun i k k' h1 h2 => ?_
    · rw [hs.code]
      exact sameCode hi _
    · rw [hk i k k' h1 h2]
      exact hs.decl k
    · rw [hk i k k' h1 h2, hs.fns, Option.map_map]
      rename_i _ s _ _
      cases s.fns k with
      | none => rfl
      | some f => exact congrArg some (summary_ren f)
  · rename_i e e'
    have he : e' = error τ e := h
    subst he
    refine .err rfl fun i => ?_
    rw [List.getElem?_map]
    constructor
    · intro hx
      cases hy : ks[i]? with
      | none => rw [hy] at hx; cases hx
      | some k =>
        rw [hy] at hx
        rw [hi.inj _ _ (Option.some.inj hx)]
    · intro hx
      rw [hx]
      rfl
  · exact .throws
  · exact .ub
  · exact .timeout

theorem verdict_le {n : Nat} {ds ds' : List ADecl} {next next' : Nat} (hs : SameSource ds ds') (hu : Untouched ds)
    (hu' : Untouched ds') (hk : (ds.flatMap nodeKeys).Nodup) (hk' : (ds'.flatMap nodeKeys).Nodup)
    (hb : ∀ x ∈ ds.flatMap nodeKeys, x < next ∧ x ≠ 0) (hb' : ∀ x ∈ ds'.flatMap nodeKeys, x < next' ∧ x ≠ 0)
    (h0 : 0 < next) (hl : next ≤ next') :
    SameVerdict (ds.flatMap nodeKeys) (ds'.flatMap nodeKeys) (Ana.program n ds next) (Ana.program n ds' next') := by
  obtain ⟨τ, hi, hm, hn⟩ := exists_shift (lengthDs _ _ hs.symm) hk hk' hb hb' h0 hl
  have e := eqDs ds ds' hs hu' hu hm
  have h := sameVerdict hi (ks := ds.flatMap nodeKeys) (program_ren hi hn n ds)
  rw [hm, ← e] at h
  exact h

end Renumber

/-- **C91.** Analysis of two programs that are written in the same way has the same result, wherever their nodes
are. -/
theorem C91_verdict {n : Nat} {ds ds' : List ADecl} {next next' : Nat} (hs : SameSource ds ds') (hu : Untouched ds)
    (hu' : Untouched ds') (hk : (ds.flatMap nodeKeys).Nodup) (hk' : (ds'.flatMap nodeKeys).Nodup)
    (hb : ∀ x ∈ ds.flatMap nodeKeys, x < next ∧ x ≠ sentinelKey)
    (hb' : ∀ x ∈ ds'.flatMap nodeKeys, x < next' ∧ x ≠ sentinelKey) (h0 : 0 < next) (h0' : 0 < next') :
    SameVerdict (ds.flatMap nodeKeys) (ds'.flatMap nodeKeys) (Ana.program n ds next) (Ana.program n ds' next') := by
  rcases Nat.le_total next next' with hl | hl
  · exact Renumber.verdict_le hs hu hu' hk hk' hb hb' h0 hl
  · exact (Renumber.verdict_le hs.symm hu' hu hk' hk hb' hb h0' hl).symm

/-- The nodes of a program that is made from a text have different addresses, which are smaller than those of
copies. -/
theorem C91_nodes {n : Nat} {src : List Char} {ds : List ADecl} {r : ARes Unit} (hx : compile n src = .analyzed ds r) :
    ∃ next, 0 < next ∧ (ds.flatMap nodeKeys).Nodup ∧ (∀ x ∈ ds.flatMap nodeKeys, x < next ∧ x ≠ sentinelKey) ∧
      r = Ana.program n ds next := by
  obtain ⟨ts, -, -, hk, hg, -⟩ := C60_analyzed hx
  cases hp : parse src ts with
  | ok nodes root =>
    obtain ⟨t, h1, h2, -⟩ := C42_sound_partial hp
    have hm := Build.made h1 fun x hx => by
      simp only [lexemes, List.mem_map, List.mem_filter] at hx
      obtain ⟨k, ⟨hk, -⟩, rfl⟩ := hx
      exact hg k hk
    obtain ⟨t', e, cs, rfl, hd⟩ := hm
    cases e
    obtain ⟨ds', h3, -, h5⟩ := Build.program_ok hd h2
    have hT := parse_tidy hp
    have hkeys := h5 hT
    simp only [compile, hk, hp, h3, CompileResult.analyzed.injEq] at hx
    obtain ⟨rfl, rfl⟩ := hx
    refine ⟨nodes.length + 1, Nat.succ_pos _, hkeys.1, fun x hx => ?_, rfl⟩
    obtain ⟨c, hc, i, hi, rfl⟩ := hkeys.2 x hx
    have e1 : c = root := by simpa using hc
    subst e1
    have h6 := hi.le hT
    have h7 := (C52_tree hp).1
    refine ⟨?_, ?_⟩
    · show i + 1 < nodes.length + 1
      omega
    · show i + 1 ≠ 0
      omega
  | err e => simp [compile, hk, hp] at hx
  | throws => simp [compile, hk, hp] at hx
  | diverge => simp [compile, hk, hp] at hx

/-- **C91, texts.** Two texts of the same program have the same result, whatever it is: both are accepted or there
is the same error at the same place of the program. The texts may differ in layout, comments,
parentheses and annotations. -/
theorem C91_texts {n : Nat} {src src' : List Char} {ds ds' : List ADecl} {r r' : ARes Unit}
    (hx : compile n src = .analyzed ds r) (hx' : compile n src' = .analyzed ds' r') (hs : SameSource ds ds') :
    SameVerdict (ds.flatMap nodeKeys) (ds'.flatMap nodeKeys) r r' := by
  obtain ⟨next, h1, h2, h3, rfl⟩ := C91_nodes hx
  obtain ⟨next', h1', h2', h3', rfl⟩ := C91_nodes hx'
  exact C91_verdict hs (C90_untouched hx) (C90_untouched hx') h2 h2' h3 h3' h1 h1'

/-- **C91, partial: generated BMS code.** The text that is written for a program, accepted or not, has the same
result when it is compiled. The restrictions are those of `C65_again_partial`. -/
theorem C91_again_partial {o : Options} {n : Nat} {ds : List ADecl} {next : Nat} {text : List Char} {ts : List Token}
    (hu : Untouched ds) (hk : (ds.flatMap nodeKeys).Nodup)
    (hb : ∀ x ∈ ds.flatMap nodeKeys, x < next ∧ x ≠ sentinelKey) (h0 : 0 < next) (hw : White o.indentChar)
    (hne : ds ≠ []) (h : ∀ d ∈ ds, PrintableD o.alwaysParenthesize d) (ho : program o ds = .ok text)
    (hts : tokenize text = some (ts, .ok ())) (hob : Unobstructed ts) (hl : ts.length < 2 ^ 64)
    (hg : ∀ t ∈ ts, t.type ≠ .greater_or_equal) :
    ∃ ds' r', compile n text = .analyzed ds' r' ∧ SameSource ds ds' ∧
      SameVerdict (ds.flatMap nodeKeys) (ds'.flatMap nodeKeys) (Ana.program n ds next) r' := by
  obtain ⟨nodes, root, ds', h1, h2, h3⟩ := C65_again_partial hw hne h ho hts hob hl hg
  have hcomp : compile n text = .analyzed ds' (Ana.program n ds' (nodes.length + 1)) := by
    simp only [compile, hts, h1, h2]
  refine ⟨ds', _, hcomp, h3, ?_⟩
  obtain ⟨next', h1', h2', h3', e⟩ := C91_nodes hcomp
  rw [e]
  exact C91_verdict h3 hu (C90_untouched hcomp) hk h2' hb h3' h0 h1'

/-! ## Samples -/

open Programs Written

namespace Twice

mutual
/-- Whether two expressions are equal; `false` for some kinds that do not occur below. -/
def eqE : AExpr → AExpr → Bool
  | .literal k c l, .literal k' c' l' => decide (k = k' ∧ c = c' ∧ l = l')
  | .id k c x r g, .id k' c' x' r' g' => decide (k = k' ∧ c = c' ∧ x = x' ∧ r = r' ∧ g = g')
  | .binary k c o l r, .binary k' c' o' l' r' => decide (k = k' ∧ c = c' ∧ o = o') && eqE l l' && eqE r r'
  | .conversion k c e t, .conversion k' c' e' t' => decide (k = k' ∧ c = c') && eqE e e' && eqT t t'
  | .call k c b x r as, .call k' c' b' x' r' as' =>
    decide (k = k' ∧ c = c' ∧ b = b' ∧ x = x' ∧ r = r') && eqEs as as'
  | _, _ => false

/-- Whether two types are equal. -/
def eqT : AType → AType → Bool
  | .base k c t, .base k' c' t' => decide (k = k' ∧ c = c' ∧ t = t')
  | .uint k c w e, .uint k' c' w' e' => decide (k = k' ∧ c = c' ∧ w = w') && eqE e e'
  | _, _ => false

def eqEs : List AExpr → List AExpr → Bool
  | [], [] => true
  | e :: es, e' :: es' => eqE e e' && eqEs es es'
  | _, _ => false
end

mutual
theorem eqE_sound : ∀ a b : AExpr, eqE a b = true → a = b
  | .literal .., b, h => by
    cases b <;> simp [eqE] at h
    obtain ⟨rfl, rfl, rfl⟩ := h
    rfl
  | .id .., b, h => by
    cases b <;> simp [eqE] at h
    obtain ⟨rfl, rfl, rfl, rfl, rfl⟩ := h
    rfl
  | .binary _ _ _ l r, b, h => by
    cases b <;> simp [eqE] at h
    obtain ⟨⟨⟨rfl, rfl, rfl⟩, h1⟩, h2⟩ := h
    rw [eqE_sound l _ h1, eqE_sound r _ h2]
  | .conversion _ _ e t, b, h => by
    cases b <;> simp [eqE] at h
    obtain ⟨⟨⟨rfl, rfl⟩, h1⟩, h2⟩ := h
    rw [eqE_sound e _ h1, eqT_sound t _ h2]
  | .call _ _ _ _ _ as, b, h => by
    cases b <;> simp [eqE] at h
    obtain ⟨⟨rfl, rfl, rfl, rfl, rfl⟩, h1⟩ := h
    rw [eqEs_sound as _ h1]
  | .ite .., b, h => by cases b <;> simp [eqE] at h
  | .prefix .., b, h => by cases b <;> simp [eqE] at h

theorem eqT_sound : ∀ a b : AType, eqT a b = true → a = b
  | .base .., b, h => by
    cases b <;> simp [eqT] at h
    obtain ⟨rfl, rfl, rfl⟩ := h
    rfl
  | .uint _ _ _ e, b, h => by
    cases b <;> simp [eqT] at h
    obtain ⟨⟨rfl, rfl, rfl⟩, h1⟩ := h
    rw [eqE_sound e _ h1]

theorem eqEs_sound : ∀ a b : List AExpr, eqEs a b = true → a = b
  | [], b, h => by cases b <;> simp [eqEs] at h; rfl
  | e :: es, b, h => by
    cases b <;> simp [eqEs] at h
    rw [eqE_sound e _ h.1, eqEs_sound es _ h.2]
end

/-- Whether two statements are equal; only statements with `return`. -/
def eqS : AStmt → AStmt → Bool
  | .control k c x (some e), .control k' c' x' (some e') => decide (k = k' ∧ c = c' ∧ x = x') && eqE e e'
  | _, _ => false

theorem eqS_sound (a b : AStmt) (h : eqS a b = true) : a = b := by
  unfold eqS at h
  split at h
  · simp at h
    obtain ⟨⟨rfl, rfl, rfl⟩, h1⟩ := h
    rw [eqE_sound _ _ h1]
  · cases h

def eqP (a b : AParam) : Bool := decide (a.k = b.k ∧ a.name = b.name) && eqT a.type b.type

theorem eqP_sound (a b : AParam) (h : eqP a b = true) : a = b := by
  obtain ⟨k, x, t⟩ := a
  obtain ⟨k', x', t'⟩ := b
  simp [eqP] at h
  obtain ⟨⟨rfl, rfl⟩, h⟩ := h
  rw [eqT_sound _ _ h]

/-- Whether two lists have equal elements. -/
def eqL {α : Type} (f : α → α → Bool) : List α → List α → Bool
  | [], [] => true
  | a :: as, b :: bs => f a b && eqL f as bs
  | _, _ => false

theorem eqL_sound {α : Type} {f : α → α → Bool} (hf : ∀ a b, f a b = true → a = b) :
    ∀ as bs : List α, eqL f as bs = true → as = bs
  | [], b, h => by cases b <;> simp [eqL] at h; rfl
  | a :: as, b, h => by
    cases b <;> simp [eqL] at h
    rw [hf _ _ h.1, eqL_sound hf as _ h.2]

/-- Whether two declarations are equal; only constants without type and functions without condition. -/
def eqD : ADecl → ADecl → Bool
  | .const_ k c x none e, .const_ k' c' x' none e' => decide (k = k' ∧ c = c' ∧ x = x') && eqE e e'
  | .function ⟨k, c, x, ps, t, none, b, ss, is, g, a, l⟩, .function ⟨k', c', x', ps', t', none, b', ss', is', g', a', l'⟩ =>
    decide (k = k' ∧ c = c' ∧ x = x' ∧ b = b' ∧ is = is' ∧ g = g' ∧ a = a' ∧ l = l') && eqL eqP ps ps' && eqT t t' &&
      eqL eqS ss ss'
  | _, _ => false

theorem eqD_sound (a b : ADecl) (h : eqD a b = true) : a = b := by
  unfold eqD at h
  split at h
  · simp at h
    obtain ⟨⟨rfl, rfl, rfl⟩, h1⟩ := h
    rw [eqE_sound _ _ h1]
  · simp at h
    obtain ⟨⟨⟨⟨rfl, rfl, rfl, rfl, rfl, rfl, rfl, rfl⟩, h1⟩, h2⟩, h3⟩ := h
    rw [eqL_sound eqP_sound _ _ h1, eqT_sound _ _ h2, eqL_sound eqS_sound _ _ h3]
  · cases h

/-- Whether both texts are analyzed, stand for the same program and lead to results of a kind. -/
def check (n : Nat) (a b : String) (p : ARes Unit → ARes Unit → Bool) : Bool :=
  match compile n a.toList, compile n b.toList with
  | .analyzed ds r, .analyzed ds' r' => eqL eqD (ds'.map plainD) (ds.map plainD) && p r r'
  | _, _ => false

theorem check_sound {n : Nat} {a b : String} {p : ARes Unit → ARes Unit → Bool} (h : check n a b p = true) :
    ∃ ds r ds' r', compile n a.toList = .analyzed ds r ∧ compile n b.toList = .analyzed ds' r' ∧ SameSource ds ds' ∧
      p r r' = true := by
  unfold check at h
  split at h
  · rename_i ds r ds' r' h1 h2
    simp only [Bool.and_eq_true] at h
    exact ⟨ds, r, ds', r', h1, h2, eqL_sound eqD_sound _ _ h.1, h.2⟩
  · cases h

/-- Both results are errors, with different addresses of nodes. -/
def differentErrors : ARes Unit → ARes Unit → Bool
  | .err e, .err e' => decide (e.code = e'.code) && decide (e.fail ≠ e'.fail)
  | _, _ => false

/-- Both programs are accepted, and have code in which at least one variable has another name. -/
def differentCode : ARes Unit → ARes Unit → Bool
  | .ok _ s, .ok _ s' => decide (s.code ≠ s'.code)
  | _, _ => false

/-- A program with a generic function that is used for two widths. -/
def one : String :=
  "const c = 3 + 4; function f(x: Uint(n)) -> Uint(n) { return x * x; } function g(y: Uint(8), z: Uint(7)) -> Uint(c) { return f(z); } const d = f(5 as Uint(c));"

/-- The same program with other parentheses, a comment and an annotation. -/
def two : String :=
  "const c = (3 + (4)); /* more */ @immutable(\"f\") function f(x: Uint((n))) -> Uint(n) { return (x) * x; } function g(y: Uint(8), z: Uint((7))) -> Uint(c) { return (f((z))); } const d = f(((5) as Uint(c)));"

end Twice

/-- The hypotheses of `C91_texts` are met by texts that differ in parentheses, comments and annotations: for a
program with a
generic function, whose code uses other names of variables, and for a program that is rejected, with the error at
another address. -/
theorem C91_sample :
    (∃ ds r ds' r', compile 60 Twice.one.toList = .analyzed ds r ∧ compile 60 Twice.two.toList = .analyzed ds' r' ∧
      SameSource ds ds' ∧ Twice.differentCode r r' = true) ∧
    (∃ ds r ds' r', compile 60 "function h() -> Int { return 1 + 2; } const y = 4 + true;".toList = .analyzed ds r ∧
      compile 60 "@immutable(\"f\") function h() -> Int { return (1 + (2)); } const y = ((4) + (true));".toList = .analyzed ds' r' ∧
      SameSource ds ds' ∧ Twice.differentErrors r r' = true) :=
  ⟨Twice.check_sound (by decide +kernel), Twice.check_sound (by decide +kernel)⟩

/-- The hypotheses of `C91_again_partial` are met by the program of `C80_sample`. -/
theorem C91_again_sample (n : Nat) : ∃ ds' r', compile n calmText = .analyzed ds' r' ∧ SameSource calm_ ds' ∧
    SameVerdict (calm_.flatMap nodeKeys) (ds'.flatMap nodeKeys) (Ana.program n calm_ 50) r' :=
  C91_again_partial (o := {}) (ts := tokensOf calmText) rfl (by decide +kernel) (by decide +kernel) (by decide) (by decide)
    (by simp [calm_]) Written.printable_calm (Written.text_ok (by decide +kernel)) (by decide +kernel)
    (by unfold Unobstructed; decide +kernel) (by decide +kernel) (by decide +kernel)

end Bms
