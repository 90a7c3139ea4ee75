import Verif.Model.DumpCode
import Verif.Props.ToString
import Mathlib.Data.List.Forall2

/-!
# Property C93: dumps of code
-/

namespace Bms

open Spec

/-! ## What a dump tells -/

/-- How addresses are written: differently, and without spaces. -/
structure Spec.Pointers (addr : Key → List Char) : Prop where
  inj : ∀ k k', addr k = addr k' → k = k'
  space : ∀ k, ' ' ∉ addr k
  line : ∀ k, '\n' ∉ addr k

/-- Types with numbers. -/
def Spec.Numeric : CType → Prop
  | .int => True
  | .uint _ => True
  | _ => False

/-- What is the same for instructions that are written in the same way: everything except the type of a number. -/
inductive Spec.Told : Instr → Instr → Prop where
  | same (i : Instr) : Told i i
  | number {t t' : CType} (x : Int) (h : Numeric t) (h' : Numeric t') : Told (.push ⟨t, x⟩) (.push ⟨t', x⟩)

/-- Instructions that are shown with the name of a variable. -/
def Spec.Named (i : Instr) : Prop := (∃ k, i = .load k) ∨ ∃ k, i = .store k

/-- Values as they are made by the evaluator, with numbers of at most 64 bits. -/
def Spec.SmallValue (v : CVal) : Prop :=
  match v.type with
  | .void => v.int = 0
  | .bool => v.int = 0 ∨ v.int = 1
  | .int => -2 ^ 64 < v.int ∧ v.int < 2 ^ 64
  | .uint _ => 0 ≤ v.int ∧ v.int < 2 ^ 64

/-- Operators with one operand. -/
def Spec.unaryOps : List ExprType := [.unary_plus, .unary_minus, .logical_not, .bitwise_not]

/-- Operators with two operands. -/
def Spec.binaryOps : List ExprType :=
  [.logical_and, .logical_or, .equals, .not_equals, .less_than, .greater_than, .less_or_equal, .greater_or_equal,
   .binary_plus, .binary_minus, .multiplication, .division, .remainder, .shift_left, .shift_right, .bitwise_and,
   .bitwise_or, .bitwise_xor]

/-- Instructions with small values, and with operators of the right kind. -/
def Spec.SmallInstr : Instr → Prop
  | .push v => SmallValue v
  | .unary op => op ∈ unaryOps
  | .binary op => op ∈ binaryOps
  | _ => True

namespace DumpCode

theorem std_chars (n : Nat) : ∀ c ∈ stdToString n, ∃ d, d < 10 ∧ digitOf c = some d := by
  obtain ⟨ds, h1, h2, -⟩ := stdToString_digits n
  intro c hc
  have h : digitOf c ∈ (stdToString n).map digitOf := List.mem_map_of_mem hc
  rw [h1] at h
  obtain ⟨d, hd, e⟩ := List.mem_map.1 h
  exact ⟨d, h2 d hd, e.symm⟩

theorem std_not {c : Char} (h : ∀ d < 10, digitOf c ≠ some d) (n : Nat) : c ∉ stdToString n := fun hc => by
  obtain ⟨d, hd, e⟩ := std_chars n c hc
  exact h d hd e

theorem std_inj {n m : Nat} (h : stdToString n = stdToString m) : n = m := by
  have h1 := stdToString_digits n
  rw [h] at h1
  exact digits_unique h1 (stdToString_digits m)

/-- The text of a number. -/
def number (x : Int) : List Char := if x < 0 then '-' :: stdToString x.natAbs else stdToString x.natAbs

theorem number_inj {x y : Int} (h : number x = number y) : x = y := by
  unfold number at h
  by_cases hx : x < 0 <;> by_cases hy : y < 0
  · rw [if_pos hx, if_pos hy] at h
    have := std_inj (List.cons.inj h).2
    omega
  · rw [if_pos hx, if_neg hy] at h
    exact absurd (h ▸ List.mem_cons_self ..) (std_not (c := '-') (by decide) y.natAbs)
  · rw [if_neg hx, if_pos hy] at h
    exact absurd (h ▸ List.mem_cons_self ..) (std_not (c := '-') (by decide) x.natAbs)
  · rw [if_neg hx, if_neg hy] at h
    have := std_inj h
    omega

theorem number_not {c : Char} (h : ∀ d < 10, digitOf c ≠ some d) (h' : c ≠ '-') (x : Int) : c ∉ number x := by
  unfold number
  split
  · intro hc
    rcases List.mem_cons.1 hc with e | e
    · exact h' e
    · exact std_not h _ e
  · exact std_not h _

theorem value_int {x : Int} (h : -2 ^ 64 < x ∧ x < 2 ^ 64) : toStringInt x = number x := by
  obtain ⟨h1, h2⟩ := h
  have hi : InI128 x := ⟨by omega, by omega⟩
  have hs : toStringUint x.natAbs = stdToString x.natAbs := toStringUint_small (by omega)
  unfold number
  split
  · rw [C68_negative hi (by assumption), hs]
  · rw [C68_nonnegative hi (by omega), hs]

theorem value_uint {x : Int} (h : 0 ≤ x ∧ x < 2 ^ 64) : toStringUint (toU128 x) = number x := by
  obtain ⟨h1, h2⟩ := h
  have e : toU128 x = x.natAbs := by
    unfold toU128
    rw [Int.emod_eq_of_lt h1 (by omega)]
    omega
  rw [e, toStringUint_small (by omega), number, if_neg (by omega)]

/-- The three ways to write a value. -/
theorem value_cases {v : CVal} (h : SmallValue v) :
    (value v = "Void".toList ∧ v = ⟨.void, 0⟩) ∨ (value v = "true".toList ∧ v = ⟨.bool, 1⟩) ∨
    (value v = "false".toList ∧ v = ⟨.bool, 0⟩) ∨ (value v = number v.int ∧ Numeric v.type) := by
  obtain ⟨t, x⟩ := v
  cases t with
  | void =>
    have hx : x = 0 := h
    subst hx
    exact .inl ⟨rfl, rfl⟩
  | bool =>
    rcases (h : x = 0 ∨ x = 1) with rfl | rfl
    · exact .inr (.inr (.inl ⟨rfl, rfl⟩))
    · exact .inr (.inl ⟨rfl, rfl⟩)
  | int => exact .inr (.inr (.inr ⟨value_int h, trivial⟩))
  | uint w => exact .inr (.inr (.inr ⟨value_uint h, trivial⟩))

theorem value_told {v w : CVal} (hv : SmallValue v) (hw : SmallValue w) (h : value v = value w) :
    Told (.push v) (.push w) := by
  have hV : ∀ x, "Void".toList ≠ number x := fun x e =>
    number_not (c := 'V') (by decide) (by decide) x (e ▸ by decide)
  have hT : ∀ x, "true".toList ≠ number x := fun x e =>
    number_not (c := 't') (by decide) (by decide) x (e ▸ by decide)
  have hF : ∀ x, "false".toList ≠ number x := fun x e =>
    number_not (c := 'f') (by decide) (by decide) x (e ▸ by decide)
  rcases value_cases hv with ⟨e, e1⟩ | ⟨e, e1⟩ | ⟨e, e1⟩ | ⟨e, e1⟩ <;>
    rcases value_cases hw with ⟨f, f1⟩ | ⟨f, f1⟩ | ⟨f, f1⟩ | ⟨f, f1⟩ <;> rw [e, f] at h
  · rw [e1, f1]; exact .same _
  · exact absurd h (by decide)
  · exact absurd h (by decide)
  · exact absurd h (hV _)
  · exact absurd h (by decide)
  · rw [e1, f1]; exact .same _
  · exact absurd h (by decide)
  · exact absurd h (hT _)
  · exact absurd h (by decide)
  · exact absurd h (by decide)
  · rw [e1, f1]; exact .same _
  · exact absurd h (hF _)
  · exact absurd h.symm (hV _)
  · exact absurd h.symm (hT _)
  · exact absurd h.symm (hF _)
  · obtain ⟨t, x⟩ := v
    obtain ⟨t', y⟩ := w
    have := number_inj h
    simp only at this
    subst this
    exact .number x e1 f1

theorem offset_inj {x y : Int} (h : offset x = offset y) : x = y := by
  unfold offset at h
  by_cases hx : x ≥ 0 <;> by_cases hy : y ≥ 0 <;> simp only [hx, hy, if_true, if_false] at h
  · have := std_inj (List.cons.inj h).2
    omega
  · exact absurd (List.cons.inj h).1 (by decide)
  · exact absurd (List.cons.inj h).1 (by decide)
  · have := std_inj (List.cons.inj h).2
    omega

theorem type_inj {t t' : CType} (h : type t = type t') : t = t' := by
  cases t <;> cases t'
  case uint.uint w w' =>
    simp only [type, List.append_assoc] at h
    have h2 := List.append_cancel_left h
    simp only [List.cons_append] at h2
    rw [std_inj (List.append_cancel_right (List.cons.inj h2).2)]
  all_goals first
    | rfl
    | exact absurd h (by decide)
    | exact absurd (congrArg (List.take 4) h) (by simp [type])

/-- Texts up to the first space. -/
theorem cut : ∀ {a a' b b' : List Char}, ' ' ∉ a → ' ' ∉ a' → (b = [] ∨ ∃ t, b = ' ' :: t) →
    (b' = [] ∨ ∃ t, b' = ' ' :: t) → a ++ b = a' ++ b' → a = a'
  | [], [], _, _, _, _, _, _, _ => rfl
  | [], c :: a', b, b', _, h, hb, _, e => by
    rcases hb with rfl | ⟨t, rfl⟩
    · cases e
    · rw [List.nil_append, List.cons_append] at e
      exact absurd ((List.cons.inj e).1 ▸ List.mem_cons_self ..) h
  | c :: a, [], b, b', h, _, _, hb, e => by
    rcases hb with rfl | ⟨t, rfl⟩
    · cases e
    · rw [List.nil_append, List.cons_append] at e
      exact absurd ((List.cons.inj e).1 ▸ List.mem_cons_self ..) h
  | c :: a, c' :: a', b, b', h, h', hb, hb', e => by
    rw [List.cons_append, List.cons_append] at e
    obtain ⟨e1, e2⟩ := List.cons.inj e
    rw [e1, cut (fun x => h (List.mem_cons_of_mem _ x)) (fun x => h' (List.mem_cons_of_mem _ x)) hb hb' e2]

theorem note_cut (name : List Char) : note name = [] ∨ ∃ t, note name = ' ' :: t := by
  unfold note
  split
  · exact .inl rfl
  · exact .inr ⟨_, rfl⟩

/-- The kinds of instructions. -/
def kind : Instr → Nat
  | .load _ => 0 | .store _ => 1 | .push _ => 2 | .pop => 3 | .jump _ => 4 | .jumpIf .. => 5 | .break_ => 6
  | .continue_ => 7 | .ret => 8 | .convert _ => 9 | .unary _ => 10 | .binary _ => 11 | .call _ => 12 | .builtin _ => 13

/-- The first characters of a line. -/
def heads : List String :=
  ["load  ", "store ", "push  ", "pop   ", "jump  ", "if    ", "break", "contin", "return", "conver", "unary ", "binary",
   "call  ", "call b"]

theorem head_of (addr : Key → List Char) (name : List Char) (i : Instr) :
    heads[kind i]?.map String.toList = some ((instr addr name i).take 6) := by
  cases i <;> rfl

theorem kind_eq {addr : Key → List Char} {name name' : List Char} {i i' : Instr}
    (h : instr addr name i = instr addr name' i') : kind i = kind i' := by
  have h1 := head_of addr name i
  have h2 := head_of addr name' i'
  rw [h, ← h2] at h1
  have hk : ∀ i : Instr, kind i < 14 := fun i => by cases i <;> simp [kind]
  have key : ∀ a < 14, ∀ b < 14, heads[a]?.map String.toList = heads[b]?.map String.toList → a = b := by decide
  exact key _ (hk i) _ (hk i') h1

theorem line_told {addr : Key → List Char} (ha : Pointers addr) {name name' : List Char} {i i' : Instr}
    (hi : SmallInstr i) (hi' : SmallInstr i') (h : instr addr name i = instr addr name' i') : Told i i' := by
  have hk := kind_eq h
  cases i <;> cases i' <;> first | (exfalso; simp [kind] at hk; done) | skip
  case load.load k k' =>
    have h : column "load " ++ addr k ++ note name = column "load " ++ addr k' ++ note name' := h
    rw [List.append_assoc, List.append_assoc] at h
    rw [ha.inj _ _ (cut (ha.space k) (ha.space k') (note_cut _) (note_cut _) (List.append_cancel_left h))]
    exact .same _
  case store.store k k' =>
    have h : column "store " ++ addr k ++ note name = column "store " ++ addr k' ++ note name' := h
    rw [List.append_assoc, List.append_assoc] at h
    rw [ha.inj _ _ (cut (ha.space k) (ha.space k') (note_cut _) (note_cut _) (List.append_cancel_left h))]
    exact .same _
  case push.push v w => exact value_told hi hi' (List.append_cancel_left h)
  case pop.pop => exact .same _
  case jump.jump x y =>
    rw [offset_inj (List.append_cancel_left h)]
    exact .same _
  case jumpIf.jumpIf x b y b' =>
    have h : column "if " ++ (if b then "true".toList else "false".toList) ++ " jump ".toList ++ offset x =
        column "if " ++ (if b' then "true".toList else "false".toList) ++ " jump ".toList ++ offset y := h
    rw [List.append_assoc, List.append_assoc, List.append_assoc, List.append_assoc] at h
    have h1 := List.append_cancel_left h
    cases b <;> cases b' <;> simp only [if_true, if_false, Bool.false_eq_true] at h1
    · rw [offset_inj (List.append_cancel_left (List.append_cancel_left h1))]
      exact .same _
    · exact absurd (congrArg (List.take 1) h1) (by simp)
    · exact absurd (congrArg (List.take 1) h1) (by simp)
    · rw [offset_inj (List.append_cancel_left (List.append_cancel_left h1))]
      exact .same _
  case break_.break_ => exact .same _
  case continue_.continue_ => exact .same _
  case ret.ret => exact .same _
  case convert.convert t t' =>
    rw [type_inj (List.append_cancel_left h)]
    exact .same _
  case unary.unary op op' =>
    have key : ∀ a ∈ unaryOps, ∀ b ∈ unaryOps, GenBms.code a.token = GenBms.code b.token → a = b := by decide
    rw [key op hi op' hi' (List.append_cancel_left h)]
    exact .same _
  case binary.binary op op' =>
    have key : ∀ a ∈ binaryOps, ∀ b ∈ binaryOps, GenBms.code a.token = GenBms.code b.token → a = b := by decide
    rw [key op hi op' hi' (List.append_cancel_left h)]
    exact .same _
  case call.call a b =>
    rw [std_inj (List.append_cancel_left h)]
    exact .same _
  case builtin.builtin f g =>
    cases f
    cases g
    exact .same _

theorem note_inj {name name' : List Char} (h : note name = note name') : name = name' := by
  unfold note at h
  by_cases e : name = [] <;> by_cases e' : name' = []
  · rw [e, e']
  · rw [if_pos e, if_neg e'] at h
    exact absurd (congrArg List.length h) (by simp)
  · rw [if_neg e, if_pos e'] at h
    exact absurd (congrArg List.length h) (by simp)
  · rw [if_neg e, if_neg e'] at h
    exact List.append_cancel_left h

theorem line_name {addr : Key → List Char} {name name' : List Char} {i : Instr} (hi : Named i)
    (h : instr addr name i = instr addr name' i) : name = name' := by
  rcases hi with ⟨k, rfl⟩ | ⟨k, rfl⟩
  · have h : column "load " ++ addr k ++ note name = column "load " ++ addr k ++ note name' := h
    exact note_inj (List.append_cancel_left h)
  · have h : column "store " ++ addr k ++ note name = column "store " ++ addr k ++ note name' := h
    exact note_inj (List.append_cancel_left h)

theorem told_named {i i' : Instr} (h : Told i i') (hi : Named i) : i = i' := by
  cases h with
  | same => rfl
  | number x h h' => rcases hi with ⟨k, e⟩ | ⟨k, e⟩ <;> cases e

/-! ## Lines -/

theorem split_line : ∀ {a a' r r' : List Char}, '\n' ∉ a → '\n' ∉ a' → a ++ '\n' :: r = a' ++ '\n' :: r' → a = a' ∧ r = r'
  | [], [], _, _, _, _, e => ⟨rfl, (List.cons.inj e).2⟩
  | [], c :: a', r, r', _, h, e => by
    rw [List.nil_append, List.cons_append] at e
    exact absurd ((List.cons.inj e).1 ▸ List.mem_cons_self ..) h
  | c :: a, [], r, r', h, _, e => by
    rw [List.nil_append, List.cons_append] at e
    exact absurd ((List.cons.inj e).1 ▸ List.mem_cons_self ..) h
  | c :: a, c' :: a', r, r', h, h', e => by
    rw [List.cons_append, List.cons_append] at e
    obtain ⟨e1, e2⟩ := List.cons.inj e
    obtain ⟨h1, h2⟩ := split_line (fun x => h (List.mem_cons_of_mem _ x)) (fun x => h' (List.mem_cons_of_mem _ x)) e2
    exact ⟨by rw [e1, h1], h2⟩

theorem note_line {name : List Char} (h : '\n' ∉ name) : '\n' ∉ note name := by
  unfold note
  split
  · simp
  · rw [List.mem_append]
    rintro (e | e)
    · exact absurd e (by decide)
    · exact h e

theorem value_line {v : CVal} (h : SmallValue v) : '\n' ∉ value v := by
  rcases value_cases h with ⟨e, -⟩ | ⟨e, -⟩ | ⟨e, -⟩ | ⟨e, -⟩ <;> rw [e]
  · decide
  · decide
  · decide
  · exact number_not (by decide) (by decide) _

theorem offset_line (x : Int) : '\n' ∉ offset x := by
  unfold offset
  split <;>
  · rw [List.mem_cons]
    rintro (e | e)
    · exact absurd e (by decide)
    · exact std_not (by decide) _ e

theorem type_line (t : CType) : '\n' ∉ type t := by
  cases t with
  | uint w =>
    simp only [type, List.mem_append, List.mem_cons]
    rintro ((e | e | e) | e)
    · exact absurd e (by decide)
    · exact absurd e (by decide)
    · exact std_not (by decide) _ e
    · exact absurd e (by decide)
  | _ => decide

theorem code_line (op : ExprType) : '\n' ∉ GenBms.code op.token := by
  cases op <;> decide

theorem line_line {addr : Key → List Char} (ha : Pointers addr) {name : List Char} (hn : '\n' ∉ name) {i : Instr}
    (hi : SmallInstr i) : '\n' ∉ instr addr name i := by
  have app : ∀ {a b : List Char}, '\n' ∉ a → '\n' ∉ b → '\n' ∉ a ++ b := fun h h' e =>
    (List.mem_append.1 e).elim h h'
  cases i with
  | load k => exact app (app (by decide) (ha.line k)) (note_line hn)
  | store k => exact app (app (by decide) (ha.line k)) (note_line hn)
  | push v => exact app (by decide) (value_line hi)
  | pop => exact (by decide : '\n' ∉ column "pop")
  | jump x => exact app (by decide) (offset_line x)
  | jumpIf x b => exact app (app (app (by decide) (by cases b <;> decide)) (by decide)) (offset_line x)
  | break_ => exact (by decide : '\n' ∉ "break".toList)
  | continue_ => exact (by decide : '\n' ∉ "continue".toList)
  | ret => exact (by decide : '\n' ∉ "return".toList)
  | convert t => exact app (by decide) (type_line t)
  | unary op => exact app (by decide) (code_line op)
  | binary op => exact app (by decide) (code_line op)
  | call a => exact app (by decide) (std_not (by decide) _)
  | builtin f => exact app (by decide) (by decide)

end DumpCode

/-- **C93, partial.** If the dumps of two programs are the same, then the programs have the same instructions at the
same places, with the same variables and their names, targets, types and operators, and the same values apart from
the types of numbers. Missing: numbers of more than 64 bits and types of numbers, see `C93_number_violation` and
`C93_type_violation`. -/
theorem C93_dump_partial {addr : Key → List Char} (ha : Pointers addr) : ∀ {c c' : List (Instr × List Char)},
    (∀ x ∈ c, SmallInstr x.1 ∧ '\n' ∉ x.2) → (∀ x ∈ c', SmallInstr x.1 ∧ '\n' ∉ x.2) →
    DumpCode.program addr c = DumpCode.program addr c' → List.Forall₂ (fun x x' => Told x.1 x'.1 ∧ (Named x.1 → x.2 = x'.2)) c c'
  | [], [], _, _, _ => .nil
  | [], x :: c', _, _, e => by
    have := congrArg List.length e
    simp [DumpCode.program] at this
  | x :: c, [], _, _, e => by
    have := congrArg List.length e
    simp [DumpCode.program] at this
  | x :: c, x' :: c', h, h', e => by
    obtain ⟨h1, h2⟩ := h x (List.mem_cons_self ..)
    obtain ⟨h3, h4⟩ := h' x' (List.mem_cons_self ..)
    obtain ⟨e1, e2⟩ := DumpCode.split_line (DumpCode.line_line ha h2 h1) (DumpCode.line_line ha h4 h3) e
    have ht := DumpCode.line_told ha h1 h3 e1
    exact .cons ⟨ht, fun hn => DumpCode.line_name hn (by rw [e1, DumpCode.told_named ht hn])⟩
      (C93_dump_partial ha (fun y hy => h y (List.mem_cons_of_mem _ hy)) (fun y hy => h' y (List.mem_cons_of_mem _ hy)) e2)

/-- **C93, lines.** A dump has as many lines as there are instructions. -/
theorem C93_lines {addr : Key → List Char} (ha : Pointers addr) {c : List (Instr × List Char)}
    (h : ∀ x ∈ c, SmallInstr x.1 ∧ '\n' ∉ x.2) : (DumpCode.program addr c).count '\n' = c.length := by
  induction c with
  | nil => rfl
  | cons x c ih =>
    obtain ⟨h1, h2⟩ := h x (List.mem_cons_self ..)
    rw [DumpCode.program, List.count_append, List.count_cons_self, ih fun y hy => h y (List.mem_cons_of_mem _ hy),
      List.count_eq_zero.2 (DumpCode.line_line ha h2 h1), List.length_cons]
    omega

/-- **C93 is violated** for types of numbers: the dump does not tell which type a number has. -/
theorem C93_type_violation (addr : Key → List Char) (w : Nat) {x : Int} (h : 0 ≤ x ∧ x < 2 ^ 64) :
    DumpCode.program addr [(.push ⟨.int, x⟩, [])] = DumpCode.program addr [(.push ⟨.uint w, x⟩, [])] := by
  have e : DumpCode.value ⟨.int, x⟩ = DumpCode.value ⟨.uint w, x⟩ :=
    (DumpCode.value_int ⟨by omega, h.2⟩).trans (DumpCode.value_uint h).symm
  exact congrArg (fun v => DumpCode.column "push " ++ v ++ ['\n']) e

/-- **C93 is violated** for large numbers: a value of more than 64 bits can be shown as another one. -/
theorem C93_number_violation (addr : Key → List Char) :
    DumpCode.program addr [(.push ⟨.int, 100000000000000000000⟩, [])] =
      DumpCode.program addr [(.push ⟨.int, 100⟩, [])] := by
  have e : DumpCode.value ⟨.int, 100000000000000000000⟩ = DumpCode.value ⟨.int, 100⟩ := by decide +kernel
  exact congrArg (fun v => DumpCode.column "push " ++ v ++ ['\n']) e

/-- A way to write addresses, and a program, for which the hypotheses are met. -/
theorem C93_sample : Pointers (fun k => '0' :: 'x' :: stdToString k) ∧
    (∀ x ∈ [(Instr.push ⟨.uint 8, 200⟩, []), (.store 3, "x".toList), (.load 3, "x".toList), (.jumpIf (-2) true, []),
      (.convert (.uint 9), []), (.binary .bitwise_xor, []), (.ret, [])], SmallInstr x.1 ∧ '\n' ∉ x.2) ∧
    DumpCode.program (fun k => '0' :: 'x' :: stdToString k)
      [(.push ⟨.uint 8, 200⟩, []), (.store 3, "x".toList), (.load 3, "x".toList), (.jumpIf (-2) true, []),
        (.convert (.uint 9), []), (.binary .bitwise_xor, []), (.ret, [])] =
      ("push            200\nstore           0x3    ; x\nload            0x3    ; x\nif              true jump -2\n" ++
       "convert to      Uint(9)\nbinary ^\nreturn\n").toList := by
  refine ⟨⟨fun k k' h => ?_, fun k h => ?_, fun k h => ?_⟩, ?_, by decide +kernel⟩
  · exact DumpCode.std_inj (List.cons.inj (List.cons.inj h).2).2
  · simp only [List.mem_cons] at h
    rcases h with h | h | h
    · exact absurd h (by decide)
    · exact absurd h (by decide)
    · exact DumpCode.std_not (by decide) _ h
  · simp only [List.mem_cons] at h
    rcases h with h | h | h
    · exact absurd h (by decide)
    · exact absurd h (by decide)
    · exact DumpCode.std_not (by decide) _ h
  · intro x hx
    simp only [List.mem_cons, List.not_mem_nil, or_false] at hx
    rcases hx with rfl | rfl | rfl | rfl | rfl | rfl | rfl <;>
      simp [SmallInstr, SmallValue, binaryOps]

end Bms
