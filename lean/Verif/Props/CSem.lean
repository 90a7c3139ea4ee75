import Verif.Lemmas.CSemProgram
import Verif.Props.GenCProgram

/-!
# Property C72: what generated C programs compute
-/

namespace Bms

open Spec (WF Res Operands InType Prog typeOf evalE execS execSs)
open C (Consts MeansE MeansSs MeansDs CDecl CV CRes VTy SameProgram SameE SameSs ArgIs SameResult functionOf programOf callC evalC
  binary convert usual unary number Wide TypeIs TypeOf FitsTy Rep typeIs_fits call_agrees Lexes DerivesProgram WritableD
  Space)
open GenC (Options dialect)

/-- **C72, partial.** If a call of a function of the program has a value, the call of this function in the
program of C that stands for it results in the same number. What is missing: programs that are not
`SameProgram`, see the violations below. With `strict = false`, programs are included that may do something
in C that is undefined: then this is the only other thing that can come of the call. -/
theorem C72_call_partial {cs : Consts} {strict : Bool} {ds : List ADecl} {c : List CDecl}
    (hP : SameProgram cs strict ds) (hc : MeansDs cs false ds c) {n : Nat} {k : Key} {f : AFn} {vs : List CVal}
    {cvs : List CV} {v : CVal} (hf : functionOf k ds = some f)
    (ht : vs.map CVal.type = f.params.map (fun p => typeOf p.type)) (hwf : ∀ v ∈ vs, WF v)
    (ha : List.Forall₂ ArgIs vs cvs) (h : (programOf cs ds).callN n k vs = .ok v) :
    WF v ∧ v.type = typeOf f.ret ∧ SameResult strict v (callC c n f.name cvs) := by
  obtain ⟨h1, h2, h3⟩ := call_agrees hP hc n k f vs v hf ht hwf h
  refine ⟨h1, h2, ?_⟩
  obtain ⟨hm, hg, -⟩ := C.functionOf_mem hf
  obtain ⟨_, _, _, hpar, _⟩ := hP.bodies f hm hg
  have hr : List.Forall₂ (Rep true) vs cvs := by
    have hw : ∀ v ∈ vs, Wide v.type := by
      intro v hv
      have : v.type ∈ vs.map CVal.type := List.mem_map.mpr ⟨v, hv, rfl⟩
      rw [ht] at this
      obtain ⟨p, hp, he⟩ := List.mem_map.mp this
      rw [← he]
      exact (hpar p hp).2.2
    clear h h1 h2 h3 ht hwf
    induction ha with
    | nil => exact .nil
    | @cons v c vs cvs hv _ ih =>
      obtain ⟨⟨ty, q1, q2⟩, q3, q4⟩ := hv
      refine .cons ⟨?_, q3, q4⟩ (ih fun u hu => hw u (.tail _ hu))
      rw [q2]
      exact typeIs_fits q1 (.inr (hw v (.head _)))
  have := h3 cvs hr
  cases hq : callC c n f.name cvs with
  | ok r => rw [hq] at this; exact .inl ⟨r, rfl, this.2.1⟩
  | undef => rw [hq] at this; exact .inr ⟨this, rfl⟩
  | aborts => rw [hq] at this; exact this.elim
  | timeout => rw [hq] at this; exact this.elim

/-- **C72, partial.** The text that is written for a program is a program of C in which calls of functions
result in the same numbers. What is missing: as for C70 and for `C72_call_partial`. -/
theorem C72_text_partial {l : GenC.Language} {o : Options} {strict : Bool} {ds : List ADecl} {s : List Char}
    (hi : Space o.indentChar) (ho : o.c23 = false)
    (hw : ∀ d ∈ ds, WritableD (GenC.constants ds) o.alwaysParenthesize o.c23 d)
    (hP : SameProgram (GenC.constants ds) strict ds) (h : GenC.program l o ds = .ok s) :
    ∃ c, (∃ ts, Lexes s ts ∧ DerivesProgram (dialect l o) ts c) ∧
      (∀ d ts c', Lexes s ts → DerivesProgram d ts c' → c' = c) ∧
      ∀ n k f v, functionOf k ds = some f → (programOf (GenC.constants ds) ds).callN n k [] = .ok v →
        SameResult strict v (callC c n f.name []) := by
  obtain ⟨c, h1, h2, h3⟩ := C70_program_partial hi hw h
  refine ⟨c, h2, h3, fun n k f v hf hv => ?_⟩
  rw [ho] at h1
  obtain ⟨hm, hg, -⟩ := C.functionOf_mem hf
  have hp : f.params = [] := (hw _ hm hg).2.1
  exact (C72_call_partial hP h1 hf (by rw [hp]; rfl) (fun _ h => absurd h List.not_mem_nil) .nil hv).2.2

/-! ## Violations -/

/-- **C72, violation.** Sums of values of `uint8_t` and `uint16_t` do not wrap around in C. -/
theorem C72_narrow_violation {w : Nat} (hw : w = 8 ∨ w = 16) {a b : Int} (ha : 0 ≤ a ∧ a < 2 ^ w)
    (hb : 0 ≤ b ∧ b < 2 ^ w) (h : 2 ^ w ≤ a + b) :
    evalBinary ⟨.uint w, a⟩ .binary_plus ⟨.uint w, b⟩ = .ok ⟨.uint w, a + b - 2 ^ w⟩ ∧
    binary .add ⟨.uint w, a⟩ ⟨.uint w, b⟩ = .ok ⟨.int, a + b⟩ := by
  have hw' : 0 < w ∧ w < 128 := by omega
  refine ⟨?_, ?_⟩
  · rw [(C01_uint_arith_mod (.uint hw' ha hb) (op := .binary_plus) rfl).1]
    congr 2
    rw [← Int.emod_eq_of_lt (a := a + b - 2 ^ w) (b := 2 ^ w) (by omega) (by omega)]
    exact (Int.sub_emod_right _ _).symm
  · have hp : (2 : Int) ^ w ≤ 2 ^ 16 := by rcases hw with rfl | rfl <;> decide
    have key : ∀ x : Int, 0 ≤ x → x < 2 ^ 17 → VTy.int.reduce x = .ok ⟨.int, x⟩ := fun x h0 h1 =>
      if_pos ⟨by omega, by omega⟩
    have hlt : w < 32 := by omega
    simp only [binary, usual, VTy.promote, hlt, if_true, convert]
    simp only [reduceCtorEq, or_self, if_false, key a ha.1 (by omega), key b hb.1 (by omega)]
    exact key (a + b) (by omega) (by omega)

theorem C.number_int {n : Nat} (h : n < 2 ^ 31) : number n = .ok ⟨.int, n⟩ := if_pos h

theorem C.number_long {n : Nat} (h : 2 ^ 31 ≤ n) (h' : n < 2 ^ 63) : number n = .ok ⟨.long, n⟩ := by
  unfold number
  rw [if_neg (Nat.not_lt.mpr h), if_pos h']

/-- **C72, violation.** A literal that does not fit into `int` makes an operation with a value of
`uint32_t` one of `long`, that does not wrap around. -/
theorem C72_literal_violation {a : Int} {n : Nat} (ha : 0 ≤ a ∧ a < 2 ^ 32) (hn : 2 ^ 31 ≤ n ∧ n < 2 ^ 32)
    (h : 2 ^ 32 ≤ a + n) :
    evalBinary ⟨.uint 32, a⟩ .binary_plus ⟨.int, n⟩ = .ok ⟨.uint 32, a + n - 2 ^ 32⟩ ∧
    (number n >>= binary .add ⟨.uint 32, a⟩) = .ok ⟨.long, a + n⟩ := by
  have e : (a + n) % 2 ^ 32 = a + n - 2 ^ 32 := by omega
  have hn0 : InType (.uint 32) (n : Int) := ⟨by omega, by omega⟩
  have hn1 : n < 2 ^ 63 := by omega
  have key : ∀ x : Int, 0 ≤ x → x < 2 ^ 33 → VTy.long.reduce x = .ok ⟨.long, x⟩ := fun x h0 h1 =>
    if_pos ⟨by omega, by omega⟩
  have k1 := key a ha.1 (by omega)
  have k2 := key n (by omega) (by omega)
  have k3 := key (a + n) (by omega) (by omega)
  clear key
  have hu : usual (.uint 32) .long = .long := by decide
  refine ⟨?_, ?_⟩
  · rw [(C01_uint_arith_mod (.uintInt (by decide) ha hn0) (op := .binary_plus) rfl).1, e]
  · rw [C.number_long hn.1 hn1, C.CRes.ok_bind]
    simp only [binary, hu, convert]
    simp only [reduceCtorEq, or_self, if_false, k1, k2]
    exact k3

/-- **C72, violation.** A constant of type `Uint(32)` is written without its type: its complement is
negative in C. -/
theorem C72_constant_violation {n : Nat} (hn : n < 2 ^ 31) :
    C.ConstIs (.uint 32) n (.num n) ∧ evalUnary .bitwise_not ⟨.uint 32, n⟩ = .ok ⟨.uint 32, 2 ^ 32 - 1 - n⟩ ∧
    (number n >>= unary .bnot) = .ok ⟨.int, -1 - n⟩ := by
  have h32 : n < 2 ^ 32 := by omega
  have hx : ∀ m : Nat, m < 2 ^ 32 → (2 ^ 32 - 1) ^^^ m = 2 ^ 32 - (m + 1) := by
    intro m hm
    refine Nat.eq_of_testBit_eq fun i => ?_
    rw [Nat.testBit_two_pow_sub_succ hm, Nat.testBit_xor, Nat.testBit_two_pow_sub_one]
    by_cases hi : i < 32
    · simp [hi]
    · have : m.testBit i = false :=
        Nat.testBit_lt_two_pow (Nat.lt_of_lt_of_le hm (Nat.pow_le_pow_right (by decide) (by omega)))
      simp [hi, this]
  refine ⟨.uint, ?_, ?_⟩
  · obtain ⟨z, g1, g2, g3⟩ := C04_bitwise_not (w := 32) (by decide) (x := n) ⟨by omega, by omega⟩
    rw [g1]
    have hz : z = 2 ^ 32 - (n + 1) := by
      refine Nat.eq_of_testBit_eq fun i => ?_
      rw [g3, Nat.testBit_two_pow_sub_succ h32]
      rfl
    have : (z : Int) = 2 ^ 32 - 1 - n := by omega
    rw [this]
  · rw [C.number_int hn]
    have hb : VTy.int.toBits n = n := by
      have : ((n : Int) % 2 ^ 32).toNat = n := by omega
      exact this
    show CRes.ok (VTy.int.ofBits ((2 ^ 32 - 1) ^^^ VTy.int.toBits n)) = _
    rw [hb, hx n h32]
    have hs : VTy.int.signed = true ∧ 2 ^ 31 ≤ 2 ^ 32 - (n + 1) := ⟨rfl, by omega⟩
    have : VTy.int.ofBits (2 ^ 32 - (n + 1)) = ⟨.int, ((2 ^ 32 - (n + 1) : Nat) : Int) - 2 ^ 32⟩ := by
      unfold VTy.ofBits
      exact congrArg (CV.mk .int) (if_pos hs)
    rw [this]
    have : ((2 ^ 32 - (n + 1) : Nat) : Int) - 2 ^ 32 = -1 - n := by omega
    rw [this]

/-- **C72, violation.** A shift by the width of the type or more is zero in BMS, and undefined in C. -/
theorem C72_shift_violation {w : Nat} (hw : 32 ≤ w ∧ w < 128) {a n : Int} (ha : 0 ≤ a ∧ a < 2 ^ w)
    (hn : w ≤ n ∧ n < 128) (c : VTy) :
    (evalBinary ⟨.uint w, a⟩ .shift_left ⟨.int, n⟩ = .ok ⟨.uint w, 0⟩ ∧
      evalBinary ⟨.uint w, a⟩ .shift_right ⟨.int, n⟩ = .ok ⟨.uint w, 0⟩) ∧
    binary .shl ⟨.uint w, a⟩ ⟨c, n⟩ = .undef ∧ binary .shr ⟨.uint w, a⟩ ⟨c, n⟩ = .undef := by
  have h128 : (128 : Int) ≤ 2 ^ w := by
    obtain ⟨k, rfl⟩ := Nat.exists_eq_add_of_le hw.1
    have : (0 : Int) < 2 ^ k := Int.pow_pos (by decide)
    rw [Int.pow_add]
    have h32 : (2 : Int) ^ 32 = 4294967296 := by decide
    rw [h32]
    omega
  refine ⟨C05_shift_by_width_is_zero (.uintInt (by omega) ha ⟨by omega, by omega⟩) hn.1 hn.2, ?_⟩
  have hp : (VTy.uint w).promote = .uint w := if_neg (by omega)
  constructor
  all_goals
    simp only [binary, hp, C.shift]
    by_cases hc : c = .void
    · simp [hc]
    · simp [hc, VTy.width, hn.1]

/-- **C72, violation.** Sums of integers that do not fit into 32 bits are undefined in C. -/
theorem C72_int_violation {a b : Int} (ha : -2 ^ 31 ≤ a ∧ a < 2 ^ 31) (hb : -2 ^ 31 ≤ b ∧ b < 2 ^ 31)
    (h : 2 ^ 31 ≤ a + b) :
    evalBinary ⟨.int, a⟩ .binary_plus ⟨.int, b⟩ = .ok ⟨.int, a + b⟩ ∧
    binary .add ⟨.int, a⟩ ⟨.int, b⟩ = .undef := by
  refine ⟨?_, ?_⟩
  · rw [C02_int_arith_exact (.int ⟨by omega, by omega⟩ ⟨by omega, by omega⟩) (op := .binary_plus) rfl]
    exact if_pos ⟨by show _ ≤ a + b; omega, by show a + b < _; omega⟩
  · have key : ∀ x : Int, -2 ^ 31 ≤ x ∧ x < 2 ^ 31 → VTy.int.reduce x = .ok ⟨.int, x⟩ := fun x h => if_pos h
    simp only [binary, C.usual_int, convert]
    simp only [reduceCtorEq, or_self, if_false, key a ha, key b hb]
    exact if_neg fun q => absurd q.2 (by show ¬ a + b < _; omega)

/-! ## Samples -/

namespace C

def uintNode (w : Nat) (k : Key) : AType := .uint k (some ⟨.uint w, none⟩) (some w) (.literal (k + 1) none none)

def lit (k : Key) (n : Nat) : AExpr := .literal k (some ⟨.int, some n⟩) (some (.integer (Nat.toDigits 10 n)))

def var (k : Key) (x : Char) (n : Key) : AExpr := .id k none [x] (some (.node n)) false

/-- `const c = 5;`
`function f(x: Uint(32), y: Uint(32)) -> Uint(32) {`
`  let r: Uint(32) = 0; let i: Uint(32) = x; while (i != 0) { r = r + y; i = i - 1; } return r; }`
`function g(a: Uint(32)) -> Bool { return f(a, c) == a * 5; }` -/
def looping : List ADecl :=
  [.const_ 1 (some ⟨.int, some 5⟩) ['c'] none (lit 2 5),
   .function ⟨3, none, ['f'], [⟨4, ['x'], uintNode 32 100⟩, ⟨5, ['y'], uintNode 32 102⟩], uintNode 32 104, none, 6,
    [.let_ 20 (some ⟨.uint 32, none⟩) ['r'] (some (uintNode 32 106)) (some (lit 21 0)),
     .let_ 22 (some ⟨.uint 32, none⟩) ['i'] (some (uintNode 32 108)) (some (.id 23 none ['x'] (some (.param 4)) false)),
     .while_ 24 none (.binary 25 none .not_equals (var 26 'i' 22) (lit 27 0))
      (.block 28 none [
        .assign 29 (some ⟨.uint 32, none⟩) ['r'] (some (.node 20))
          (.binary 30 none .binary_plus (var 31 'r' 20) (.id 32 none ['y'] (some (.param 5)) false)),
        .assign 33 (some ⟨.uint 32, none⟩) ['i'] (some (.node 22))
          (.binary 34 none .binary_minus (var 35 'i' 22) (lit 36 1))]),
     .control 37 none .return_ (some (var 38 'r' 20))], [], false, none, .full⟩,
   .function ⟨50, none, ['g'], [⟨51, ['a'], uintNode 32 110⟩], .base 52 (some ⟨.bool, none⟩) .bool, none, 53,
    [.control 54 none .return_ (some (.binary 55 none .equals
      (.call 56 none false ['f'] (some (.node 3)) [.id 57 none ['a'] (some (.param 51)) false, var 58 'c' 1])
      (.binary 59 none .multiplication (.id 60 none ['a'] (some (.param 51)) false) (lit 61 5))))],
    [], false, none, .full⟩]

/-- The program in C. -/
def loopingC : List CDecl :=
  [.function (.exact 32) ['f'] [(.exact 32, ['x']), (.exact 32, ['y'])] (.block [
     .decl false (.exact 32) ['r'] (some (.num 0)), .decl false (.exact 32) ['i'] (some (.var ['x'])),
     .while_ (.bin .ne (.var ['i']) (.num 0)) (.block [
       .assign ['r'] (.bin .add (.var ['r']) (.var ['y'])), .assign ['i'] (.bin .sub (.var ['i']) (.num 1))]),
     .return_ (some (.var ['r']))]),
   .function .bool ['g'] [(.exact 32, ['a'])] (.block [
     .return_ (some (.bin .eq (.call ['f'] [.var ['a'], .num 5]) (.bin .mul (.var ['a']) (.num 5))))])]

def loopingVars (k : Key) : Option CType :=
  if k ∈ [4, 5, 20, 22, 51] then some (.uint 32) else none

/-- `function h() -> Uint(32) { let x: Uint(32) = 7; while (x < 1000) { x = x * x + 1; } return x; }` -/
def squares : List ADecl :=
  [.function ⟨1, none, ['h'], [], uintNode 32 100, none, 2,
    [.let_ 3 (some ⟨.uint 32, none⟩) ['x'] (some (uintNode 32 102)) (some (lit 4 7)),
     .while_ 5 none (.binary 6 none .less_than (var 7 'x' 3) (lit 8 1000))
      (.block 9 none [
        .assign 10 (some ⟨.uint 32, none⟩) ['x'] (some (.node 3))
          (.binary 11 none .binary_plus (.binary 12 none .multiplication (var 13 'x' 3) (var 14 'x' 3)) (lit 15 1))]),
     .control 16 none .return_ (some (var 17 'x' 3))], [], false, none, .full⟩]

def squaresVars (k : Key) : Option CType := if k = 3 then some (.uint 32) else none

/-- `function f() -> Bool { let x: Uint(8) = 200; let y: Uint(8) = 100; return x + y < x; }` -/
def wrapping : List ADecl :=
  [.function ⟨1, none, ['f'], [], .base 2 (some ⟨.bool, none⟩) .bool, none, 3,
    [.let_ 4 (some ⟨.uint 8, none⟩) ['x'] (some (uintNode 8 100)) (some (lit 5 200)),
     .let_ 6 (some ⟨.uint 8, none⟩) ['y'] (some (uintNode 8 102)) (some (lit 7 100)),
     .control 8 none .return_ (some (.binary 9 none .less_than
      (.binary 10 none .binary_plus (var 11 'x' 4) (var 12 'y' 6)) (var 13 'x' 4)))], [], false, none, .full⟩]

def wrappingC : List CDecl :=
  [.function .bool ['f'] [] (.block [
     .decl false (.exact 8) ['x'] (some (.num 200)), .decl false (.exact 8) ['y'] (some (.num 100)),
     .return_ (some (.bin .lt (.bin .add (.var ['x']) (.var ['y'])) (.var ['x'])))])]

/-- The value, if there is one. -/
def valueOf : Res CVal → Option CVal
  | .ok v => some v
  | _ => none

theorem eq_of_valueOf {r : Res CVal} {v : CVal} (h : valueOf r = some v) : r = .ok v := by
  cases r <;> cases h
  rfl

theorem means_lit (cs : Consts) (k : Key) (n : Nat) : MeansE cs (lit k n) (.num n) :=
  .literal (.int (.nonneg n))

theorem means_var {cs : Consts} {n : Key} (h : cs n = none) (k : Key) (x : Char) : MeansE cs (var k x n) (.var [x]) := by
  refine .var ?_
  rintro v ⟨m, hm, hv⟩
  cases hm
  rw [h] at hv
  cases hv

theorem means_param {cs : Consts} {n : Key} (k : Key) (x : Char) :
    MeansE cs (.id k none [x] (some (.param n)) false) (.var [x]) := by
  refine .var ?_
  rintro v ⟨m, hm, hv⟩
  cases hm

theorem u32_type (k : Key) : TypeOf (uintNode 32 k) (.uint 32) := .uint (by decide) (by decide)

end C

/-- The hypotheses of `C72_call_partial` are met by a program with calls and a loop, and a call. -/
theorem C72_sample : SameProgram (GenC.constants C.looping) true C.looping ∧
    MeansDs (GenC.constants C.looping) false C.looping C.loopingC ∧
    (∃ f, functionOf 50 C.looping = some f ∧ f.name = ['g'] ∧ f.params.map (fun p => typeOf p.type) = [.uint 32]) ∧
    ArgIs ⟨.uint 32, 7⟩ ⟨.uint 32, 7⟩ ∧
    (programOf (GenC.constants C.looping) C.looping).callN 9 50 [⟨.uint 32, 7⟩] = .ok ⟨.bool, 1⟩ ∧
    callC C.loopingC 9 ['g'] [⟨.uint 32, 7⟩] = .ok ⟨.bool, 1⟩ := by
  have h1 : GenC.constants C.looping 1 = some (some ⟨.int, some 5⟩) := by decide
  have h20 : GenC.constants C.looping 20 = none := by decide
  have h22 : GenC.constants C.looping 22 = none := by decide
  refine ⟨⟨?_, ?_, ?_⟩, ?_, ⟨_, rfl, rfl, rfl⟩, ⟨⟨.exact 32, .exact, rfl⟩, rfl, by decide⟩,
    C.eq_of_valueOf (by decide +kernel), by decide +kernel⟩
  · intro f g hf hg _ _ h
    simp only [C.looping, List.mem_cons, List.not_mem_nil, or_false, reduceCtorEq, false_or, ADecl.function.injEq] at hf hg
    rcases hf with rfl | rfl <;> rcases hg with rfl | rfl <;> first | rfl | (exact absurd h (by decide))
  · intro f g hf hg _ _ h
    simp only [C.looping, List.mem_cons, List.not_mem_nil, or_false, reduceCtorEq, false_or, ADecl.function.injEq] at hf hg
    rcases hf with rfl | rfl <;> rcases hg with rfl | rfl <;> first | rfl | (exact absurd h (by decide))
  · have hfn : C.fnsOf C.looping 3 = some (['f'], [.uint 32, .uint 32], .uint 32) := rfl
    generalize GenC.constants C.looping = cs at *
    generalize hF : C.fnsOf C.looping = fns at *
    have hvars : ∀ k t, C.loopingVars k = some t → t.WF := by
      intro k t h
      unfold C.loopingVars at h
      split at h <;> cases h
      exact ⟨by decide, by decide⟩
    intro f hf hg
    simp only [C.looping, List.mem_cons, List.not_mem_nil, or_false, reduceCtorEq, false_or, ADecl.function.injEq] at hf
    have hw : Wide (.uint 32) := by show 32 ≤ 32; decide
    rcases hf with rfl | rfl
    · refine ⟨C.loopingVars, [(['i'], some 22), (['r'], some 20), (['x'], some 4), (['y'], some 5)], hvars, ?_, by decide, C.u32_type _, .inr hw, ?_⟩
      · intro p hp
        simp only [List.mem_cons, List.not_mem_nil, or_false] at hp
        rcases hp with rfl | rfl <;> exact ⟨C.u32_type _, rfl, hw⟩
      · refine .cons (.let_ hw rfl (by decide) (.number (by decide) (by decide) (by decide))) (.cons (.let_ hw rfl (by decide)
          (.param rfl rfl)) (.cons (.while_ (.comparison rfl (.var h22 rfl rfl) (.number (by decide) (by decide) (by decide)) .right)
            (.block (.cons (.assign h20 rfl rfl (.calculation rfl (.var h20 rfl rfl) (.param rfl rfl) (.same (.inr ⟨_, rfl⟩))
              nofun fun _ => .inl ⟨rfl, rfl⟩)) (.cons (.assign h22 rfl rfl (.calculation rfl (.var h22 rfl rfl)
                (.number (by decide) (by decide) (by decide)) .right nofun fun _ => .inl ⟨rfl, rfl⟩)) .nil))))
          (.cons (.return_ (.var h20 rfl rfl) hw) .nil)))
    · refine ⟨C.loopingVars, [(['a'], some 51)], hvars, ?_, by decide, .bool, .inr trivial, ?_⟩
      · intro p hp
        simp only [List.mem_cons, List.not_mem_nil, or_false] at hp
        subst hp
        exact ⟨C.u32_type _, rfl, hw⟩
      · exact .cons (.return_ (.comparison rfl (.call hfn rfl hw (.cons (.param rfl rfl) hw (.cons
          (.constant h1 trivial ⟨trivial, by decide⟩ (by decide) (by decide)) hw .nil)))
          (.calculation rfl (.param rfl rfl) (.number (by decide) (by decide) (by decide)) .right nofun
            fun _ => .inl ⟨rfl, rfl⟩) (.same (.inr ⟨_, rfl⟩))) trivial) .nil
  · generalize GenC.constants C.looping = cs at *
    exact .cons .constDropped (.cons
      (.function rfl (C.u32_type _) .exact (.cons (.mk (C.u32_type _) .exact) (.cons (.mk (C.u32_type _) .exact) .nil))
        (.cons (.let_ .exact (.some (C.means_lit _ _ _))) (.cons (.let_ .exact (.some (C.means_param _ _)))
          (.cons (.while_ (.binary (by decide) (C.means_var h22 _ _) (C.means_lit _ _ _)) (.block
            (.cons (.assign (.binary (by decide) (C.means_var h20 _ _) (C.means_param _ _)))
              (.cons (.assign (.binary (by decide) (C.means_var h22 _ _) (C.means_lit _ _ _))) .nil))))
          (.cons (.return_ (.some (C.means_var h20 _ _))) .nil)))))
      (.cons (.function rfl .bool .bool (.cons (.mk (C.u32_type _) .exact) .nil)
        (.cons (.return_ (.some (.binary (by decide) (.call (.cons (C.means_param _ _) (.cons
          (.constant ⟨1, rfl, h1⟩ (.int (.nonneg 5))) .nil)))
          (.binary (by decide) (C.means_param _ _) (C.means_lit _ _ _))))) .nil)) .nil))

/-- The hypotheses of `C72_text_partial` are met by a program. -/
theorem C72_text_sample : SameProgram (GenC.constants C.squares) true C.squares ∧
    (∀ d ∈ C.squares, WritableD (GenC.constants C.squares) false false d) ∧
    C.textOf .c {} C.squares = some "uint32_t h(void) {\n    uint32_t x = 7;\n    while (x < 1000) {\n        x = x * x + 1;\n    }\n    return x;\n}\n".toList ∧
    (programOf (GenC.constants C.squares) C.squares).callN 4 1 [] = .ok ⟨.uint 32, 2501⟩ := by
  have h3 : GenC.constants C.squares 3 = none := by decide
  refine ⟨⟨?_, ?_, ?_⟩, ?_, by decide +kernel, C.eq_of_valueOf (by decide +kernel)⟩
  · intro f g hf hg _ _ h
    simp only [C.squares, List.mem_cons, List.not_mem_nil, or_false, ADecl.function.injEq] at hf hg
    rw [hf, hg]
  · intro f g hf hg _ _ h
    simp only [C.squares, List.mem_cons, List.not_mem_nil, or_false, ADecl.function.injEq] at hf hg
    rw [hf, hg]
  · generalize GenC.constants C.squares = cs at *
    generalize C.fnsOf C.squares = fns at *
    intro f hf hg
    simp only [C.squares, List.mem_cons, List.not_mem_nil, or_false, ADecl.function.injEq] at hf
    have hw : Wide (.uint 32) := by show 32 ≤ 32; decide
    subst hf
    refine ⟨C.squaresVars, [(['x'], some 3)], ?_, nofun, by decide, C.u32_type _, .inr hw, ?_⟩
    · intro k t h
      unfold C.squaresVars at h
      split at h <;> cases h
      exact ⟨by decide, by decide⟩
    · exact .cons (.let_ hw rfl (by decide) (.number (by decide) (by decide) (by decide))) (.cons
        (.while_ (.comparison rfl (.var h3 rfl rfl) (.number (by decide) (by decide) (by decide)) .right)
          (.block (.cons (.assign h3 rfl rfl (.calculation rfl (.calculation rfl (.var h3 rfl rfl) (.var h3 rfl rfl)
            (.same (.inr ⟨_, rfl⟩)) nofun fun _ => .inl ⟨rfl, rfl⟩)
              (.number (by decide) (by decide) (by decide)) .right nofun fun _ => .inl ⟨rfl, rfl⟩)) .nil)))
        (.cons (.return_ (.var h3 rfl rfl) hw) .nil))
  · intro d hd
    generalize GenC.constants C.squares = cs at *
    simp only [C.squares, List.mem_cons, List.not_mem_nil, or_false] at hd
    subst hd
    have hx : C.IsId ['x'] := ⟨⟨by decide, by decide⟩, by decide⟩
    have wx : ∀ k, C.WritableE cs false false (C.var k 'x' 3) := by
      intro k
      refine .inl ⟨?_, hx⟩
      rintro v ⟨m, hm, hv⟩
      cases hm
      rw [h3] at hv
      cases hv
    intro _
    refine ⟨⟨⟨by decide, by decide⟩, by decide⟩, rfl, ⟨_, C.u32_type _⟩, ⟨hx, by simp, _, _, rfl, ⟨by decide, by decide⟩, .small (by decide)⟩,
      ⟨⟨⟨.lt, by decide, .inr id⟩, wx 7, _, _, rfl, ⟨by decide, by decide⟩, .small (by decide)⟩, trivial,
        ⟨hx, ⟨.add, by decide, .inr id⟩, ⟨⟨.mul, by decide, .inr id⟩, wx 13, wx 14⟩, _, _, rfl, ⟨by decide, by decide⟩, .small (by decide)⟩, trivial⟩,
      ⟨wx 17, fun h => absurd rfl h⟩, trivial⟩

/-- **C72, violation.** A function that tests whether a sum of values of type `Uint(8)` wraps around returns
`true` in BMS and `false` in C. -/
theorem C72_wrapping_violation :
    C.textOf .c {} C.wrapping = some "_Bool f(void) {\n    uint8_t x = 200;\n    uint8_t y = 100;\n    return x + y < x;\n}\n".toList ∧
    MeansDs (GenC.constants C.wrapping) false C.wrapping C.wrappingC ∧
    (programOf (GenC.constants C.wrapping) C.wrapping).callN 1 1 [] = .ok ⟨.bool, 1⟩ ∧
    callC C.wrappingC 1 ['f'] [] = .ok ⟨.bool, 0⟩ := by
  have h4 : GenC.constants C.wrapping 4 = none := by decide
  have h6 : GenC.constants C.wrapping 6 = none := by decide
  refine ⟨by decide +kernel, ?_, C.eq_of_valueOf (by decide +kernel), by decide +kernel⟩
  generalize GenC.constants C.wrapping = cs at *
  exact .cons (.function rfl .bool .bool .nil (.cons (.let_ .exact (.some (C.means_lit _ _ _)))
    (.cons (.let_ .exact (.some (C.means_lit _ _ _))) (.cons (.return_ (.some (.binary (by decide) (.binary (by decide)
      (C.means_var h4 _ _) (C.means_var h6 _ _)) (C.means_var h4 _ _)))) .nil)))) .nil

end Bms
