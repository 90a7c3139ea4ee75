import Verif.Model.GenC
import Verif.Spec.Text

/-!
# Specification: the part of C and C++ in which programs are generated

Tokens, and the grammar of expressions, statements and functions, as in the C and C++ standards: words and
numbers, the punctuators, the longest possible token first (C23 6.4, C++20 lex.pptoken); the levels of
expressions (C23 6.5, C++20 expr.compound). Only what programs can be made of is included. The trees are
independent of the trees of BMS programs; how these correspond is in Spec/GenC.
-/

namespace Bms.C

open Spec (Ident IdentPart InRange Literal)

/-! ## Tokens -/

inductive Tok where
  | word (w : List Char)
  | number (w : List Char)
  | punct (w : List Char)
deriving DecidableEq, Repr

/-- A token that is a certain word. -/
def kw (s : String) : Tok := .word s.toList

/-- A token that is a certain punctuator. -/
def pt (s : String) : Tok := .punct s.toList

/-- C23 6.4.6, C++20 lex.operators; and the beginning of comments. -/
def punctuators : List (List Char) :=
  ["[", "]", "(", ")", "{", "}", ".", "->", "++", "--", "&", "*", "+", "-", "~", "!", "/", "%", "<<", ">>",
   "<", ">", "<=", ">=", "==", "!=", "^", "|", "&&", "||", "?", ":", "::", ";", "...", "=", "*=", "/=", "%=",
   "+=", "-=", "<<=", ">>=", "&=", "^=", "|=", ",", "#", "##", "<:", ":>", "<%", "%>", "%:", "%:%:",
   ".*", "->*", "<=>", "//", "/*"].map String.toList

/-- How tokens are written. -/
inductive Spelling : List Char → Tok → Prop
  | word {w} : Ident w → Spelling w (.word w)
  | number {c w} : InRange '0' c '9' → (∀ x ∈ w, IdentPart x ∨ x = '.') → Spelling (c :: w) (.number (c :: w))
  | punct {w} : w ∈ punctuators → Spelling w (.punct w)

/-- White space. -/
def Space (c : Char) : Prop := c ∈ [' ', '\n', '\t', '\r', '\x0b', '\x0c']

instance (c : Char) : Decidable (Space c) := inferInstanceAs (Decidable (c ∈ _))

/-- The tokens of a text: the next token is the longest sequence of characters that is a token. -/
inductive Lexes : List Char → List Tok → Prop
  | nil : Lexes [] []
  | space {c s ts} : Space c → Lexes s ts → Lexes (c :: s) ts
  | token {w t s ts} : Spelling w t → (∀ w' t', Spelling w' t' → w' <+: w ++ s → w'.length ≤ w.length) →
      Lexes s ts → Lexes (w ++ s) (t :: ts)

/-- Words that are no identifiers in C or C++, and names of types that are used. -/
def reserved : List (List Char) :=
  ["alignas", "alignof", "and", "and_eq", "asm", "auto", "bitand", "bitor", "bool", "break", "case", "catch",
   "char", "char8_t", "char16_t", "char32_t", "class", "compl", "concept", "const", "consteval", "constexpr",
   "constinit", "const_cast", "continue", "co_await", "co_return", "co_yield", "decltype", "default", "delete",
   "do", "double", "dynamic_cast", "else", "enum", "explicit", "export", "extern", "false", "float", "for",
   "friend", "goto", "if", "inline", "int", "long", "mutable", "namespace", "new", "noexcept", "not", "not_eq",
   "nullptr", "operator", "or", "or_eq", "private", "protected", "public", "register", "reinterpret_cast",
   "requires", "restrict", "return", "short", "signed", "sizeof", "static", "static_assert", "static_cast",
   "struct", "switch", "template", "this", "thread_local", "throw", "true", "try", "typedef", "typeid",
   "typename", "typeof", "typeof_unqual", "union", "unsigned", "using", "virtual", "void", "volatile",
   "wchar_t", "while", "xor", "xor_eq", "_Alignas", "_Alignof", "_Atomic", "_BitInt", "_Bool", "_Complex",
   "_Decimal128", "_Decimal32", "_Decimal64", "_Generic", "_Imaginary", "_Noreturn", "_Static_assert",
   "_Thread_local", "std", "uint8_t", "uint16_t", "uint32_t", "uint64_t"].map String.toList

/-- An identifier. -/
def IsId (x : List Char) : Prop := Ident x ∧ x ∉ reserved

/-! ## Types -/

inductive Ty where
  | void | int | bool
  /-- `uintN_t` -/
  | exact (width : Nat)
  /-- `unsigned _BitInt(N)` -/
  | bits (width : Nat)
deriving DecidableEq, Repr

open GenC (Dialect)

/-- The widths for which there is a `uintN_t`, with its name. -/
def exactNames : List (Nat × List Char) :=
  [(8, "uint8_t".toList), (16, "uint16_t".toList), (32, "uint32_t".toList), (64, "uint64_t".toList)]

/-- Names of types. -/
inductive TypeName : Dialect → List Tok → Ty → Prop
  | void {d} : TypeName d [kw "void"] .void
  | int {d} : TypeName d [kw "int"] .int
  | boolC99 : TypeName .c99 [kw "_Bool"] .bool
  | bool {d} : d ≠ .c99 → TypeName d [kw "bool"] .bool
  | exactC {d n x} : (n, x) ∈ exactNames → d ≠ .cpp20 → TypeName d [.word x] (.exact n)
  | exactCpp {n x} : (n, x) ∈ exactNames → TypeName .cpp20 [kw "std", pt "::", .word x] (.exact n)
  | bits {n x} : Literal .decimal x n →
      TypeName .c23 [kw "unsigned", kw "_BitInt", pt "(", .number x, pt ")"] (.bits n)

/-! ## Expressions -/

inductive UnOp where
  | plus | minus | lnot | bnot
deriving DecidableEq, Repr

inductive BinOp where
  | lor | land | bor | bxor | band | eq | ne | lt | gt | le | ge | shl | shr | add | sub | mul | div | rem
deriving DecidableEq, Repr

def UnOp.tok : UnOp → Tok
  | .plus => pt "+" | .minus => pt "-" | .lnot => pt "!" | .bnot => pt "~"

def BinOp.tok : BinOp → Tok
  | .lor => pt "||" | .land => pt "&&" | .bor => pt "|" | .bxor => pt "^" | .band => pt "&" | .eq => pt "=="
  | .ne => pt "!=" | .lt => pt "<" | .gt => pt ">" | .le => pt "<=" | .ge => pt ">=" | .shl => pt "<<"
  | .shr => pt ">>" | .add => pt "+" | .sub => pt "-" | .mul => pt "*" | .div => pt "/" | .rem => pt "%"

/-- The level of the grammar to which an operator belongs: 1 is logical-OR-expression, ..., 10 is
multiplicative-expression. -/
def BinOp.level : BinOp → Nat
  | .lor => 1 | .land => 2 | .bor => 3 | .bxor => 4 | .band => 5 | .eq | .ne => 6
  | .lt | .gt | .le | .ge => 7 | .shl | .shr => 8 | .add | .sub => 9 | .mul | .div | .rem => 10

inductive CExpr where
  | num (n : Nat)
  | bool (b : Bool)
  | var (x : List Char)
  | call (x : List Char) (args : List CExpr)
  | unary (op : UnOp) (e : CExpr)
  | cast (t : Ty) (e : CExpr)
  | bin (op : BinOp) (l r : CExpr)
  | cond (c a b : CExpr)

mutual

/-- The tokens are an expression of the level: 0 is conditional-expression, 1 to 10 are the levels of
operators with two operands, 11 is cast-expression, 12 unary-expression, 13 postfix-expression and 14
primary-expression. -/
inductive Derives : Dialect → Nat → List Tok → CExpr → Prop
  | up {d p ts e} : Derives d (p + 1) ts e → Derives d p ts e
  | cond {d c a b c' a' b'} : Derives d 1 c c' → Derives d 0 a a' → Derives d 0 b b' →
      Derives d 0 (c ++ pt "?" :: a ++ pt ":" :: b) (.cond c' a' b')
  | bin {d l r a b} {op : BinOp} : Derives d op.level l a → Derives d (op.level + 1) r b →
      Derives d op.level (l ++ op.tok :: r) (.bin op a b)
  | cast {d t ty ts e} : TypeName d t ty → Derives d 11 ts e →
      Derives d 11 (pt "(" :: t ++ pt ")" :: ts) (.cast ty e)
  | unary {d ts e} {op : UnOp} : Derives d 11 ts e → Derives d 12 (op.tok :: ts) (.unary op e)
  | call {d x ts as} : IsId x → DerivesArgs d ts as →
      Derives d 13 (.word x :: pt "(" :: ts ++ [pt ")"]) (.call x as)
  | num {d w n} : Literal .decimal w n → Derives d 14 [.number w] (.num n)
  | true_ {d} : Derives d 14 [kw "true"] (.bool true)
  | false_ {d} : Derives d 14 [kw "false"] (.bool false)
  | var {d x} : IsId x → Derives d 14 [.word x] (.var x)
  | paren {d ts e} : Derives d 0 ts e → Derives d 14 (pt "(" :: ts ++ [pt ")"]) e

/-- The arguments of a call. -/
inductive DerivesArgs : Dialect → List Tok → List CExpr → Prop
  | nil {d} : DerivesArgs d [] []
  | one {d ts e} : Derives d 0 ts e → DerivesArgs d ts [e]
  | more {d ts e rs es} : Derives d 0 ts e → DerivesArgs d rs es → es ≠ [] →
      DerivesArgs d (ts ++ pt "," :: rs) (e :: es)

end

/-! ## Statements and functions -/

inductive CStmt where
  | decl (constexpr : Bool) (t : Ty) (x : List Char) (init : Option CExpr)
  | ifThen (c : CExpr) (b : CStmt)
  | ifElse (c : CExpr) (b e : CStmt)
  | while_ (c : CExpr) (b : CStmt)
  | return_ (e : Option CExpr)
  | break_
  | continue_
  | assign (x : List Char) (e : CExpr)
  | call (e : CExpr)
  | block (ss : List CStmt)

/-- ` = e`, if there is an initializer. -/
inductive DerivesInit (d : Dialect) : List Tok → Option CExpr → Prop
  | none : DerivesInit d [] none
  | some {ts e} : Derives d 0 ts e → DerivesInit d (pt "=" :: ts) (some e)

/-- The value of a `return` statement. -/
inductive DerivesValue (d : Dialect) : List Tok → Option CExpr → Prop
  | none : DerivesValue d [] none
  | some {ts e} : Derives d 0 ts e → DerivesValue d ts (some e)

/-- Calls. -/
def IsCall : CExpr → Prop
  | .call .. => True
  | _ => False

def IsCBlock : CStmt → Prop
  | .block _ => True
  | _ => False

def IsCIf : CStmt → Prop
  | .ifThen .. | .ifElse .. => True
  | _ => False

mutual

/-- The tokens are a statement; the bodies of `if` and `while` are blocks, and `else` is followed by a
block or by `if`. -/
inductive DerivesStmt : Dialect → List Tok → CStmt → Prop
  | decl {d t ty x i e} : TypeName d t ty → IsId x → DerivesInit d i e →
      DerivesStmt d (t ++ .word x :: i ++ [pt ";"]) (.decl false ty x e)
  | constexpr {d t ty x i e} : TypeName d t ty → IsId x → Derives d 0 i e → d ≠ .c99 →
      DerivesStmt d (kw "constexpr" :: t ++ .word x :: pt "=" :: i ++ [pt ";"]) (.decl true ty x (some e))
  | ifThen {d c b c' b'} : Derives d 0 c c' → DerivesStmt d b b' → IsCBlock b' →
      DerivesStmt d (kw "if" :: pt "(" :: c ++ pt ")" :: b) (.ifThen c' b')
  | ifElse {d c b e c' b' e'} : Derives d 0 c c' → DerivesStmt d b b' → IsCBlock b' → DerivesStmt d e e' →
      (IsCIf e' ∨ IsCBlock e') →
      DerivesStmt d (kw "if" :: pt "(" :: c ++ pt ")" :: b ++ kw "else" :: e) (.ifElse c' b' e')
  | while_ {d c b c' b'} : Derives d 0 c c' → DerivesStmt d b b' → IsCBlock b' →
      DerivesStmt d (kw "while" :: pt "(" :: c ++ pt ")" :: b) (.while_ c' b')
  | return_ {d ts e} : DerivesValue d ts e → DerivesStmt d (kw "return" :: ts ++ [pt ";"]) (.return_ e)
  | break_ {d} : DerivesStmt d [kw "break", pt ";"] .break_
  | continue_ {d} : DerivesStmt d [kw "continue", pt ";"] .continue_
  | assign {d x ts e} : IsId x → Derives d 0 ts e →
      DerivesStmt d (.word x :: pt "=" :: ts ++ [pt ";"]) (.assign x e)
  | call {d ts e} : Derives d 0 ts e → IsCall e → DerivesStmt d (ts ++ [pt ";"]) (.call e)
  | block {d ts ss} : DerivesStmts d ts ss → DerivesStmt d (pt "{" :: ts ++ [pt "}"]) (.block ss)

/-- Several statements. -/
inductive DerivesStmts : Dialect → List Tok → List CStmt → Prop
  | nil {d} : DerivesStmts d [] []
  | cons {d ts s rs ss} : DerivesStmt d ts s → DerivesStmts d rs ss → DerivesStmts d (ts ++ rs) (s :: ss)

end

/-- Parameters. -/
inductive DerivesParams (d : Dialect) : List Tok → List (Ty × List Char) → Prop
  | one {t ty x} : TypeName d t ty → IsId x → DerivesParams d (t ++ [.word x]) [(ty, x)]
  | more {t ty x rs ps} : TypeName d t ty → IsId x → DerivesParams d rs ps →
      DerivesParams d (t ++ .word x :: pt "," :: rs) ((ty, x) :: ps)

/-- Declarations of a program: constants and functions. -/
inductive CDecl where
  | const (t : Ty) (x : List Char) (e : CExpr)
  | function (t : Ty) (x : List Char) (params : List (Ty × List Char)) (body : CStmt)

inductive DerivesDecl (d : Dialect) : List Tok → CDecl → Prop
  | const {ts t x e} : DerivesStmt d ts (.decl true t x (some e)) → DerivesDecl d ts (.const t x e)
  /-- No parameters: `(void)`. -/
  | function {t ty x b b'} : TypeName d t ty → IsId x → DerivesStmt d b b' → IsCBlock b' →
      DerivesDecl d (t ++ .word x :: pt "(" :: kw "void" :: pt ")" :: b) (.function ty x [] b')
  | functionParams {t ty x ts ps b b'} : TypeName d t ty → IsId x → DerivesParams d ts ps →
      DerivesStmt d b b' → IsCBlock b' →
      DerivesDecl d (t ++ .word x :: pt "(" :: ts ++ pt ")" :: b) (.function ty x ps b')

/-- The tokens are a program. -/
inductive DerivesProgram (d : Dialect) : List Tok → List CDecl → Prop
  | nil : DerivesProgram d [] []
  | cons {ts s rs ss} : DerivesDecl d ts s → DerivesProgram d rs ss → DerivesProgram d (ts ++ rs) (s :: ss)

end Bms.C
