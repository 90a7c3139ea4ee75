import Verif.Model.Bmd
import Verif.Spec.Text

/-!
What a BMD document is, independently of the parser: comments, blanks, balanced text, words, and the
tree that belongs to a text. Only the trees (`Node`), the table of directives and the kinds of
content are shared with the model.
-/

namespace Bms.Bmd

open Spec (Ident IdentPart Literal LowerCase)

/-- The position one character further. -/
def stepPos (c : Char) (p : Position) : Position :=
  match c with
  | '\n' => ⟨p.line + 1, 0, p.start + 1⟩
  | '\r' => ⟨p.line, 0, p.start + 1⟩
  | '\t' => ⟨p.line, p.column + 4, p.start + 1⟩
  | _ => ⟨p.line, p.column + 1, p.start + 1⟩

/-- The position after a text that starts at `p`. -/
def after (p : Position) : List Char → Position
  | [] => p
  | c :: cs => after (stepPos c p) cs

/-- White space. -/
def Space (c : Char) : Prop := c = ' ' ∨ c = '\t' ∨ c = '\n' ∨ c = '\r'

/-- The characters that a backslash escapes. -/
def Escapeable (c : Char) : Prop := c = '\\' ∨ c = '{' ∨ c = '}'

/-- The text starts with a comment. -/
def CommentStart (t : List Char) : Prop := ∃ u, t = '/' :: '/' :: u ∨ t = '/' :: '*' :: u

/-- The text starts with a backslash that escapes nothing. -/
def DirectiveStart (t : List Char) : Prop := ∃ u, t = '\\' :: u ∧ ∀ c, u.head? = some c → ¬ Escapeable c

/-- A line comment with its newline. -/
def LineComment (t : List Char) : Prop := ∃ body, '\n' ∉ body ∧ t = '/' :: '/' :: (body ++ ['\n'])

/-- A block comment: `*/` occurs after its `/*` at the end and nowhere else. -/
def BlockComment (t : List Char) : Prop :=
  ∃ body, t = '/' :: '*' :: (body ++ ['*', '/']) ∧
    ∀ a b, body ++ ['*', '/'] = a ++ '*' :: '/' :: b → b = []

/-- Text in which the braces that are not escaped and not in comments match. A backslash is followed
by an escaped character, or by something else within the text. -/
inductive Balanced : List Char → Prop
  | nil : Balanced []
  | plain {c t} : c ≠ '\\' → c ≠ '/' → c ≠ '{' → c ≠ '}' → Balanced t → Balanced (c :: t)
  | escape {c t} : Escapeable c → Balanced t → Balanced ('\\' :: c :: t)
  | backslash {c t} : ¬ Escapeable c → Balanced (c :: t) → Balanced ('\\' :: c :: t)
  | slash {t} : ¬ CommentStart ('/' :: t) → Balanced t → Balanced ('/' :: t)
  | line {c t} : LineComment c → Balanced t → Balanced (c ++ t)
  | comment {c t} : BlockComment c → Balanced t → Balanced (c ++ t)
  | braces {a t} : Balanced a → Balanced t → Balanced ('{' :: (a ++ '}' :: t))

/-- A piece of a blank: a space or a comment. -/
def BlankPiece (t : List Char) : Prop :=
  (∃ c, Space c ∧ t = [c]) ∨ LineComment t ∨ BlockComment t

/-- Spaces and comments. -/
def BlankPieces (ps : List (List Char)) : Prop := ∀ t ∈ ps, BlankPiece t

/-- Among the pieces there is an empty line: a newline or a line comment, then spaces, then another
newline. -/
def EmptyLine (ps : List (List Char)) : Prop :=
  ∃ a x ws b, ps = a ++ x :: (ws ++ ['\n'] :: b) ∧ (x = ['\n'] ∨ LineComment x) ∧
    ∀ w ∈ ws, ∃ c, Space c ∧ w = [c]

/-- A blank `t`, which breaks the paragraph or not. -/
def BlankText (t : List Char) (broken : Bool) : Prop :=
  ∃ ps, BlankPieces ps ∧ t = ps.flatten ∧ (broken = true ↔ EmptyLine ps)

/-- The text starts neither with a space nor with a comment. -/
def NoBlank (t : List Char) : Prop := (∀ c, t.head? = some c → ¬ Space c) ∧ ¬ CommentStart t

/-- Text without comments and with backslashes only in escapes; `r` follows. -/
inductive Wordy (r : List Char) : List Char → Prop
  | nil : Wordy r []
  | char {c t} : c ≠ '\\' → ¬ CommentStart (c :: t ++ r) → Wordy r t → Wordy r (c :: t)
  | escape {c t} : Escapeable c → Wordy r t → Wordy r ('\\' :: c :: t)

/-- There is no empty line in the text. -/
def NoEmptyLine (t : List Char) : Prop :=
  ¬ ∃ a ws b, t = a ++ '\n' :: (ws ++ '\n' :: b) ∧ ∀ c ∈ ws, Space c

/-- The reason why a text ends before `r`: what follows the spaces is the end, a comment, a
directive, or there is an empty line. -/
def TextEnds (r : List Char) : Prop :=
  ∃ ws r', r = ws ++ r' ∧ (∀ c ∈ ws, Space c) ∧
    (r' = [] ∨ CommentStart r' ∨ DirectiveStart r' ∨ 2 ≤ ws.count '\n')

/-- `t` is the text of a text node, and `r` follows. -/
structure TextIs (t r : List Char) : Prop where
  nonempty : t ≠ []
  front : ∀ c, t.head? = some c → ¬ Space c
  back : ∀ c, t.getLast? = some c → ¬ Space c
  wordy : Wordy r t
  lines : NoEmptyLine t
  ends : TextEnds r

/-- `v` is the number of an integer literal. Nothing is said about numbers that do not fit into 64
bits and about upper case digits. -/
def LiteralText (type : LiteralType) (t : List Char) (v : Int) : Prop :=
  ∃ m : Nat, Literal type t m ∧ (LowerCase t → m < 2 ^ 63 → v = m)

/-- The value of an argument, written at `p` as `t`. -/
inductive ValueIs : Value → Position → List Char → Prop
  | ident {p t} : Ident t → ValueIs (.ident p t) p t
  | number {p t v type} : LiteralText type t v → ValueIs (.number p t.length v type) p t

/-- Arguments, written after `[` or a comma at `p`, up to the closing bracket. `seen` are the names
of the arguments before. -/
inductive ArgsIs : List (List Char) → List (List Char × Value) → Position → List Char → Prop
  | last {seen name v p b1 b2 b3 b4 t} :
      BlankText b1 false → Ident name → name ∉ seen → BlankText b2 false → BlankText b3 false →
      ValueIs v (after p (b1 ++ name ++ b2 ++ '=' :: b3)) t → BlankText b4 false →
      ArgsIs seen [(name, v)] p (b1 ++ name ++ b2 ++ '=' :: b3 ++ t ++ b4 ++ [']'])
  | more {seen name v p b1 b2 b3 b4 t args u} :
      BlankText b1 false → Ident name → name ∉ seen → BlankText b2 false → BlankText b3 false →
      ValueIs v (after p (b1 ++ name ++ b2 ++ '=' :: b3)) t → BlankText b4 false →
      ArgsIs (name :: seen) args (after p (b1 ++ name ++ b2 ++ '=' :: b3 ++ t ++ b4 ++ [','])) u →
      ArgsIs seen ((name, v) :: args) p (b1 ++ name ++ b2 ++ '=' :: b3 ++ t ++ b4 ++ ',' :: u)

/-- The arguments of a directive, which may be absent. -/
inductive ArgumentsIs : List (List Char × Value) → Position → List Char → Prop
  | none {p} : ArgumentsIs [] p []
  | some {args p t} : ArgsIs [] args (after p ['[']) t → ArgumentsIs args p ('[' :: t)

/-- A group of elements: a paragraph, or a directive that stands for itself. -/
inductive Group where
  | paragraph (nodes : List Node)
  | single (node : Node)

/-- The node is a directive that is its own paragraph. -/
def standsAlone : Node → Bool
  | .directive _ _ type _ _ _ => environmentOf type = .content
  | _ => false

/-- A node in front of groups, in the same paragraph as the first of them. -/
def joinFront (node : Node) : List Group → List Group
  | .paragraph nodes :: gs => .paragraph (node :: nodes) :: gs
  | gs => .paragraph [node] :: gs

/-- The paragraphs made from nodes that are given with whether a paragraph break follows them: a
paragraph goes on until a break or a directive that stands for itself. -/
def paragraphs : List (Node × Bool) → List Group
  | [] => []
  | (node, broken) :: rest =>
    if standsAlone node then .single node :: paragraphs rest
    else if broken then .paragraph [node] :: paragraphs rest
    else joinFront node (paragraphs rest)

/-- Where a node begins. -/
def Node.start : Node → Nat
  | .list p _ _ | .directive p _ _ _ _ _ | .text p _ _ => p.start

/-- Where a node ends. -/
def Node.stop : Node → Nat
  | .list p len _ | .directive p len _ _ _ _ | .text p len _ => p.start + len

/-- The node is in this range. -/
def SpanIn (lo hi : Nat) (n : Node) : Prop := lo ≤ n.start ∧ n.stop ≤ hi

/-- A list of nodes in a range shows groups. The source span of a paragraph contains its nodes; apart from
that it is left open. -/
inductive Shows (lo hi : Nat) : List Group → List Node → Prop
  | nil : Shows lo hi [] []
  | single {node gs ns} : SpanIn lo hi node → Shows lo hi gs ns → Shows lo hi (.single node :: gs) (node :: ns)
  | paragraph {nodes p len gs ns} : SpanIn lo hi (.list p len nodes) →
      (∀ n ∈ nodes, SpanIn p.start (p.start + len) n) → Shows lo hi gs ns →
      Shows lo hi (.paragraph nodes :: gs) (.list p len nodes :: ns)

/-- Where a node may occur: text everywhere but in lists of directives, a directive where its
environment is allowed. -/
def Allowed (context : ContentType) : Node → Prop
  | .text _ _ _ => context = .span ∨ context = .block
  | .directive _ _ type _ _ _ => contentAllows context (environmentOf type) = true
  | .list _ _ _ => False

mutual
/-- The node is written at `p` as `t`, and `r` follows up to the end of the enclosing block. -/
inductive Written : Node → Position → List Char → List Char → Prop
  | text {p t r} : TextIs t r → Written (.text p t.length t) p t r
  | directive {p name type args a block b r} :
      Ident name → (String.ofList name, type) ∈ directiveTable →
      ArgumentsIs args (after p ('\\' :: name)) a →
      BlockIs (contentTypeOf type) block (after p ('\\' :: name ++ a)) b →
      (∀ c, (a ++ b ++ r).head? = some c → ¬ IdentPart c) →
      (a = [] → (b ++ r).head? ≠ some '[') → (b = [] → r.head? ≠ some '{') →
      Written (.directive p ('\\' :: name ++ a ++ b).length type name args block) p
        ('\\' :: name ++ a ++ b) r
/-- Nodes, each with the blank behind it, written at `p` as `t`, up to the end of a block. -/
inductive Series : ContentType → List (Node × Bool) → Position → List Char → Prop
  | nil {context p} : Series context [] p []
  | cons {context node broken rest p t b u} :
      Written node p t (b ++ u) → Allowed context node → BlankText b broken → NoBlank u →
      Series context rest (after p (t ++ b)) u →
      Series context ((node, broken) :: rest) p (t ++ b ++ u)
/-- The block of a directive with its braces, which may be absent. -/
inductive BlockIs : ContentType → Option Node → Position → List Char → Prop
  | none {type p} : BlockIs type none p []
  | raw {p t} : Balanced t → t ≠ [] →
      BlockIs .raw (some (.text (after p ['{']) t.length t)) p ('{' :: t ++ ['}'])
  | text {p b t} : Balanced (b ++ t) → BlankText b false → NoBlank t → TextIs t [] →
      BlockIs .text_span (some (.text (after p ('{' :: b)) t.length t)) p ('{' :: (b ++ t) ++ ['}'])
  | noText {p b} : Balanced b → b ≠ [] → BlankText b false →
      BlockIs .text_span none p ('{' :: b ++ ['}'])
  | span {p b t nodes} : Balanced (b ++ t) → b ++ t ≠ [] → BlankText b false → NoBlank t →
      Series .span nodes (after p ('{' :: b)) t → (∀ n ∈ nodes, n.2 = false) →
      BlockIs .span (some (.list (after p ('{' :: b)) t.length (nodes.map Prod.fst))) p
        ('{' :: (b ++ t) ++ ['}'])
  | block {p b t broken nodes elements} : Balanced (b ++ t) → b ++ t ≠ [] → BlankText b broken →
      NoBlank t → Series .block nodes (after p ('{' :: b)) t →
      Shows (after p ('{' :: b)).start ((after p ('{' :: b)).start + t.length) (paragraphs nodes) elements →
      BlockIs .block (some (.list (after p ('{' :: b)) t.length elements)) p ('{' :: (b ++ t) ++ ['}'])
  | directives {type p b t broken nodes} : type = .list ∨ type = .meta_ → Balanced (b ++ t) →
      b ++ t ≠ [] → BlankText b broken → NoBlank t →
      Series type nodes (after p ('{' :: b)) t →
      BlockIs type (some (.list (after p ['{']) (b ++ t).length (nodes.map Prod.fst))) p
        ('{' :: (b ++ t) ++ ['}'])
end

/-- A document: a blank, and content unless the text ends there. -/
inductive DocumentIs : Option Node → List Char → Prop
  | empty {b broken} : BlankText b broken → DocumentIs none b
  | content {b broken t nodes elements} : BlankText b broken → NoBlank t → t ≠ [] →
      Series .block nodes (after ⟨0, 0, 0⟩ b) t →
      Shows (after ⟨0, 0, 0⟩ b).start ((after ⟨0, 0, 0⟩ b).start + t.length) (paragraphs nodes) elements →
      DocumentIs (some (.list (after ⟨0, 0, 0⟩ b) t.length elements)) (b ++ t)

mutual
/-- A node without the source spans of paragraphs, which `Shows` leaves open. -/
def Node.plain : Node → Node
  | .list _ _ children => .list ⟨0, 0, 0⟩ 0 (plainAll children)
  | .directive p len type name args block => .directive p len type name args (plainBlock block)
  | .text p len chars => .text p len chars
/-- Nodes without the source spans of paragraphs. -/
def plainAll : List Node → List Node
  | [] => []
  | n :: ns => n.plain :: plainAll ns
/-- A block or document without the source spans of the paragraphs in it. -/
def plainBlock : Option Node → Option Node
  | none => none
  | some (.list p len children) => some (.list p len (plainAll children))
  | some n => some n.plain
end

/-- What the parser reads as it is written. -/
structure Plainly (w : List Char) : Prop where
  /-- Comments follow spaces. -/
  tight : ∀ a c d b, w = a ++ c :: '/' :: d :: b → (d = '/' ∨ d = '*') → Space c
  /-- Numbers after an equals sign fit into 63 bits and have no upper case digits. -/
  numbers : ∀ a b t r k m, w = a ++ '=' :: (b ++ t ++ r) → BlankText b false → Literal k t m →
    LowerCase t ∧ m < 2 ^ 63

end Bms.Bmd
