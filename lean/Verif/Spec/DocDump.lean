import Verif.Spec.Bmd
import Verif.Spec.Dump

/-!
# Spec: spans of documents, and what is shown of documents

The nodes of a document lie in each other as in the text, and every node is shown in a line with the text
that it covers.
-/

namespace Bms.Bmd

/-- Where the value of an argument begins. -/
def Value.start : Value → Nat
  | .ident p _ | .number p _ _ _ => p.start

/-- Where the value of an argument ends. -/
def Value.stop : Value → Nat
  | .ident p name => p.start + name.length
  | .number p len _ _ => p.start + len

/-- The value of an argument is in this range. -/
def ValueIn (lo hi : Nat) (v : Value) : Prop := lo ≤ v.start ∧ v.start < v.stop ∧ v.stop ≤ hi

mutual

/-- The node begins and ends in this range, and so do its arguments and the nodes in it in the range of the
node. -/
def Covers (lo hi : Nat) : Node → Prop
  | .list p len children => lo ≤ p.start ∧ p.start < hi ∧ p.start + len ≤ hi ∧
      CoversAll p.start (p.start + len) children
  | .directive p len _ _ args block => lo ≤ p.start ∧ p.start < hi ∧ p.start + len ≤ hi ∧
      (∀ a ∈ args, ValueIn p.start (p.start + len) a.2) ∧ CoversBlock p.start (p.start + len) block
  | .text p len _ => lo ≤ p.start ∧ p.start < hi ∧ p.start + len ≤ hi

/-- All nodes are in this range. -/
def CoversAll (lo hi : Nat) : List Node → Prop
  | [] => True
  | n :: ns => Covers lo hi n ∧ CoversAll lo hi ns

/-- The block is in this range, if there is one. -/
def CoversBlock (lo hi : Nat) : Option Node → Prop
  | none => True
  | some n => Covers lo hi n

end

/-- Something that is shown in a line: a node, or that there is none. -/
structure DocItem where
  level : Nat
  node : Option Node

mutual

/-- What is shown for a node: the node, then what is in it, one level deeper. -/
def docItems (level : Nat) : Node → List DocItem
  | .list p len children => ⟨level, some (.list p len children)⟩ :: docItemsAll (level + 1) children
  | .directive p len type name args block =>
    ⟨level, some (.directive p len type name args block)⟩ :: docItemsBlock (level + 1) block
  | .text p len chars => [⟨level, some (.text p len chars)⟩]

/-- What is shown for nodes. -/
def docItemsAll (level : Nat) : List Node → List DocItem
  | [] => []
  | n :: ns => docItems level n ++ docItemsAll level ns

/-- What is shown for a block, which may be absent. -/
def docItemsBlock (level : Nat) : Option Node → List DocItem
  | none => [⟨level, none⟩]
  | some n => docItems level n

end

/-- The name that a node is shown with. -/
def Node.shownName : Node → List Char
  | .list _ _ _ => "List".toList
  | .directive _ _ _ name _ _ => '\\' :: name
  | .text _ _ _ => "Text".toList

/-- The arguments of a node. -/
def Node.arguments : Node → List (List Char × Value)
  | .directive _ _ _ _ args _ => args
  | _ => []

/-- The source from `a` to `b`. -/
def textBetween (source : List Char) (a b : Nat) : List Char := (source.drop a).take (b - a)

/-- What is shown of a text: all of it, or as much as fits into `max` columns (one more if the last
character takes two) and then dots. -/
def CutOff (max : Nat) (text shown : List Char) : Prop :=
  shown = text.flatMap Spec.visible ∨
  ∃ a b, text = a ++ b ∧ b ≠ [] ∧ shown = a.flatMap Spec.visible ++ " ...".toList ∧
    max ≤ (a.flatMap Spec.visible).length ∧ (a.flatMap Spec.visible).length ≤ max + 1

/-- The line of an argument. -/
def argumentLine (source indent : List Char) (a : List Char × Value) : List Char :=
  indent ++ a.1 ++ ": ".toList ++ textBetween source a.2.start a.2.stop ++ ['\n']

/-- The lines of what is shown: the name and the text of a node, and its arguments in some order. -/
inductive DocLine (source : List Char) (width max : Nat) : DocItem → List Char → Prop
  | null {level} : DocLine source width max ⟨level, none⟩ (List.replicate (width * level) ' ' ++ "null\n".toList)
  | node {level n shown} {args : List (List Char × Value)} : CutOff max (textBetween source n.start n.stop) shown → args.Perm n.arguments →
    DocLine source width max ⟨level, some n⟩
      (List.replicate (width * level) ' ' ++ n.shownName ++ '(' :: shown ++ ")\n".toList ++
        args.flatMap (argumentLine source (List.replicate (width * level) ' ')))

/-- The lines of everything that is shown. -/
inductive DocLines (source : List Char) (width max : Nat) : List DocItem → List Char → Prop
  | nil : DocLines source width max [] []
  | cons {e es line rest} : DocLine source width max e line → DocLines source width max es rest →
    DocLines source width max (e :: es) (line ++ rest)

end Bms.Bmd
