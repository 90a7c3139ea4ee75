import Verif.Model.NameLookup

/-!
# Instantiation of generic functions

Transcribes src/bms/instantiate.cpp, `get_width` of src/bms/deduction.hpp and the functions of
`Function::Instance` of src/bms/ast.hpp. Nodes of an instance have new addresses. Here, the copy of
the node with key `k` has key `k + base`, where `base` is larger than all keys in use.

Simplification: `Widths` is a list of widths (the alternative with one width for everything is only
used by tests).
-/

namespace Bms
namespace Inst

/-- `get_width`, src/bms/deduction.hpp:18-29. -/
def getWidth (w : List Nat) (i : Nat) : Outcome AErr Nat :=
  match w[i]? with
  | some x => .ok x
  | none => .throws

/-- `has_widths`, src/bms/ast.hpp:270-278, from width `i` on. -/
def hasWidths (w : List Nat) : Nat → List Nat → Outcome AErr Bool
  | _, [] => .ok true
  | i, x :: xs => do
    let y ← getWidth w i
    if x ≠ y then .ok false else hasWidths w (i + 1) xs

/-- The loop of `find_instance`, src/bms/ast.hpp:371-380. -/
def findInstance (w : List Nat) : List AInstance → Outcome AErr (Option AInstance)
  | [] => .ok none
  | i :: is => do
    if ← hasWidths w 0 i.widths then .ok (some i) else findInstance w is

/-! ## Which children are null

`deep_copy_for_instantiation` (src/bms/instantiate.cpp:118-156) goes over all children of a node and
calls `set_parent(*child, *result)` without a check for null (l.151-154). -/

mutual

/-- No node in the expression has a null child. -/
def copyableE : AExpr → Bool
  | .literal .. => true
  | .id .. => true
  | .conversion _ _ e to => copyableE e && copyableT to
  | .ite _ _ l c r => copyableE l && copyableE c && copyableE r
  | .binary _ _ _ l r => copyableE l && copyableE r
  | .prefix _ _ _ e => copyableE e
  | .call _ _ _ _ _ args => copyableEs args

/-- No node in the type has a null child; `Void`, `Bool` and `Int` have a null child, the width. -/
def copyableT : AType → Bool
  | .base .. => false
  | .uint _ _ _ w => copyableE w

/-- The same for several expressions. -/
def copyableEs : List AExpr → Bool
  | [] => true
  | e :: es => copyableE e && copyableEs es

end

mutual

/-- No node in the statement has a null child. -/
def copyableS : AStmt → Bool
  | .const_ _ _ _ ty init => ty.any copyableT && copyableE init
  | .let_ _ _ _ ty init => ty.any copyableT && init.any copyableE
  | .staticAssert _ _ e => copyableE e
  | .ifThen .. => false
  | .ifElse _ _ c t e => copyableE c && copyableS t && copyableS e
  | .while_ _ _ c b => copyableE c && copyableS b
  | .control _ _ _ e => e.any copyableE
  | .assign _ _ _ _ e => copyableE e
  | .block _ _ ss => copyableSs ss
  | .call e => copyableE e

/-- The same for several statements. -/
def copyableSs : List AStmt → Bool
  | [] => true
  | s :: ss => copyableS s && copyableSs ss

end

/-- No node in the function has a null child (the requires-clause of a function is checked,
src/bms/instantiate.cpp:119-121, 142-146). -/
def copyable (f : AFn) : Bool :=
  f.params.all (fun p => copyableT p.type) && copyableT f.ret && f.requires_.all copyableE &&
    copyableSs f.body

/-! ## Nodes of a function -/

mutual

/-- Keys of the nodes of an expression. -/
def keysE : AExpr → List Key
  | .literal k .. => [k]
  | .id k .. => [k]
  | .conversion k _ e to => k :: (keysE e ++ keysT to)
  | .ite k _ l c r => k :: (keysE l ++ keysE c ++ keysE r)
  | .binary k _ _ l r => k :: (keysE l ++ keysE r)
  | .prefix k _ _ e => k :: keysE e
  | .call k _ _ _ _ args => k :: keysEs args

/-- Keys of the nodes of a type. -/
def keysT : AType → List Key
  | .base k .. => [k]
  | .uint k _ _ w => k :: keysE w

/-- Keys of the nodes of several expressions. -/
def keysEs : List AExpr → List Key
  | [] => []
  | e :: es => keysE e ++ keysEs es

end

/-- Keys of an optional child. -/
def keysO {α : Type} (f : α → List Key) : Option α → List Key
  | none => []
  | some x => f x

mutual

/-- Keys of the nodes of a statement. -/
def keysS : AStmt → List Key
  | .const_ k _ _ ty init => k :: (keysO keysT ty ++ keysE init)
  | .let_ k _ _ ty init => k :: (keysO keysT ty ++ keysO keysE init)
  | .staticAssert k _ e => k :: keysE e
  | .ifThen k _ c t => k :: (keysE c ++ keysS t)
  | .ifElse k _ c t e => k :: (keysE c ++ keysS t ++ keysS e)
  | .while_ k _ c b => k :: (keysE c ++ keysS b)
  | .control k _ _ e => k :: keysO keysE e
  | .assign k _ _ _ e => k :: keysE e
  | .block k _ ss => k :: keysSs ss
  | .call e => keysE e

/-- Keys of the nodes of several statements. -/
def keysSs : List AStmt → List Key
  | [] => []
  | s :: ss => keysS s ++ keysSs ss

end

/-- Keys of the nodes of a function: the domain of `m_remap` after the first pass
(src/bms/instantiate.cpp:118-156). -/
def keys (f : AFn) : List Key :=
  f.k :: (f.params.flatMap (fun p => keysT p.type) ++ keysT f.ret ++ keysO keysE f.requires_ ++
    (f.bodyKey :: keysSs f.body))

/-! ## Copies -/

/-- What a copy needs to know: keys of nodes and parameters that are copied, and the offset. -/
structure Remap where
  nodes : List Key
  params : List Key
  base : Nat

/-- `Remap_Lookup_Result`, src/bms/instantiate.cpp:180-197: `at` throws for what was not copied. -/
def lookup (m : Remap) : Option Lookup → Outcome AErr (Option Lookup)
  | none => .ok none
  | some (.builtin f) => .ok (some (.builtin f))
  | some (.node k) => if k ∈ m.nodes then .ok (some (.node (k + m.base))) else .throws
  | some (.param k) => if k ∈ m.params then .ok (some (.param (k + m.base))) else .throws

mutual

/-- The copy of an expression, with lookup results updated, src/bms/instantiate.cpp:118-156 and
199-232. (For `Id_Expression`, both functions l.202-210 of `Update_Name_Lookup` are candidates; the
template is the better match, since the other is `const`.) -/
def expr (m : Remap) : AExpr → Outcome AErr AExpr
  | .literal k cv l => .ok (.literal (k + m.base) cv l)
  | .id k cv name ref generic => do
    let ref ← lookup m ref
    .ok (.id (k + m.base) cv name ref generic)
  | .conversion k cv e to => do
    let e ← expr m e
    let to ← type m to
    .ok (.conversion (k + m.base) cv e to)
  | .ite k cv l c r => do
    let l ← expr m l
    let c ← expr m c
    let r ← expr m r
    .ok (.ite (k + m.base) cv l c r)
  | .binary k cv op l r => do
    let l ← expr m l
    let r ← expr m r
    .ok (.binary (k + m.base) cv op l r)
  | .prefix k cv op e => do
    let e ← expr m e
    .ok (.prefix (k + m.base) cv op e)
  | .call k cv stmt name ref args => do
    let ref ← lookup m ref
    let args ← exprs m args
    .ok (.call (k + m.base) cv stmt name ref args)

/-- The copy of a type node. -/
def type (m : Remap) : AType → Outcome AErr AType
  | .base k cv b => .ok (.base (k + m.base) cv b)
  | .uint k cv c w => do
    let w ← expr m w
    .ok (.uint (k + m.base) cv c w)

/-- Copies of several expressions. -/
def exprs (m : Remap) : List AExpr → Outcome AErr (List AExpr)
  | [] => .ok []
  | e :: es => do
    let e ← expr m e
    let es ← exprs m es
    .ok (e :: es)

end

mutual

/-- The copy of a statement. -/
def stmt (m : Remap) : AStmt → Outcome AErr AStmt
  | .const_ k cv name ty init => do
    let ty ← Names.optional (type m) ty
    let init ← expr m init
    .ok (.const_ (k + m.base) cv name ty init)
  | .let_ k cv name ty init => do
    let ty ← Names.optional (type m) ty
    let init ← Names.optional (expr m) init
    .ok (.let_ (k + m.base) cv name ty init)
  | .staticAssert k cv e => do
    let e ← expr m e
    .ok (.staticAssert (k + m.base) cv e)
  | .ifThen k cv c t => do
    let c ← expr m c
    let t ← stmt m t
    .ok (.ifThen (k + m.base) cv c t)
  | .ifElse k cv c t e => do
    let c ← expr m c
    let t ← stmt m t
    let e ← stmt m e
    .ok (.ifElse (k + m.base) cv c t e)
  | .while_ k cv c b => do
    let c ← expr m c
    let b ← stmt m b
    .ok (.while_ (k + m.base) cv c b)
  | .control k cv c e => do
    let e ← Names.optional (expr m) e
    .ok (.control (k + m.base) cv c e)
  | .assign k cv name ref e => do
    let ref ← lookup m ref
    let e ← expr m e
    .ok (.assign (k + m.base) cv name ref e)
  | .block k cv ss => do
    let ss ← stmts m ss
    .ok (.block (k + m.base) cv ss)
  | .call e => do
    let e ← expr m e
    .ok (.call e)

/-- Copies of several statements. -/
def stmts (m : Remap) : List AStmt → Outcome AErr (List AStmt)
  | [] => .ok []
  | s :: ss => do
    let s ← stmt m s
    let ss ← stmts m ss
    .ok (s :: ss)

end

/-- Copies of parameters, src/bms/instantiate.cpp:158-178. -/
def params (m : Remap) : List AParam → Outcome AErr (List AParam)
  | [] => .ok []
  | p :: ps => do
    let ty ← type m p.type
    let ps ← params m ps
    .ok (⟨p.k + m.base, p.name, ty⟩ :: ps)

/-- `deep_copy`, src/bms/instantiate.cpp:101-116, and the constructor for copies of functions
(src/bms/ast.cpp:112-121), which does not copy the state of analysis. -/
def copy (base : Nat) (f : AFn) : Outcome AErr AFn :=
  if ¬ copyable f then .ub
  else do
    let m : Remap := ⟨keys f, f.params.map AParam.k, base⟩
    let ps ← params m f.params
    let ret ← type m f.ret
    let req ← Names.optional (expr m) f.requires_
    let body ← stmts m f.body
    .ok { k := f.k + base, cv := f.cv, name := f.name, params := ps, ret := ret, requires_ := req
          bodyKey := f.bodyKey + base, body := body, instances := [], generic := false
          address := none, level := .unanalyzed }

/-- The loop of `substitute_widths`, src/bms/instantiate.cpp:73-99; `ws` are the widths used so
far. -/
def substitute (w : List Nat) : List Nat → List AParam → Outcome AErr (List Nat × List AParam)
  | ws, [] => .ok (ws, [])
  | ws, p :: ps =>
    match p.type with
    | .uint k cv _ (.id ki _ name ref true) => do
      let x ← getWidth w ws.length
      let (ws, ps) ← substitute w (ws ++ [x]) ps
      .ok (ws, { p with
        type := .uint k cv (some x) (.id ki (some (Value.known (CVal.ofInt x))) name ref true) } :: ps)
    | _ => do
      let (ws, ps) ← substitute w ws ps
      .ok (ws, p :: ps)

/-- `instantiate_function`, src/bms/instantiate.cpp:53-70: the instance, and if it is new, the
instance node. -/
def function (base : Nat) (f : AFn) (w : List Nat) : Outcome AErr (AInstance × Option AFn) := do
  Outcome.assert f.generic
  match ← findInstance w f.instances with
  | some i => .ok (i, none)
  | none => do
    let g ← copy base f
    let (ws, ps) ← substitute w [] g.params
    .ok (⟨ws, g.k⟩, some { g with params := ps })

end Inst

end Bms
