import Verif.Spec.Blame
import Verif.Spec.AnalysisReport
import Verif.Spec.Scopes
import Verif.Lemmas.LayoutBuild

/-!
# The nodes that errors name

What is at the key of an error, and which place in the code makes an error with this code for it.
-/

namespace Bms

open Report Spec

/-! ## Things of a tree -/

namespace Placed

/-- What an expression is. -/
def thingE : AExpr → Thing
  | .literal .. => .literal
  | .id .. => .id_expression
  | .conversion .. => .conversion_expression
  | .ite .. => .if_expression
  | .binary .. => .binary_expression
  | .prefix .. => .prefix_expression
  | .call .. => .function_call_expression

/-- What a control statement is. -/
def thingC : Control → Thing
  | .break_ => .break_statement
  | .continue_ => .continue_statement
  | .return_ => .return_statement

mutual

/-- The keys of an expression, with what is there. -/
def thingsE : AExpr → List (Key × Thing)
  | .literal k _ _ => [(k, .literal)]
  | .id k _ _ _ _ => [(k, .id_expression)]
  | .conversion k _ e ty => (k, .conversion_expression) :: (thingsE e ++ thingsT ty)
  | .ite k _ l c r => (k, .if_expression) :: (thingsE l ++ (thingsE c ++ thingsE r))
  | .binary k _ _ l r => (k, .binary_expression) :: (thingsE l ++ thingsE r)
  | .prefix k _ _ e => (k, .prefix_expression) :: thingsE e
  | .call k _ _ _ _ args => (k, .function_call_expression) :: thingsEs args

def thingsT : AType → List (Key × Thing)
  | .base k _ _ => [(k, .type)]
  | .uint k _ _ w => (k, .type) :: thingsE w

def thingsEs : List AExpr → List (Key × Thing)
  | [] => []
  | e :: es => thingsE e ++ thingsEs es

end

def thingsO {α : Type} (f : α → List (Key × Thing)) : Option α → List (Key × Thing)
  | none => []
  | some x => f x

mutual

def thingsS : AStmt → List (Key × Thing)
  | .const_ k _ _ ty e => (k, .constant) :: (thingsO thingsT ty ++ thingsE e)
  | .let_ k _ _ ty e => (k, .variable) :: (thingsO thingsT ty ++ thingsO thingsE e)
  | .staticAssert k _ e => (k, .static_assertion) :: thingsE e
  | .ifThen k _ c t => (k, .if_statement) :: (thingsE c ++ thingsS t)
  | .ifElse k _ c t e => (k, .if_statement) :: (thingsE c ++ (thingsS t ++ thingsS e))
  | .while_ k _ c b => (k, .while_statement) :: (thingsE c ++ thingsS b)
  | .control k _ c e => (k, thingC c) :: thingsO thingsE e
  | .assign k _ _ _ e => (k, .assignment) :: thingsE e
  | .block k _ ss => (k, .block_statement) :: thingsSs ss
  | .call e => thingsE e

def thingsSs : List AStmt → List (Key × Thing)
  | [] => []
  | s :: ss => thingsS s ++ thingsSs ss

end

def thingsP (p : AParam) : List (Key × Thing) := (p.k, .parameter) :: thingsT p.type

def thingsF (f : AFn) : List (Key × Thing) :=
  (f.k, .function) :: (f.params.flatMap thingsP ++ (thingsT f.ret ++ (thingsO thingsE f.requires_ ++ thingsSs f.body)))

def thingsD : ADecl → List (Key × Thing)
  | .const_ k _ _ ty e => (k, .constant) :: (thingsO thingsT ty ++ thingsE e)
  | .staticAssert k _ e => (k, .static_assertion) :: thingsE e
  | .function f => thingsF f

theorem thingsEs_mem {es : List AExpr} {x : Key × Thing} : x ∈ thingsEs es ↔ ∃ e ∈ es, x ∈ thingsE e := by
  induction es with
  | nil => simp [thingsEs]
  | cons e es ih => simp [thingsEs, ih]

theorem thingsSs_mem {ss : List AStmt} {x : Key × Thing} : x ∈ thingsSs ss ↔ ∃ s ∈ ss, x ∈ thingsS s := by
  induction ss with
  | nil => simp [thingsSs]
  | cons e es ih => simp [thingsSs, ih]

theorem thingsO_mem {α : Type} {f : α → List (Key × Thing)} {o : Option α} {x : Key × Thing} :
    x ∈ thingsO f o ↔ ∃ a ∈ o, x ∈ f a := by
  cases o <;> simp [thingsO]

theorem key_things (e : AExpr) : (e.key, thingE e) ∈ thingsE e := by
  cases e <;> simp [AExpr.key, thingE, thingsE]

/-! ## Names do not matter -/

mutual

theorem thingsE_strip : (e : AExpr) → thingsE (stripE e) = thingsE e
  | .literal .. => rfl
  | .id .. => rfl
  | .conversion _ _ e ty => by simp only [stripE, thingsE, thingsE_strip e, thingsT_strip ty]
  | .ite _ _ l c r => by simp only [stripE, thingsE, thingsE_strip l, thingsE_strip c, thingsE_strip r]
  | .binary _ _ _ l r => by simp only [stripE, thingsE, thingsE_strip l, thingsE_strip r]
  | .prefix _ _ _ e => by simp only [stripE, thingsE, thingsE_strip e]
  | .call _ _ _ _ _ args => by simp only [stripE, thingsE, thingsEs_strip args]

theorem thingsT_strip : (t : AType) → thingsT (stripT t) = thingsT t
  | .base .. => rfl
  | .uint _ _ _ w => by simp only [stripT, thingsT, thingsE_strip w]

theorem thingsEs_strip : (es : List AExpr) → thingsEs (stripEs es) = thingsEs es
  | [] => rfl
  | e :: es => by simp only [stripEs, thingsEs, thingsE_strip e, thingsEs_strip es]

end

theorem thingsOE_strip (o : Option AExpr) : thingsO thingsE (o.map stripE) = thingsO thingsE o := by
  cases o with
  | none => rfl
  | some e => exact thingsE_strip e

theorem thingsOT_strip (o : Option AType) : thingsO thingsT (o.map stripT) = thingsO thingsT o := by
  cases o with
  | none => rfl
  | some e => exact thingsT_strip e

mutual

theorem thingsS_strip : (s : AStmt) → thingsS (stripS s) = thingsS s
  | .const_ _ _ _ ty e => by simp only [stripS, thingsS, thingsOT_strip, thingsE_strip]
  | .let_ _ _ _ ty e => by simp only [stripS, thingsS, thingsOT_strip, thingsOE_strip]
  | .staticAssert _ _ e => by simp only [stripS, thingsS, thingsE_strip]
  | .ifThen _ _ c t => by simp only [stripS, thingsS, thingsE_strip, thingsS_strip t]
  | .ifElse _ _ c t e => by simp only [stripS, thingsS, thingsE_strip, thingsS_strip t, thingsS_strip e]
  | .while_ _ _ c b => by simp only [stripS, thingsS, thingsE_strip, thingsS_strip b]
  | .control _ _ c e => by simp only [stripS, thingsS, thingsOE_strip]
  | .assign _ _ _ _ e => by simp only [stripS, thingsS, thingsE_strip]
  | .block _ _ ss => by simp only [stripS, thingsS, thingsSs_strip ss]
  | .call e => by simp only [stripS, thingsS, thingsE_strip]

theorem thingsSs_strip : (ss : List AStmt) → thingsSs (stripSs ss) = thingsSs ss
  | [] => rfl
  | s :: ss => by simp only [stripSs, thingsSs, thingsS_strip s, thingsSs_strip ss]

end

theorem thingsD_strip (d : ADecl) : thingsD (stripD d) = thingsD d := by
  cases d with
  | const_ => simp only [stripD, thingsD, thingsOT_strip, thingsE_strip]
  | staticAssert => simp only [stripD, thingsD, thingsE_strip]
  | function f =>
    have hp : (f.params.map stripParam).flatMap thingsP = f.params.flatMap thingsP := by
      rw [List.flatMap_map]
      congr 1
      funext p
      simp only [thingsP, stripParam, thingsT_strip]
    simp only [stripD, thingsD, thingsF, stripF, hp, thingsT_strip, thingsOE_strip, thingsSs_strip]

theorem things_strip {ds ds' : List ADecl} (h : ds'.map stripD = ds.map stripD) :
    ds'.flatMap thingsD = ds.flatMap thingsD := by
  have : ∀ l : List ADecl, l.flatMap thingsD = (l.map stripD).flatMap thingsD := by
    intro l
    rw [List.flatMap_map]
    congr 1
    funext d
    exact (thingsD_strip d).symm
  rw [this ds', this ds, h]

/-! ## Places that make errors -/

/-- There is a place in the code that makes an error with this code at such a thing. -/
def Made (code : ACode) (t : Thing) : Prop :=
  ∀ p : Position, ∃ s : Site, s.error.code = codeOf code ∧ s.error.fail.pos = some p ∧ s.error.fail.thing = t ∧
    ∀ c, s.error.cause = some c → ∀ q, c.pos = some q → q = p

/-- The error names something of the tree. -/
def Names (l : List (Key × Thing)) (code : ACode) (k : Key) : Prop := ∃ t, (k, t) ∈ l ∧ Made code t

theorem Names.mono {l l' : List (Key × Thing)} {code : ACode} {k : Key} (h : Names l code k)
    (hs : ∀ x ∈ l, x ∈ l') : Names l' code k := by
  obtain ⟨t, h1, h2⟩ := h
  exact ⟨t, hs _ h1, h2⟩

/-- Give the place: a function of position. -/
theorem made {code : ACode} {t : Thing} (f : Position → Site)
    (h : ∀ p, (f p).error.code = codeOf code ∧ (f p).error.fail.pos = some p ∧ (f p).error.fail.thing = t ∧
      ∀ c, (f p).error.cause = some c → ∀ q, c.pos = some q → q = p) : Made code t := fun p => ⟨f p, h p⟩

/-- The place is made at this thing, all positions are that of the thing. -/
macro "site" f:term : tactic => `(tactic|
  (refine made $f (fun p => ⟨?_, ?_, ?_, ?_⟩) <;>
    simp [Site.error, codeOf, checkCode, Node.info, Place.info, builtinInfo, Entity.info]))

theorem made_execution (x : ExecErr) : Made (.execution x) .function_call_expression := by
  intro p
  refine ⟨.execution x none ⟨p, []⟩ ⟨.literal, p, []⟩, ?_⟩
  cases x <;> simp [Site.error, executionData, codeOf, Place.info, Node.info]

mutual

theorem breaksE_names {ds : List ADecl} {c : Bool} {e : AExpr} {code : ACode} {k : Key} :
    BreaksE ds c e code k → Names (thingsE e) code k
  | .literal _ => ⟨.literal, by simp [thingsE], by site (fun p => .literal ⟨p, []⟩)⟩
  | .param => ⟨.id_expression, by simp [thingsE], by site (fun p => .parameterNotConstant ⟨p, []⟩ ⟨p, []⟩)⟩
  | .variable _ => ⟨.id_expression, by simp [thingsE], by site (fun p => .letNotConstant ⟨p, []⟩ ⟨p, []⟩)⟩
  | .function _ => ⟨.id_expression, by simp [thingsE], by site (fun p => .functionInExpression ⟨p, []⟩ ⟨p, []⟩)⟩
  | .noVariable _ => ⟨.id_expression, by simp [thingsE], by site (fun p => .letUndefined ⟨p, []⟩ ⟨p, []⟩)⟩
  | .noConstant _ => ⟨.id_expression, by simp [thingsE], by site (fun p => .constUndefined ⟨p, []⟩ ⟨p, []⟩)⟩
  | .conversion _ _ _ =>
    ⟨.conversion_expression, by simp [thingsE], by site (fun p => .conversionMismatch ⟨p, []⟩ ⟨p, []⟩)⟩
  | .conversionOperand h => (breaksE_names h).mono (by simp +contextual [thingsE])
  | .conversionType h => (breaksT_names h).mono (by simp +contextual [thingsE])
  | .condition _ _ =>
    ⟨.if_expression, by simp [thingsE], by site (fun p => .ifExprCondition ⟨p, []⟩ ⟨.literal, p, []⟩)⟩
  | .branches (x := x) _ _ _ _ => ⟨.if_expression, by simp [thingsE], by site (fun p => .ifExpr x ⟨p, []⟩)⟩
  | .branchLeft h => (breaksE_names h).mono (by simp +contextual [thingsE])
  | .branchCond h => (breaksE_names h).mono (by simp +contextual [thingsE])
  | .branchRight h => (breaksE_names h).mono (by simp +contextual [thingsE])
  | .logical _ _ _ =>
    ⟨.binary_expression, by simp [thingsE], by site (fun p => .leftNotBool ⟨p, []⟩ ⟨.literal, p, []⟩)⟩
  | .binary (x := x) _ _ _ => ⟨.binary_expression, by simp [thingsE], by site (fun p => .binaryTypes x ⟨p, []⟩)⟩
  | .binaryValue (x := x) _ _ _ => ⟨.binary_expression, by simp [thingsE], by site (fun p => .binaryValue x ⟨p, []⟩)⟩
  | .binaryLeft h => (breaksE_names h).mono (by simp +contextual [thingsE])
  | .binaryRight h => (breaksE_names h).mono (by simp +contextual [thingsE])
  | .pre (x := x) _ _ => ⟨.prefix_expression, by simp [thingsE], by site (fun p => .prefixType x ⟨p, []⟩)⟩
  | .preValue (x := x) _ _ => ⟨.prefix_expression, by simp [thingsE], by site (fun p => .prefixValue x ⟨p, []⟩)⟩
  | .preOperand h => (breaksE_names h).mono (by simp +contextual [thingsE])
  | .builtin (x := x) _ _ =>
    ⟨.function_call_expression, by simp [thingsE], by site (fun p => .builtinTypes x ⟨p, []⟩)⟩
  | .builtinValue (x := x) _ _ =>
    ⟨.function_call_expression, by simp [thingsE], by site (fun p => .builtinValue x ⟨p, []⟩)⟩
  | .argument hm h => (breaksE_names h).mono (fun x hx => by
      simp only [thingsE, List.mem_cons]
      exact .inr (thingsEs_mem.2 ⟨_, hm, hx⟩))
  | .noFunction _ =>
    ⟨.function_call_expression, by simp [thingsE], by site (fun p => .callNonFunction ⟨p, []⟩ ⟨.literal, p, []⟩)⟩
  | .number _ _ => ⟨.function_call_expression, by simp [thingsE], by site (fun p => .argumentCount ⟨p, []⟩ ⟨p, []⟩)⟩
  | .noWidth (a := a) _ _ hz _ _ _ => ⟨thingE a, by
      simp only [thingsE, List.mem_cons]
      exact .inr (thingsEs_mem.2 ⟨_, (List.of_mem_zip hz).1, key_things a⟩),
      by site (fun p => .deduction ⟨thingE a, p, []⟩ ⟨.literal, p, []⟩)⟩
  | .recursion _ => ⟨.function_call_expression, by simp [thingsE], by site (fun p => .unanalyzed ⟨p, []⟩ ⟨p, []⟩)⟩
  | .passed _ _ _ _ _ =>
    ⟨.function_call_expression, by simp [thingsE], by site (fun p => .argumentMismatch ⟨p, []⟩ ⟨p, []⟩)⟩
  | .passedValue (x := x) _ _ _ _ _ =>
    ⟨.function_call_expression, by simp [thingsE], by site (fun p => .argumentConversion x ⟨p, []⟩ ⟨p, []⟩)⟩
  | .execution (x := x) _ => ⟨.function_call_expression, by simp [thingsE], made_execution x⟩

theorem breaksT_names {ds : List ADecl} {t : AType} {code : ACode} {k : Key} :
    BreaksT ds t code k → Names (thingsT t) code k
  | .width h => (breaksE_names h).mono (by simp +contextual [thingsT])
  | .noInteger (w := w) _ _ => ⟨thingE w, by simp [thingsT, key_things],
      by site (fun p => .widthNotInteger ⟨thingE w, p, []⟩)⟩
  | .invalid (w := w) _ _ => ⟨thingE w, by simp [thingsT, key_things],
      by site (fun p => .widthInvalid ⟨thingE w, p, []⟩ 0)⟩

end

theorem breaksC_names {ds : List ADecl} {k : Key} {ty : Option AType} {e : AExpr} {code : ACode} {j : Key}
    (h : BreaksC ds k ty e code j) : Names ((k, .constant) :: (thingsO thingsT ty ++ thingsE e)) code j := by
  cases h with
  | type hm h =>
    refine (breaksT_names h).mono (fun x hx => ?_)
    simp only [List.mem_cons, List.mem_append, thingsO_mem]
    exact .inr (.inl ⟨_, hm, hx⟩)
  | init h => exact (breaksE_names h).mono (by simp +contextual)
  | incompatible => exact ⟨.constant, by simp, by site (fun p => .constMismatch ⟨p, []⟩ ⟨.literal, p, []⟩)⟩
  | value _ _ _ h =>
    rename_i x _ _ _
    exact ⟨.constant, by simp, by site (fun p => .constConversion x ⟨p, []⟩ ⟨.literal, p, []⟩)⟩

theorem breaksA_names {ds : List ADecl} {k : Key} {e : AExpr} {code : ACode} {j : Key}
    (h : BreaksA ds k e code j) : Names ((k, .static_assertion) :: thingsE e) code j := by
  cases h with
  | inner h => exact (breaksE_names h).mono (by simp +contextual)
  | noBool => exact ⟨.static_assertion, by simp, by site (fun p => .assertNotBool ⟨p, []⟩ ⟨.literal, p, []⟩)⟩
  | fails =>
    exact ⟨.static_assertion, by simp, by site (fun p => .assertFalse none ⟨p, []⟩ ⟨.literal, p, []⟩)⟩

theorem breaksB_names {ds : List ADecl} {k : Key} {e : AExpr} {code : ACode} {j : Key} {t : Thing}
    (h : BreaksB ds k e code j) (ht : t = .if_statement ∨ t = .while_statement) : Names ((k, t) :: thingsE e) code j := by
  cases h with
  | inner h => exact (breaksE_names h).mono (by simp +contextual)
  | noBool =>
    refine ⟨t, by simp, ?_⟩
    rcases ht with rfl | rfl
    · site (fun p => .ifCondition ⟨p, []⟩ ⟨.literal, p, []⟩)
    · site (fun p => .whileCondition ⟨p, []⟩ ⟨.literal, p, []⟩)

theorem breaksS_names {ds : List ADecl} {ret : AType} {loop : Bool} {s : AStmt} {code : ACode} {k : Key}
    (h : BreaksS ds ret loop s code k) : Names (thingsS s) code k := by
  induction h with
  | const_ h => exact (breaksC_names h).mono (by simp [thingsS])
  | letType h => exact (breaksT_names h).mono (by simp +contextual [thingsS, thingsO])
  | letInit h => exact (breaksE_names h).mono (by simp +contextual [thingsS, thingsO])
  | letValue => exact ⟨.variable, by simp [thingsS], by site (fun p => .letMismatch ⟨p, []⟩ ⟨.literal, p, []⟩)⟩
  | staticAssert h => exact (breaksA_names h).mono (by simp [thingsS])
  | ifThenCond h => exact (breaksB_names h (.inl rfl)).mono (by simp +contextual [thingsS])
  | ifElseCond h => exact (breaksB_names h (.inl rfl)).mono (by simp +contextual [thingsS])
  | whileCond h => exact (breaksB_names h (.inr rfl)).mono (by simp +contextual [thingsS])
  | ifThen _ ih => exact ih.mono (by simp +contextual [thingsS])
  | ifElseThen _ ih => exact ih.mono (by simp +contextual [thingsS])
  | ifElseElse _ ih => exact ih.mono (by simp +contextual [thingsS])
  | while_ _ ih => exact ih.mono (by simp +contextual [thingsS])
  | break_ => exact ⟨.break_statement, by simp [thingsS, thingC], by site (fun p => .breakOutside ⟨p, []⟩)⟩
  | continue_ => exact ⟨.continue_statement, by simp [thingsS, thingC], by site (fun p => .continueOutside ⟨p, []⟩)⟩
  | noResult => exact ⟨.return_statement, by simp [thingsS, thingC], by site (fun p => .emptyReturn ⟨p, []⟩ ⟨p, []⟩)⟩
  | result => exact ⟨.return_statement, by simp [thingsS, thingC], by site (fun p => .returnMismatch ⟨p, []⟩ ⟨p, []⟩)⟩
  | resultInner h => exact (breaksE_names h).mono (by simp +contextual [thingsS, thingsO])
  | assignParam => exact ⟨.assignment, by simp [thingsS], by site (fun p => .assignParameter ⟨p, []⟩ ⟨p, []⟩)⟩
  | assignFn => exact ⟨.assignment, by simp [thingsS], by site (fun p => .assignFunction ⟨p, []⟩ ⟨p, []⟩)⟩
  | assignConst => exact ⟨.assignment, by simp [thingsS], by site (fun p => .assignConst ⟨p, []⟩ ⟨p, []⟩)⟩
  | assign => exact ⟨.assignment, by simp [thingsS], by site (fun p => .assignMismatch ⟨p, []⟩ ⟨.literal, p, []⟩)⟩
  | assigned h => exact (breaksE_names h).mono (by simp +contextual [thingsS])
  | block hm _ ih =>
    refine ih.mono (fun x hx => ?_)
    simp only [thingsS, List.mem_cons]
    exact .inr (thingsSs_mem.2 ⟨_, hm, hx⟩)
  | call h => exact (breaksE_names h).mono (by simp +contextual [thingsS])

theorem breaksD_names {ds : List ADecl} {d : ADecl} {code : ACode} {k : Key}
    (h : BreaksD ds d code k) (hc : code ≠ .codegen_call_to_unanalyzed) : Names (thingsD d) code k := by
  cases h with
  | const_ h => exact (breaksC_names h).mono (by simp [thingsD])
  | staticAssert h => exact (breaksA_names h).mono (by simp [thingsD])
  | function h =>
    cases h with
    | param hp h =>
      refine (breaksT_names h).mono (fun x hx => ?_)
      simp only [thingsD, thingsF, List.mem_cons, List.mem_append, List.mem_flatMap, thingsP]
      exact .inr (.inl ⟨_, hp, .inr hx⟩)
    | ret h => exact (breaksT_names h).mono (by simp +contextual [thingsD, thingsF])
    | requires_ hm h =>
      refine (breaksE_names h).mono (fun x hx => ?_)
      simp only [thingsD, thingsF, List.mem_cons, List.mem_append, thingsO_mem]
      exact .inr (.inr (.inr (.inl ⟨_, hm, hx⟩)))
    | @noBool e t hm =>
      refine ⟨thingE e, ?_, by site (fun p => .requiresNotBool ⟨thingE e, p, []⟩ ⟨p, []⟩)⟩
      simp only [thingsD, thingsF, List.mem_cons, List.mem_append, thingsO_mem]
      exact .inr (.inr (.inr (.inl ⟨_, hm, key_things e⟩)))
    | @fails e hm =>
      refine ⟨thingE e, ?_, by site (fun p => .requiresFalse ⟨thingE e, p, []⟩ ⟨p, []⟩)⟩
      simp only [thingsD, thingsF, List.mem_cons, List.mem_append, thingsO_mem]
      exact .inr (.inr (.inr (.inl ⟨_, hm, key_things e⟩)))
    | body hm h =>
      refine (breaksS_names h).mono (fun x hx => ?_)
      simp only [thingsD, thingsF, List.mem_cons, List.mem_append]
      exact .inr (.inr (.inr (.inr (thingsSs_mem.2 ⟨_, hm, hx⟩))))
    | recursion => exact absurd rfl hc

theorem breaks_names {ds : List ADecl} {code : ACode} {k : Key}
    (h : Breaks ds code k) (hc : code ≠ .codegen_call_to_unanalyzed) : Names (ds.flatMap thingsD) code k := by
  obtain ⟨d, hd, h⟩ := h
  exact (breaksD_names h hc).mono (fun x hx => List.mem_flatMap.2 ⟨d, hd, hx⟩)

/-! ## Errors of name lookup -/

/-- If this item is wrong, then the error names something of the tree. -/
def ItemNames (l : List (Key × Thing)) : Item → Prop
  | .use code k _ _ _ _ => Names l code k
  | .define code k _ _ => Names l code k

theorem ItemNames.mono {l l' : List (Key × Thing)} {i : Item} (h : ItemNames l i) (hs : ∀ x ∈ l, x ∈ l') :
    ItemNames l' i := by
  cases i <;> exact Names.mono h hs

theorem ItemNames.fault {l : List (Key × Thing)} {i : Item} (h : ItemNames l i) {e : AErr} (he : i.fault = .err e) :
    Names l e.code e.fail := by
  cases i with
  | use _ _ _ _ _ fatal =>
    simp only [Item.fault] at he
    cases fatal <;> simp at he
    subst he
    exact h
  | define =>
    simp only [Item.fault, Outcome.err.injEq] at he
    subst he
    exact h

theorem ItemNames.inWidth {l : List (Key × Thing)} {i : Item} (h : ItemNames l i) : ItemNames l i.inWidth := by
  cases i <;> exact h

theorem use_names {l : List (Key × Thing)} {code : ACode} {k : Key} {name : Name} {ref : Option Lookup} {ρ : Visible}
    {fatal : Bool} {t : Thing} (h : (k, t) ∈ l) (hm : Made code t) : ItemNames l (.use code k name ref ρ fatal) :=
  ⟨t, h, hm⟩

theorem define_names {l : List (Key × Thing)} {code : ACode} {k : Key} {name : Name} {ρ : Visible}
    {t : Thing} (h : (k, t) ∈ l) (hm : Made code t) : ItemNames l (.define code k name ρ) := ⟨t, h, hm⟩

mutual

theorem itemsE_names {ρ : Visible} : (e : AExpr) → ∀ i ∈ itemsE ρ e, ItemNames (thingsE e) i
  | .literal .., i, h => by simp [itemsE] at h
  | .id .., i, h => by
    simp only [itemsE, List.mem_singleton] at h
    subst h
    exact use_names (t := .id_expression) (by simp [thingsE]) (by site (fun p => .nameUndefined ⟨p, []⟩))
  | .conversion _ _ e ty, i, h => by
    simp only [itemsE, List.mem_append] at h
    rcases h with h | h
    · exact (itemsE_names e i h).mono (by simp +contextual [thingsE])
    · exact (itemsT_names ty i h).mono (by simp +contextual [thingsE])
  | .ite _ _ l c r, i, h => by
    simp only [itemsE, List.mem_append] at h
    rcases h with h | h | h
    · exact (itemsE_names l i h).mono (by simp +contextual [thingsE])
    · exact (itemsE_names c i h).mono (by simp +contextual [thingsE])
    · exact (itemsE_names r i h).mono (by simp +contextual [thingsE])
  | .binary _ _ _ l r, i, h => by
    simp only [itemsE, List.mem_append] at h
    rcases h with h | h
    · exact (itemsE_names l i h).mono (by simp +contextual [thingsE])
    · exact (itemsE_names r i h).mono (by simp +contextual [thingsE])
  | .prefix _ _ _ e, i, h => by
    simp only [itemsE] at h
    exact (itemsE_names e i h).mono (by simp +contextual [thingsE])
  | .call _ _ _ _ _ args, i, h => by
    simp only [itemsE, List.mem_cons] at h
    rcases h with rfl | h
    · exact use_names (t := .function_call_expression) (by simp [thingsE]) (by site (fun p => .callUndefined ⟨p, []⟩))
    · exact (itemsEs_names args i h).mono (by simp +contextual [thingsE])

theorem itemsT_names {ρ : Visible} : (t : AType) → ∀ i ∈ itemsT ρ t, ItemNames (thingsT t) i
  | .base .., i, h => by simp [itemsT] at h
  | .uint _ _ _ w, i, h => by
    simp only [itemsT] at h
    exact (itemsE_names w i h).mono (by simp +contextual [thingsT])

theorem itemsEs_names {ρ : Visible} : (es : List AExpr) → ∀ i ∈ itemsEs ρ es, ItemNames (thingsEs es) i
  | [], i, h => by simp [itemsEs] at h
  | e :: es, i, h => by
    simp only [itemsEs, List.mem_append] at h
    rcases h with h | h
    · exact (itemsE_names e i h).mono (by simp +contextual [thingsEs])
    · exact (itemsEs_names es i h).mono (by simp +contextual [thingsEs])

end

theorem itemsO_names {α : Type} {f : α → List Item} {g : α → List (Key × Thing)} (hf : ∀ a, ∀ i ∈ f a, ItemNames (g a) i)
    (o : Option α) : ∀ i ∈ itemsO f o, ItemNames (thingsO g o) i := by
  cases o with
  | none => intro i h; simp [itemsO] at h
  | some a => exact hf a

mutual

theorem itemsS_names {ρ : Visible} : (s : AStmt) → ∀ i ∈ itemsS ρ s, ItemNames (thingsS s) i
  | .const_ _ _ _ ty e, i, h => by
    simp only [itemsS, List.mem_cons, List.mem_append] at h
    rcases h with rfl | h | h
    · exact define_names (t := .constant) (by simp [thingsS]) (by site (fun p => .defineLocalConst ⟨p, []⟩ (.parameter ⟨p, []⟩)))
    · exact (itemsO_names itemsT_names ty i h).mono (by simp +contextual [thingsS])
    · exact (itemsE_names e i h).mono (by simp +contextual [thingsS])
  | .let_ _ _ _ ty e, i, h => by
    simp only [itemsS, List.mem_cons, List.mem_append] at h
    rcases h with rfl | h | h
    · exact define_names (t := .variable) (by simp [thingsS]) (by site (fun p => .defineVariable ⟨p, []⟩ (.parameter ⟨p, []⟩)))
    · exact (itemsO_names itemsT_names ty i h).mono (by simp +contextual [thingsS])
    · exact (itemsO_names itemsE_names e i h).mono (by simp +contextual [thingsS])
  | .staticAssert _ _ e, i, h => by
    simp only [itemsS] at h
    exact (itemsE_names e i h).mono (by simp +contextual [thingsS])
  | .ifThen _ _ c t, i, h => by
    simp only [itemsS, List.mem_append] at h
    rcases h with h | h
    · exact (itemsE_names c i h).mono (by simp +contextual [thingsS])
    · exact (itemsS_names t i h).mono (by simp +contextual [thingsS])
  | .ifElse _ _ c t e, i, h => by
    simp only [itemsS, List.mem_append] at h
    rcases h with h | h | h
    · exact (itemsE_names c i h).mono (by simp +contextual [thingsS])
    · exact (itemsS_names t i h).mono (by simp +contextual [thingsS])
    · exact (itemsS_names e i h).mono (by simp +contextual [thingsS])
  | .while_ _ _ c b, i, h => by
    simp only [itemsS, List.mem_append] at h
    rcases h with h | h
    · exact (itemsE_names c i h).mono (by simp +contextual [thingsS])
    · exact (itemsS_names b i h).mono (by simp +contextual [thingsS])
  | .control _ _ _ e, i, h => by
    simp only [itemsS] at h
    exact (itemsO_names itemsE_names e i h).mono (by simp +contextual [thingsS])
  | .assign _ _ _ _ e, i, h => by
    simp only [itemsS, List.mem_cons] at h
    rcases h with rfl | h
    · exact use_names (t := .assignment) (by simp [thingsS]) (by site (fun p => .assignUndefined ⟨p, []⟩))
    · exact (itemsE_names e i h).mono (by simp +contextual [thingsS])
  | .block _ _ ss, i, h => by
    simp only [itemsS] at h
    exact (itemsSs_names ss i h).mono (by simp +contextual [thingsS])
  | .call e, i, h => by
    simp only [itemsS] at h
    exact (itemsE_names e i h).mono (by simp +contextual [thingsS])

theorem itemsSs_names {ρ : Visible} : (ss : List AStmt) → ∀ i ∈ itemsSs ρ ss, ItemNames (thingsSs ss) i
  | [], i, h => by simp [itemsSs] at h
  | s :: ss, i, h => by
    simp only [itemsSs, List.mem_append] at h
    rcases h with h | h
    · exact (itemsS_names s i h).mono (by simp +contextual [thingsSs])
    · exact (itemsSs_names ss i h).mono (by simp +contextual [thingsSs])

end

theorem itemsParams_names (ps : List AParam) : ∀ ρ, ∀ i ∈ itemsParams ρ ps, ItemNames (ps.flatMap thingsP) i := by
  induction ps with
  | nil => intro ρ i h; simp [itemsParams] at h
  | cons p ps ih =>
    intro ρ i h
    simp only [itemsParams, List.mem_append] at h
    rcases h with h | h
    · refine ItemNames.mono (l := thingsP p) ?_ (by simp +contextual)
      simp only [itemsParam, List.mem_cons] at h
      rcases h with rfl | h
      · exact define_names (t := .parameter) (by simp [thingsP])
          (by site (fun p => .defineParameter ⟨p, []⟩ (.parameter ⟨p, []⟩)))
      · cases hw : widthName ((p.name, .param p.k) :: ρ) p.type with
        | some x => rw [hw] at h; simp at h
        | none =>
          rw [hw] at h
          simp only [List.mem_map] at h
          obtain ⟨j, hj, rfl⟩ := h
          exact (itemsT_names _ j hj).inWidth.mono (by simp +contextual [thingsP])
    · exact (ih _ i h).mono (by simp +contextual)

theorem itemsD_names {ρ : Visible} (d : ADecl) : ∀ i ∈ itemsD ρ d, ItemNames (thingsD d) i := by
  intro i h
  cases d with
  | const_ k cv name ty e =>
    simp only [itemsD, List.mem_append] at h
    rcases h with h | h
    · exact (itemsO_names itemsT_names ty i h).mono (by simp +contextual [thingsD])
    · exact (itemsE_names e i h).mono (by simp +contextual [thingsD])
  | staticAssert k cv e => exact (itemsE_names e i h).mono (by simp +contextual [thingsD])
  | function f =>
    simp only [itemsD, itemsF, List.mem_append] at h
    rcases h with h | h | h | h
    · exact (itemsParams_names f.params _ i h).mono (by simp +contextual [thingsD, thingsF])
    · exact (itemsT_names f.ret i h).mono (by simp +contextual [thingsD, thingsF])
    · exact (itemsO_names itemsE_names f.requires_ i h).mono (by simp +contextual [thingsD, thingsF])
    · exact (itemsSs_names f.body i h).mono (by simp +contextual [thingsD, thingsF])

theorem itemsGlobal_names (ds : List ADecl) : ∀ ρ, ∀ i ∈ itemsGlobal ρ ds, ItemNames (ds.flatMap thingsD) i := by
  induction ds with
  | nil => intro ρ i h; simp [itemsGlobal] at h
  | cons d ds ih =>
    intro ρ i h
    cases d with
    | const_ k cv name ty e =>
      simp only [itemsGlobal, List.mem_cons] at h
      rcases h with rfl | h
      · exact define_names (t := .constant) (by simp [thingsD])
          (by site (fun p => .defineConst ⟨p, []⟩ (.parameter ⟨p, []⟩)))
      · exact (ih _ i h).mono (by simp +contextual)
    | staticAssert k cv e => exact (ih _ i h).mono (by simp +contextual)
    | function f =>
      simp only [itemsGlobal, List.mem_cons] at h
      rcases h with rfl | h
      · exact define_names (t := .function) (by simp [thingsD, thingsF])
          (by site (fun p => .defineFunction ⟨p, []⟩ (.parameter ⟨p, []⟩)))
      · exact (ih _ i h).mono (by simp +contextual)

theorem items_names (ds : List ADecl) : ∀ i ∈ items ds, ItemNames (ds.flatMap thingsD) i := by
  have hds : ∀ ρ (l : List ADecl), ∀ i ∈ itemsDs ρ l, ItemNames (l.flatMap thingsD) i := by
    intro ρ l
    induction l with
    | nil => intro i h; simp [itemsDs] at h
    | cons d l ih =>
      intro i h
      simp only [itemsDs, List.mem_append] at h
      rcases h with h | h
      · exact (itemsD_names d i h).mono (by simp +contextual)
      · exact (ih i h).mono (by simp +contextual)
  intro i h
  simp only [items, List.mem_append] at h
  rcases h with h | h
  · exact itemsGlobal_names ds _ i h
  · exact hds _ ds i h

/-! ## The tree has the nodes of the parser -/

section

open Build Parse

variable (ns : List Parse.Node)

/-- The thing is at the node with this handle. -/
def At (x : Key × Thing) : Prop := ∃ h n, x.1 = key h ∧ ns[h]? = some n ∧ thingOf n.kind = some x.2

/-- All things are at their nodes. -/
def AllAt (l : List (Key × Thing)) : Prop := ∀ x ∈ l, At ns x

variable {ns}

theorem AllAt.nil : AllAt ns [] := fun _ h => by cases h

theorem AllAt.append {l l' : List (Key × Thing)} (h : AllAt ns l) (h' : AllAt ns l') : AllAt ns (l ++ l') := by
  intro x hx
  rcases List.mem_append.1 hx with hx | hx
  · exact h x hx
  · exact h' x hx

theorem AllAt.cons {l : List (Key × Thing)} {h : Nat} {n : Parse.Node} {t : Thing} (hn : ns[h]? = some n)
    (ht : thingOf n.kind = some t) (hl : AllAt ns l) : AllAt ns ((key h, t) :: l) := by
  intro x hx
  rcases List.mem_cons.1 hx with rfl | hx
  · exact ⟨h, n, rfl, hn, ht⟩
  · exact hl x hx

theorem allAt_all {α : Type} {f : Nat → Outcome Unit α} {g : α → List (Key × Thing)}
    (hf : ∀ h a, f h = .ok a → AllAt ns (g a)) : ∀ (hs : List Handle) (as : List α), all f hs = .ok as →
    AllAt ns (as.flatMap g)
  | [], as, h => by cases h; exact .nil
  | none :: _, as, h => by cases h
  | some i :: hs, as, h => by
    simp only [all, Outcome.bind_eq_ok] at h
    obtain ⟨a, h1, b, h2, h3⟩ := h
    cases h3
    exact (hf _ _ h1).append (allAt_all hf hs b h2)

theorem allAt_optional {α : Type} {f : Nat → Outcome Unit α} {g : α → List (Key × Thing)}
    (hf : ∀ h a, f h = .ok a → AllAt ns (g a)) (h : Handle) (o : Option α) (ho : optional f h = .ok o) :
    AllAt ns (thingsO g o) := by
  cases h with
  | none => cases ho; exact .nil
  | some i =>
    simp only [Build.optional, Outcome.bind_eq_ok] at ho
    obtain ⟨a, h1, h2⟩ := ho
    cases h2
    exact hf _ _ h1

theorem typeWith_at {f : Nat → Outcome Unit AExpr} (hf : ∀ h a, f h = .ok a → AllAt ns (thingsE a)) (h : Nat) (t : AType)
    (ht : typeWith ns f h = .ok t) : AllAt ns (thingsT t) := by
  unfold typeWith at ht
  split at ht
  · next hn => cases ht; exact .cons hn rfl .nil
  · next hn => cases ht; exact .cons hn rfl .nil
  · next hn => cases ht; exact .cons hn rfl .nil
  · next hn =>
    simp only [Outcome.bind_eq_ok] at ht
    obtain ⟨w, h1, h2⟩ := ht
    cases h2
    exact .cons hn rfl (hf _ _ h1)
  · cases ht

theorem thingsEs_flat (es : List AExpr) : thingsEs es = es.flatMap thingsE := by
  induction es with
  | nil => rfl
  | cons e es ih => simp [thingsEs, ih]

theorem thingsSs_flat (ss : List AStmt) : thingsSs ss = ss.flatMap thingsS := by
  induction ss with
  | nil => rfl
  | cons e es ih => simp [thingsSs, ih]

theorem expr_at : ∀ (n h : Nat) (e : AExpr), expr ns n h = .ok e → AllAt ns (thingsE e)
  | 0, h, e, he => by cases he
  | n + 1, h, e, he => by
    unfold expr at he
    split at he
    · next hn => cases he; exact .cons hn rfl .nil
    · next hn => cases he; exact .cons hn rfl .nil
    · next hn =>
      simp only [Outcome.bind_eq_ok] at he
      obtain ⟨a, h1, b, h2, h3⟩ := he
      cases h3
      exact .cons hn rfl ((expr_at n _ _ h1).append (typeWith_at (expr_at n) _ _ h2))
    · next hn =>
      simp only [Outcome.bind_eq_ok] at he
      obtain ⟨a, h1, b, h2, c, h3, h4⟩ := he
      cases h4
      exact .cons hn rfl ((expr_at n _ _ h1).append ((expr_at n _ _ h2).append (expr_at n _ _ h3)))
    · next hn =>
      simp only [Outcome.bind_eq_ok] at he
      obtain ⟨op, -, a, h1, b, h2, h3⟩ := he
      cases h3
      exact .cons hn rfl ((expr_at n _ _ h1).append (expr_at n _ _ h2))
    · next hn =>
      simp only [Outcome.bind_eq_ok] at he
      obtain ⟨op, -, a, h1, h3⟩ := he
      cases h3
      exact .cons hn rfl (expr_at n _ _ h1)
    · next hn =>
      simp only [Outcome.bind_eq_ok] at he
      obtain ⟨a, h1, h3⟩ := he
      cases h3
      refine .cons hn rfl ?_
      rw [thingsEs_flat]
      exact allAt_all (expr_at n) _ _ h1
    · cases he

theorem exprAt_at (h : Nat) (e : AExpr) (he : exprAt ns h = .ok e) : AllAt ns (thingsE e) := expr_at _ _ _ he

theorem typeAt_at (h : Nat) (t : AType) (he : typeAt ns h = .ok t) : AllAt ns (thingsT t) :=
  typeWith_at exprAt_at _ _ he

theorem stmt_at : ∀ (n h : Nat) (s : AStmt), stmt ns n h = .ok s → AllAt ns (thingsS s)
  | 0, h, e, he => by cases he
  | n + 1, h, e, he => by
    unfold stmt at he
    split at he
    · next hn =>
      simp only [Outcome.bind_eq_ok] at he
      obtain ⟨a, h1, b, h2, h3⟩ := he
      cases h3
      exact .cons hn rfl ((allAt_optional typeAt_at _ _ h1).append (exprAt_at _ _ h2))
    · next hn =>
      simp only [Outcome.bind_eq_ok] at he
      obtain ⟨a, h1, b, h2, h3⟩ := he
      cases h3
      exact .cons hn rfl ((allAt_optional typeAt_at _ _ h1).append (allAt_optional exprAt_at _ _ h2))
    · next hn =>
      simp only [Outcome.bind_eq_ok] at he
      obtain ⟨a, h1, h3⟩ := he
      cases h3
      exact .cons hn rfl (exprAt_at _ _ h1)
    · next hn =>
      simp only [Outcome.bind_eq_ok] at he
      obtain ⟨a, h1, b, h2, h3⟩ := he
      cases h3
      exact .cons hn rfl ((exprAt_at _ _ h1).append (stmt_at n _ _ h2))
    · next hn =>
      simp only [Outcome.bind_eq_ok] at he
      obtain ⟨a, h1, b, h2, c, h3, h4⟩ := he
      cases h4
      exact .cons hn rfl ((exprAt_at _ _ h1).append ((stmt_at n _ _ h2).append (stmt_at n _ _ h3)))
    · next hn =>
      simp only [Outcome.bind_eq_ok] at he
      obtain ⟨a, h1, b, h2, h3⟩ := he
      cases h3
      exact .cons hn rfl ((exprAt_at _ _ h1).append (stmt_at n _ _ h2))
    · next hn => cases he; exact .cons hn rfl .nil
    · next hn => cases he; exact .cons hn rfl .nil
    · next hn =>
      simp only [Outcome.bind_eq_ok] at he
      obtain ⟨a, h1, h3⟩ := he
      cases h3
      exact .cons hn rfl (allAt_optional exprAt_at _ _ h1)
    · next hn =>
      simp only [Outcome.bind_eq_ok] at he
      obtain ⟨a, h1, h3⟩ := he
      cases h3
      exact .cons hn rfl (exprAt_at _ _ h1)
    · next hn =>
      simp only [Outcome.bind_eq_ok] at he
      obtain ⟨a, h1, h3⟩ := he
      cases h3
      refine .cons hn rfl ?_
      rw [thingsSs_flat]
      exact allAt_all (stmt_at n) _ _ h1
    · next hn =>
      simp only [Outcome.bind_eq_ok] at he
      obtain ⟨a, h1, h3⟩ := he
      cases h3
      exact exprAt_at _ _ h1
    · cases he

theorem param_at (h : Nat) (p : AParam) (he : param ns h = .ok p) : AllAt ns (thingsP p) := by
  unfold param at he
  split at he
  · next hn =>
    simp only [Outcome.bind_eq_ok] at he
    obtain ⟨a, h1, h3⟩ := he
    cases h3
    exact .cons hn rfl (typeAt_at _ _ h1)
  · cases he

theorem params_at (h : Handle) (ps : List AParam) (he : params ns h = .ok ps) : AllAt ns (ps.flatMap thingsP) := by
  cases h with
  | none => cases he; exact .nil
  | some h =>
    simp only [params] at he
    split at he
    · exact allAt_all param_at _ _ he
    · cases he

theorem function_at (h : Nat) (f : AFn) (he : function ns h = .ok f) : AllAt ns (thingsF f) := by
  unfold function at he
  split at he
  · next hn =>
    simp only [Outcome.bind_eq_ok] at he
    obtain ⟨ps, h1, ret, h2, req, h3, he⟩ := he
    split at he
    · simp only [Outcome.bind_eq_ok] at he
      obtain ⟨ss, h4, h5⟩ := he
      cases h5
      refine .cons hn rfl ((params_at _ _ h1).append ((typeAt_at _ _ h2).append
        ((allAt_optional exprAt_at _ _ h3).append ?_)))
      rw [thingsSs_flat]
      exact allAt_all (stmt_at _) _ _ h4
    · cases he
  · cases he

theorem decl_at (h : Nat) (d : ADecl) (he : decl ns h = .ok d) : AllAt ns (thingsD d) := by
  unfold decl at he
  split at he
  · simp only [Outcome.bind_eq_ok] at he
    obtain ⟨f, h1, h3⟩ := he
    cases h3
    exact function_at _ _ h1
  · next hn =>
    simp only [Outcome.bind_eq_ok] at he
    obtain ⟨a, h1, b, h2, h3⟩ := he
    cases h3
    exact .cons hn rfl ((allAt_optional typeAt_at _ _ h1).append (exprAt_at _ _ h2))
  · next hn =>
    simp only [Outcome.bind_eq_ok] at he
    obtain ⟨a, h1, h3⟩ := he
    cases h3
    exact .cons hn rfl (exprAt_at _ _ h1)
  · cases he

theorem program_at (root : Nat) (ds : List ADecl) (he : program ns root = .ok ds) : AllAt ns (ds.flatMap thingsD) := by
  unfold program at he
  split at he
  · exact allAt_all decl_at _ _ he
  · cases he

end

end Placed

end Bms
