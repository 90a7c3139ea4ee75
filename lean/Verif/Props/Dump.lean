import Verif.Model.Dump
import Verif.Spec.Dump
import Verif.Lemmas.ParsePlaces
import Verif.Lemmas.Diagnostics
import Verif.Props.ParseNodes
import Verif.Props.Diagnostics

/-!
# C78: places of nodes; C79: what is shown of tokens and trees
-/

namespace Bms

open Spec Diag Parse Output

/-! ## C78 -/

/-- **C78.** Every node of a parsed program is at a token of the program that introduces it, and it has
the number of children that its kind calls for. (Partial: the nodes for lists are not at their first
element, see `C78_lists`.) -/
theorem C78_places_partial {src : List Char} {ts : List Token} {nodes : List Parse.Node} {root : Nat}
    (h : parse src ts = .ok nodes root) :
    ∀ n ∈ nodes, (∃ t ∈ ts, n.pos = t.span ∧ IntroducedBy src nodes n t) ∧ Shaped n :=
  fun n hn => parse_placed h n hn

/-- **C78 for texts.** The place of a node is a part of the text that is not empty. -/
theorem C78_text {src : List Char} {ts : List Token} {nodes : List Parse.Node} {root : Nat}
    (ht : tokenize src = some (ts, .ok ())) (h : parse src ts = .ok nodes root) :
    ∀ n ∈ nodes, 0 < n.pos.length ∧ n.pos.pos.start + n.pos.length ≤ src.length := by
  intro n hn
  obtain ⟨⟨t, hm, hp, -⟩, -⟩ := C78_places_partial h n hn
  rw [hp]
  exact (C19_tokens_ordered ht).1 t hm

/-- The nodes of an accepted text. -/
def nodesOf (src : List Char) : List Parse.Node :=
  match parseText src with
  | .ok nodes _ => nodes
  | _ => []

/-- **C78, violated: lists.** The node for a list of two parameters is at the second one. -/
theorem C78_lists :
    (nodesOf "function f(a: Bool, b: Bool) -> Bool { return a; }".toList).filterMap
      (fun n => if n.kind = .parameter_list then some n.pos else none) = [⟨⟨0, 20, 20⟩, 1⟩] := by
  decide +kernel

/-- A text for which `C78_places_partial` and `C78_text` speak about nodes of many kinds. -/
example : (nodesOf sample).length = 29 ∧ tokenize sample = some (tokensOf sample, .ok ()) := by
  decide +kernel

/-! ## C79: tokens -/

namespace Dump

theorem tokenName_injective : ∀ a b, tokenName a = tokenName b → a = b := by
  intro a b h
  have key : ∀ a, TokenType.all.find? (fun t => tokenName t == tokenName a) = some a := by
    intro a; cases a <;> decide
  have h1 := key a
  rw [h, key b] at h1
  exact (Option.some.inj h1).symm

theorem length_zero_iff (t : TokenType) : t.length = 0 ↔ Variable t := by
  unfold Variable
  cases t <;> decide

theorem seen_padLeft (n : Nat) : padLeft 2 (stdToString n) = cell n := by
  rw [stdToString_decimal]; rfl

theorem printToken_eq {src : List Char} {t : Token} (h : 0 < t.length)
    (h1 : t.pos.start + t.length ≤ src.length) :
    ∃ out line, printToken src t = .ok out ∧ Plain out ∧ seen out = line ∧
      TokenLine (t.pos.line + 1) (t.pos.column + 1) (tokenName t.type) t.type (wordOf src t) line := by
  have hs : Output.substr src t.pos.start t.length = .ok (wordOf src t) := by
    rw [Output.substr, if_neg (by omega)]; rfl
  have hl : (wordOf src t).length = t.length := by
    rw [wordOf, List.length_take, List.length_drop]; omega
  refine ⟨_, _, by rw [printToken, hs]; rfl, ?_, rfl, ?_⟩
  · intro p hp
    simp only [List.mem_append, printTokenText] at hp
    rcases hp with (hp | hp) | hp
    · simp only [List.mem_cons, List.not_mem_nil, or_false] at hp
      rcases hp with rfl | rfl | rfl | rfl | rfl <;> exact ⟨_, rfl⟩
    · by_cases hz : t.type.length = 0
      · rw [if_pos hz] at hp
        by_cases h2 : (wordOf src t).length > 1
        · rw [if_pos h2] at hp
          simp only [List.mem_append, List.mem_cons, List.not_mem_nil, or_false] at hp
          rcases hp with (rfl | rfl | rfl) | rfl | rfl | rfl <;> exact ⟨_, rfl⟩
        · rw [if_neg h2] at hp
          simp only [List.append_nil, List.mem_cons, List.not_mem_nil, or_false] at hp
          rcases hp with rfl | rfl | rfl <;> exact ⟨_, rfl⟩
      · rw [if_neg hz] at hp; exact absurd hp List.not_mem_nil
    · rw [List.mem_singleton.mp hp]; exact ⟨_, rfl⟩
  · by_cases hz : t.type.length = 0
    · by_cases h2 : (wordOf src t).length > 1
      · have := TokenLine.long (line := t.pos.line + 1) (column := t.pos.column + 1)
          (name := tokenName t.type) ((length_zero_iff _).mp hz) h2
        simp only [printTokenText, if_pos hz, if_pos h2, seen_append, seen, lit, seen_padLeft]
        rw [stdToString_decimal]
        simpa using this
      · have := TokenLine.short (line := t.pos.line + 1) (column := t.pos.column + 1)
          (name := tokenName t.type) (text := wordOf src t) ((length_zero_iff _).mp hz) (by omega)
        simp only [printTokenText, if_pos hz, if_neg h2, seen_append, seen, lit, seen_padLeft]
        simpa using this
    · have := TokenLine.fixed (line := t.pos.line + 1) (column := t.pos.column + 1)
          (name := tokenName t.type) (text := wordOf src t) (fun hv => hz ((length_zero_iff _).mpr hv))
      simp only [printTokenText, if_neg hz, seen_append, seen, lit, seen_padLeft]
      simpa using this

theorem printTokens_eq {src : List Char} (ts : List Token)
    (h : ∀ t ∈ ts, 0 < t.length ∧ t.pos.start + t.length ≤ src.length) :
    ∃ out, printTokens src ts = .ok out ∧ Plain out ∧ TokenLines src tokenName ts (seen out) := by
  induction ts with
  | nil => exact ⟨[], rfl, fun a ha => absurd ha List.not_mem_nil, .nil⟩
  | cons t ts ih =>
    obtain ⟨o1, l1, h1, p1, e1, r1⟩ := printToken_eq (h t List.mem_cons_self).1 (h t List.mem_cons_self).2
    obtain ⟨o2, h2, p2, r2⟩ := ih fun t ht => h t (List.mem_cons_of_mem _ ht)
    refine ⟨o1 ++ o2, by rw [printTokens, h1, h2]; rfl, ?_, ?_⟩
    · intro p hp
      rcases List.mem_append.mp hp with hp | hp
      · exact p1 p hp
      · exact p2 p hp
    · rw [seen_append, e1]; exact .cons r1 r2

end Dump

/-- **C79: tokens.** The tokens of a text are shown in order, one line for each, with their place, a name
that tells their type and, if it depends on the program, their text. -/
theorem C79_tokens : ∃ name : TokenType → List Char, (∀ a b, name a = name b → a = b) ∧
    ∀ (src : List Char) (ts : List Token), tokenize src = some (ts, .ok ()) →
      ∃ out, Dump.printTokens src ts = .ok out ∧ Plain out ∧ TokenLines src name ts (seen out) :=
  ⟨Dump.tokenName, Dump.tokenName_injective, fun _ ts h =>
    Dump.printTokens_eq ts (C19_tokens_ordered h).1⟩

/-- What is shown for a text. -/
theorem C79_tokens_sample :
    tokenize "const ab = /**/1;".toList = some (tokensOf "const ab = /**/1;".toList, .ok ()) ∧
    ∃ out, Dump.printTokens "const ab = /**/1;".toList (tokensOf "const ab = /**/1;".toList) = .ok out ∧
      String.ofList (seen out) =
        " 1: 1: keyword_const\n 1: 7: identifier(ab) (2 characters)\n 1:10: assign\n 1:12: block_comment(/**/) (4 characters)\n 1:16: decimal_literal(1)\n 1:17: semicolon\n" := by
  refine ⟨by decide +kernel, ?_⟩
  have : Dump.printTokens "const ab = /**/1;".toList (tokensOf "const ab = /**/1;".toList) = .ok
      (match Dump.printTokens "const ab = /**/1;".toList (tokensOf "const ab = /**/1;".toList) with
        | .ok out => out | _ => []) := by decide +kernel
  exact ⟨_, this, by decide +kernel⟩

/-! ## C79: trees -/

namespace Dump

/-- The children have names. -/
def Named (n : Parse.Node) : Prop := ∀ names, childNames n.kind = some names → n.children.length ≤ names.length

theorem roles_eq (k : Kind) : childNames k = roles k := by
  cases k <;> rfl

theorem childName_ok {k : Kind} {i : Nat} {name : List Char} (h : childName k i = .ok name) :
    name = role k i ∧ ∀ names, childNames k = some names → i < names.length := by
  unfold childName at h
  unfold role
  rw [← roles_eq]
  cases hk : childNames k with
  | none =>
    rw [hk] at h
    cases h
    exact ⟨rfl, fun _ h => nomatch h⟩
  | some names =>
    simp only [hk] at h
    cases hi : names[i]? with
    | none => rw [hi] at h; cases h
    | some x =>
      rw [hi] at h
      cases h
      refine ⟨by simp [hi], fun names' h => ?_⟩
      cases h
      exact (List.getElem?_eq_some_iff.mp hi).1

theorem childName_of {k : Kind} {i : Nat} (h : ∀ names, childNames k = some names → i < names.length) :
    childName k i = .ok (role k i) := by
  unfold childName role
  rw [← roles_eq]
  cases hk : childNames k with
  | none => rfl
  | some names =>
    have := h names hk
    simp [List.getElem?_eq_getElem this]

theorem childName_cases (k : Kind) (i : Nat) : childName k i = .ub ∨ childName k i = .ok (role k i) := by
  cases h : childName k i with
  | ok name => rw [(childName_ok h).1]; exact .inr rfl
  | ub => exact .inl rfl
  | err e =>
    unfold childName at h
    revert h
    cases childNames k with
    | none => intro h; cases h
    | some names => cases hi : names[i]? <;> simp [hi]
  | throws =>
    unfold childName at h
    revert h
    cases childNames k with
    | none => intro h; cases h
    | some names => cases hi : names[i]? <;> simp [hi]

theorem preorder_append {nodes : List Parse.Node} {a ea b eb : List DumpItem} (ha : Preorder nodes a ea)
    (hb : Preorder nodes b eb) : Preorder nodes (a ++ b) (ea ++ eb) := by
  induction ha with
  | nil => exact hb
  | null h ih => exact .null ih
  | node hn h ih => exact .node hn (by rw [List.append_assoc] at ih; exact ih)

theorem itemLines_append {src : List Char} {names : Kind → List Char} {nodes : List Parse.Node} {width : Nat}
    {a b : List DumpItem} {ta tb : List Char} (ha : ItemLines src names nodes width a ta)
    (hb : ItemLines src names nodes width b tb) : ItemLines src names nodes width (a ++ b) (ta ++ tb) := by
  induction ha with
  | nil => exact hb
  | cons h hs ih =>
    rw [List.append_assoc]
    exact .cons h ih

theorem plain_append {a b : Out} (ha : Plain a) (hb : Plain b) : Plain (a ++ b) := fun p hp =>
  (List.mem_append.mp hp).elim (ha p) (hb p)

theorem plain_color (c : Piece) : Plain (color false c) := fun _ h => absurd h List.not_mem_nil

theorem plain_text (s : List Char) : Plain [.text s] := fun p h => ⟨s, List.mem_singleton.mp h⟩

theorem seen_name (name : List Char) (colors : Bool) : seen (printName name colors) = roleText name := by
  unfold printName roleText
  by_cases h : name = []
  · simp [h, seen]
  · simp only [ne_eq, h, not_false_eq_true, if_true, if_false, seen_append, ansiHGreen, ansiBlack, ansiReset, seen_color]
    simp [seen, lit]

theorem plain_name (name : List Char) : Plain (printName name false) := by
  unfold printName
  by_cases h : name = []
  · simp only [h, ne_eq, not_true_eq_false, if_false]; exact fun _ h => absurd h List.not_mem_nil
  · rw [if_pos h]
    exact plain_append (plain_append (plain_append (plain_append (plain_color _) (plain_text _)) (plain_color _))
      (plain_text _)) (plain_color _)

theorem seen_head (i : Nat) (name : List Char) (n : Parse.Node) (text : List Char) (colors : Bool) :
    seen (printHead i name n text colors) =
      decimal i ++ ':' :: roleText name ++ nodeName n.kind ++ '(' :: text ++ ")\n".toList := by
  simp only [printHead, seen_append, seen_name, ansiHBlack, ansiReset, ansiHMagenta, seen_color]
  simp [seen, lit, stdToString_decimal]

theorem plain_head (i : Nat) (name : List Char) (n : Parse.Node) (text : List Char) :
    Plain (printHead i name n text false) := by
  simp only [printHead]
  repeat' first
    | exact plain_color _
    | exact plain_text _
    | exact plain_name _
    | apply plain_append

/-- What is known about the nodes. -/
structure Good (src : List Char) (nodes : List Parse.Node) : Prop where
  below : ∀ (j : Nat) (n : Parse.Node), nodes[j]? = some n → ∀ c : Nat, some c ∈ n.children → c < j
  placed : ∀ n ∈ nodes, ∃ t, n.pos = t.span ∧ IntroducedBy src nodes n t ∧ t.pos.start ≤ src.length

/-- What is known about something that was printed for `items`. -/
structure Walked (src : List Char) (nodes : List Parse.Node) (width : Nat) (colors : Bool)
    (items : List DumpItem) (out : Out) (shown : List DumpItem) : Prop where
  order : Preorder nodes items shown
  lines : ItemLines src nodeName nodes width shown (seen out)
  plain : colors = false → Plain out
  named : ∀ e ∈ shown, ∀ i n, e.handle = some i → nodes[i]? = some n → Named n

/-- What printing of `items` is: it succeeds, or it is undefined because of a child without a name. -/
def Result (src : List Char) (nodes : List Parse.Node) (width : Nat) (colors : Bool)
    (items : List DumpItem) (r : Printed) : Prop :=
  (r = .ub ∧ ∃ n ∈ nodes, ¬ Named n) ∨ ∃ out shown, r = .ok out ∧ Walked src nodes width colors items out shown

theorem printChildren_result {src : List Char} {nodes : List Parse.Node} {width : Nat} {colors : Bool}
    {print : Handle → List Char → Printed} {n : Parse.Node} {level : Nat} (hm : n ∈ nodes) (hs : List Handle)
    (i : Nat) (hi : i + hs.length = n.children.length)
    (hp : ∀ h ∈ hs, ∀ name, Result src nodes width colors [⟨level, name, h⟩] (print h name)) :
    Result src nodes width colors ((hs.zipIdx i).map fun p => ⟨level, role n.kind p.2, p.1⟩)
      (printChildren print n.kind i hs) ∧
    (∀ out, printChildren print n.kind i hs = .ok out → ∀ names, childNames n.kind = some names →
      i ≤ names.length → n.children.length ≤ names.length) := by
  induction hs generalizing i with
  | nil =>
    refine ⟨.inr ⟨[], [], rfl, .nil, .nil, fun _ _ h => absurd h List.not_mem_nil,
      fun _ h => absurd h List.not_mem_nil⟩, fun out _ names _ hle => ?_⟩
    simp only [List.length_nil] at hi
    omega
  | cons h hs ih =>
    obtain ⟨ih1, ih2⟩ := ih (i + 1) (by simp only [List.length_cons] at hi; omega)
      fun h hh => hp h (List.mem_cons_of_mem _ hh)
    have h0 := hp h List.mem_cons_self
    rw [printChildren]
    rcases childName_cases n.kind i with hc | hc
    · refine ⟨.inl ⟨by rw [hc]; rfl, n, hm, fun hn => ?_⟩, fun out ho => by rw [hc] at ho; cases ho⟩
      have : childName n.kind i = .ok (role n.kind i) := childName_of fun names hk => by
        have := hn names hk
        simp only [List.length_cons] at hi
        omega
      rw [hc] at this
      cases this
    · have hlt := (childName_ok hc).2
      rcases h0 (role n.kind i) with ⟨hu, hn⟩ | ⟨o1, s1, e1, w1⟩
      · exact ⟨.inl ⟨by rw [hc]; simp only [bind, Outcome.bind, hu], hn⟩, fun out ho => by
          rw [hc] at ho; simp only [bind, Outcome.bind, hu] at ho; cases ho⟩
      · rcases ih1 with ⟨hu, hn⟩ | ⟨o2, s2, e2, w2⟩
        · exact ⟨.inl ⟨by rw [hc]; simp only [bind, Outcome.bind, e1, hu], hn⟩, fun out ho => by
            rw [hc] at ho; simp only [bind, Outcome.bind, e1, hu] at ho; cases ho⟩
        · refine ⟨.inr ⟨o1 ++ o2, s1 ++ s2, by rw [hc]; simp only [bind, Outcome.bind, e1, e2]; rfl, ?_, ?_, ?_, ?_⟩,
            fun out ho names hk _ => ih2 o2 e2 names hk (hlt names hk)⟩
          · have := preorder_append w1.order w2.order
            simpa [List.zipIdx_cons] using this
          · rw [seen_append]; exact itemLines_append w1.lines w2.lines
          · exact fun hc => plain_append (w1.plain hc) (w2.plain hc)
          · intro e he
            rcases List.mem_append.mp he with he | he
            · exact w1.named e he
            · exact w2.named e he

theorem printNode_result {src : List Char} {nodes : List Parse.Node} {width : Nat} {colors : Bool}
    (hg : Good src nodes) (fuel level : Nat) (h : Handle) (name : List Char)
    (hf : ∀ i, h = some i → i < nodes.length ∧ i + 1 < fuel) (h0 : 0 < fuel) :
    Result src nodes width colors [⟨level, name, h⟩] (printNode src nodes width colors fuel level h name) := by
  induction fuel generalizing level h name with
  | zero => omega
  | succ fuel ih =>
    cases h with
    | none =>
      refine .inr ⟨_, [⟨level, name, none⟩], rfl, .null .nil, ?_, fun hc => ?_, fun e he i n hh => ?_⟩
      · have := ItemLines.cons (width := width) (ItemLine.null (src := src) (names := nodeName) (nodes := nodes)
          (level := level) (r := name)) .nil
        simp only [seen, List.cons_append, seen_append, seen_name, lit]
        simpa using this
      · rw [hc]
        exact plain_append (a := [_]) (plain_text _) (plain_append (plain_name _) (plain_text _))
      · rw [List.mem_singleton.mp he] at hh; cases hh
    | some i =>
      obtain ⟨hi, hlt⟩ := hf i rfl
      obtain ⟨n, hn⟩ : ∃ n, nodes[i]? = some n := ⟨_, List.getElem?_eq_getElem hi⟩
      have hm : n ∈ nodes := List.mem_of_getElem? hn
      obtain ⟨t, hp, ht, hs⟩ := hg.placed n hm
      have he : extract src n.pos = .ok (wordOf src t) := by
        rw [extract, hp, if_pos (by exact hs)]; rfl
      obtain ⟨r1, r2⟩ := printChildren_result (src := src) (width := width) (colors := colors) (level := level + 1) hm
        n.children 0 (by omega) (print := printNode src nodes width colors fuel (level + 1))
        (fun h hh name => ih (level + 1) h name (fun c hc => by
          have := hg.below i n hn c (by rw [← hc]; exact hh)
          omega) (by omega))
      rw [printNode, hn]
      simp only [he, bind, Outcome.bind]
      rcases r1 with ⟨hu, hx⟩ | ⟨out, shown, ho, w⟩
      · exact .inl ⟨by rw [hu], hx⟩
      · rw [ho]
        refine .inr ⟨_, ⟨level, name, some i⟩ :: shown, rfl, ?_, ?_, fun hc => ?_, ?_⟩
        · refine .node hn ?_
          rw [List.append_nil]
          exact w.order
        · have := ItemLines.cons (width := width) (ItemLine.node (src := src) (names := nodeName) (nodes := nodes)
            (level := level) (r := name) hn ht hp) w.lines
          simp only [seen, List.cons_append, seen_append, seen_head]
          simpa using this
        · subst hc
          exact plain_append (a := [_]) (plain_text _) (plain_append (plain_head _ _ _ _) (w.plain rfl))
        · intro e he j m hj hmj
          rcases List.mem_cons.mp he with rfl | he
          · cases hj
            rw [hn] at hmj
            cases hmj
            exact fun names hk => r2 out ho names hk (Nat.zero_le _)
          · exact w.named e he j m hj hmj

/-! ### Every node is shown once -/

/-- The children of a node that was shown. -/
def below (nodes : List Parse.Node) (e : DumpItem) : List Handle :=
  match e.handle with
  | none => []
  | some i => match nodes[i]? with
    | none => []
    | some n => n.children

theorem count_preorder {nodes : List Parse.Node} {items shown : List DumpItem} (h : Preorder nodes items shown)
    (i : Nat) : (shown.map (·.handle)).count (some i) =
      (items.map (·.handle)).count (some i) + (shown.flatMap (below nodes)).count (some i) := by
  induction h with
  | nil => rfl
  | null h ih => simpa [below] using ih
  | @node level r j n rest shown hn h ih =>
    have hk : (dumpKids level n).map (·.handle) = n.children := by
      simp [dumpKids, List.map_map, Function.comp_def, List.zipIdx_map_fst]
    rw [List.map_append, List.count_append, hk] at ih
    simp only [List.map_cons, List.count_cons, List.flatMap_cons, List.count_append, below, hn, ih]
    omega

theorem count_flatMap_zero {α β : Type} [BEq β] [LawfulBEq β] (l : List α) (f : α → List β) (x : β)
    (h : ∀ a ∈ l, (f a).count x = 0) : (l.flatMap f).count x = 0 := by
  induction l with
  | nil => rfl
  | cons a l ih =>
    rw [List.flatMap_cons, List.count_append, h a List.mem_cons_self,
      ih fun a ha => h a (List.mem_cons_of_mem _ ha)]

theorem parent_unique {nodes : List Parse.Node} {x : Handle}
    (h : (nodes.flatMap (·.children)).count x = 1) :
    ∃ (p : Nat) (n : Parse.Node), nodes[p]? = some n ∧ n.children.count x = 1 ∧
      ∀ (q : Nat) (m : Parse.Node), nodes[q]? = some m → q ≠ p → m.children.count x = 0 := by
  induction nodes with
  | nil => simp at h
  | cons a nodes ih =>
    rw [List.flatMap_cons, List.count_append] at h
    by_cases ha : a.children.count x = 0
    · obtain ⟨p, n, h1, h2, h3⟩ := ih (by omega)
      refine ⟨p + 1, n, by simpa using h1, h2, fun q m hq hne => ?_⟩
      cases q with
      | zero => simp at hq; rw [← hq]; exact ha
      | succ q => exact h3 q m (by simpa using hq) (by omega)
    · refine ⟨0, a, rfl, by omega, fun q m hq hne => ?_⟩
      cases q with
      | zero => omega
      | succ q =>
        have hm : m ∈ nodes := List.mem_of_getElem? (by simpa using hq)
        obtain ⟨l1, l2, rfl⟩ := List.append_of_mem hm
        simp only [List.flatMap_append, List.flatMap_cons, List.count_append] at h
        omega

theorem count_below {nodes : List Parse.Node} {x : Handle} {p : Nat} {n : Parse.Node} (hp : nodes[p]? = some n)
    (h1 : n.children.count x = 1) (h2 : ∀ q m, nodes[q]? = some m → q ≠ p → m.children.count x = 0)
    (shown : List DumpItem) :
    (shown.flatMap (below nodes)).count x = (shown.map (·.handle)).count (some p) := by
  induction shown with
  | nil => rfl
  | cons e shown ih =>
    rw [List.flatMap_cons, List.count_append, ih, List.map_cons, List.count_cons]
    obtain ⟨level, r, h⟩ := e
    cases h with
    | none => simp [below]
    | some q =>
      by_cases hq : q = p
      · subst hq; simp only [below, hp, h1]; simp; omega
      · cases hn : nodes[q]? with
        | none => simp [below, hn, hq]
        | some m => simp [below, hn, hq, h2 q m hn hq]

theorem count_once {nodes : List Parse.Node} {root : Nat} {shown : List DumpItem}
    (hr : root + 1 = nodes.length)
    (hc : ∀ i < nodes.length, (nodes.flatMap (·.children)).count (some i) = if i = root then 0 else 1)
    (hb : ∀ (j : Nat) (n : Parse.Node), nodes[j]? = some n → ∀ c : Nat, some c ∈ n.children → c < j)
    (h : Preorder nodes [⟨0, [], some root⟩] shown) (i : Nat) (hi : i < nodes.length) :
    (shown.map (·.handle)).count (some i) = 1 := by
  generalize hd : root - i = d
  induction d using Nat.strongRecOn generalizing i with
  | ind d ih =>
    rw [count_preorder h i]
    have h1 := hc i hi
    by_cases he : i = root
    · subst he
      rw [if_pos rfl] at h1
      rw [count_flatMap_zero]
      · simp
      · intro e _
        unfold below
        cases e.handle with
        | none => rfl
        | some j =>
          cases hn : nodes[j]? with
          | none => simp [hn]
          | some n =>
            obtain ⟨l1, l2, rfl⟩ := List.append_of_mem (List.mem_of_getElem? hn)
            simp only [List.flatMap_append, List.flatMap_cons, List.count_append] at h1
            simp only [hn]
            omega
    · rw [if_neg he] at h1
      obtain ⟨p, n, hp, hp1, hp2⟩ := parent_unique h1
      have hlt : i < p := hb p n hp i (List.count_pos_iff.mp (by omega))
      have hpl : p < nodes.length := (List.getElem?_eq_some_iff.mp hp).1
      rw [count_below hp hp1 hp2, ih (root - p) (by omega) p hpl rfl]
      rw [List.map_singleton, List.count_singleton, if_neg]
      intro hx
      exact he (Option.some.inj (beq_iff_eq.mp hx)).symm

/-- The names of the kinds. -/
def kindNames : List (List Char) :=
  ["Program", "Function", "Parameter_List", "Parameter", "Type", "Const", "Let", "Static_Assert",
    "Attribute_List", "Attribute", "Annotation_Argument", "If_Statement", "While_Statement", "Break",
    "Continue", "Return_Statement", "Assignment", "Block_Statement", "Conversion_Expression",
    "If_Expression", "Binary_Expression", "Prefix_Expression", "Function_Call_Expression", "Id_Expression",
    "Literal"].map String.toList

theorem nodeName_eq (a : Kind) : kindNames[a.ctorIdx]? = some (nodeName a) := by
  cases a <;> rfl

theorem nodeName_iff (a b : Kind) : nodeName a = nodeName b ↔ a.ctorIdx = b.ctorIdx := by
  constructor
  · intro h
    have ha := nodeName_eq a
    rw [h, ← nodeName_eq b] at ha
    have hb := nodeName_eq b
    have hn : ∀ i < kindNames.length, ∀ j < kindNames.length, kindNames[i]? = kindNames[j]? → i = j := by
      decide +kernel
    exact hn _ (by rw [ha, hb] at *; exact (List.getElem?_eq_some_iff.mp (nodeName_eq a)).1) _
      (List.getElem?_eq_some_iff.mp hb).1 ha
  · intro h
    have ha := nodeName_eq a
    rw [h, nodeName_eq b] at ha
    exact (Option.some.inj ha).symm

end Dump

/-- The annotations have at most one argument. -/
def FewArguments (nodes : List Parse.Node) : Prop :=
  ∀ n ∈ nodes, ∀ x, n.kind = .annotation x → n.children.length ≤ 1

namespace Dump

theorem named_iff {n : Parse.Node} (h : Shaped n) :
    Named n ↔ ∀ x, n.kind = .annotation x → n.children.length ≤ 1 := by
  obtain ⟨pos, kind, children⟩ := n
  unfold Named Shaped at *
  cases kind <;> simp_all [childNames, childCount]

theorem good_of_parse {src : List Char} {ts : List Token} {nodes : List Parse.Node} {root : Nat}
    (ht : tokenize src = some (ts, .ok ())) (h : parse src ts = .ok nodes root) : Good src nodes :=
  ⟨(C52_tree h).2.2, fun n hn => by
    obtain ⟨⟨t, hm, hp, hi⟩, -⟩ := C78_places_partial h n hn
    exact ⟨t, hp, hi, by have := (C19_tokens_ordered ht).1 t hm; omega⟩⟩

end Dump

/-- **C79: trees.** If annotations have at most one argument, the tree of a program is shown with each
node once and in preorder: each line has the indentation of the node's level, its handle, what it is for
its parent, a name that tells its kind, and the text of the token that introduces it. Without colours
there are no escape sequences. (Partial: see `C79_arguments`.) -/
theorem C79_tree_partial : ∃ names : Kind → List Char,
    (∀ a b, names a = names b ↔ a.ctorIdx = b.ctorIdx) ∧
    ∀ (src : List Char) (ts : List Token) (nodes : List Parse.Node) (root width : Nat) (colors : Bool),
      tokenize src = some (ts, .ok ()) → parse src ts = .ok nodes root → FewArguments nodes →
      ∃ out shown, Dump.printProgram src nodes root width colors = .ok out ∧
        Preorder nodes [⟨0, [], some root⟩] shown ∧ ItemLines src names nodes width shown (seen out) ∧
        (∀ i < nodes.length, (shown.map (·.handle)).count (some i) = 1) ∧
        (colors = false → Plain out) := by
  refine ⟨Dump.nodeName, Dump.nodeName_iff, fun src ts nodes root width colors ht h hf => ?_⟩
  obtain ⟨h1, h2, h3⟩ := C52_tree h
  rcases Dump.printNode_result (width := width) (colors := colors) (Dump.good_of_parse ht h) (nodes.length + 2) 0
    (some root) [] (fun i hi => by cases hi; omega) (by omega) with ⟨-, n, hn, hx⟩ | ⟨out, shown, ho, w⟩
  · exact absurd ((Dump.named_iff (C78_places_partial h n hn).2).mpr (hf n hn)) hx
  · exact ⟨out, shown, ho, w.order, w.lines, Dump.count_once h1 h2 h3 w.order, w.plain⟩

/-- **C79, violated: annotations.** The behaviour is undefined if an annotation has two arguments, for
every such program. -/
theorem C79_arguments {src : List Char} {ts : List Token} {nodes : List Parse.Node} {root width : Nat}
    {colors : Bool} (ht : tokenize src = some (ts, .ok ())) (h : parse src ts = .ok nodes root) :
    Dump.printProgram src nodes root width colors = .ub ↔ ¬ FewArguments nodes := by
  obtain ⟨h1, h2, h3⟩ := C52_tree h
  constructor
  · intro hu hf
    obtain ⟨_, _, hk⟩ := C79_tree_partial
    obtain ⟨out, _, ho, _⟩ := hk src ts nodes root width colors ht h hf
    rw [hu] at ho
    cases ho
  · intro hf
    rcases Dump.printNode_result (width := width) (colors := colors) (Dump.good_of_parse ht h) (nodes.length + 2) 0
      (some root) [] (fun i hi => by cases hi; omega) (by omega) with ⟨hu, -⟩ | ⟨out, shown, ho, w⟩
    · exact hu
    · refine absurd (fun n hn => ?_) hf
      obtain ⟨i, hi, rfl⟩ := List.getElem_of_mem hn
      have hc := Dump.count_once h1 h2 h3 w.order i hi
      obtain ⟨e, he, hh⟩ := List.mem_map.mp (List.count_pos_iff.mp (by omega : 0 < (shown.map (·.handle)).count (some i)))
      exact (Dump.named_iff (C78_places_partial h _ hn).2).mp
        (w.named e he i _ hh (List.getElem?_eq_getElem hi))

/-- Whether the annotations of a text have few arguments, and what is shown for it. -/
def shownFor (src : List Char) (width : Nat) : Option (List Char) :=
  match parseText src with
  | .ok nodes root => match Dump.printProgram src nodes root width false with
    | .ok out => some (seen out)
    | _ => none
  | _ => none

/-- What is shown for a program with an annotation. -/
theorem C79_tree_sample : (shownFor "@a(1) const x = y + 1;".toList 2).map String.ofList = some
    "7:Program(const)\n  6:Const(const)\n    4:annotations=Attribute_List(@)\n      1:Attribute(@)\n        0:type=Annotation_Argument(1)\n    type=null\n    5:initializer=Binary_Expression(+)\n      2:left=Id_Expression(y)\n      3:right=Literal(1)\n" ∧
    ∀ n ∈ nodesOf "@a(1) const x = y + 1;".toList, n.kind = .annotation ['a'] → n.children.length = 1 := by
  decide +kernel

/-- A program with two arguments (for `C79_arguments`). -/
theorem C79_arguments_sample :
    tokenize "@a(1, 2) const x = 1;".toList = some (tokensOf "@a(1, 2) const x = 1;".toList, .ok ()) ∧
    nodesOf "@a(1, 2) const x = 1;".toList ≠ [] ∧ shownFor "@a(1, 2) const x = 1;".toList 2 = none ∧
    ¬ FewArguments (nodesOf "@a(1, 2) const x = 1;".toList) := by
  refine ⟨by decide +kernel, by decide +kernel, by decide +kernel, fun h => ?_⟩
  have : ∀ n ∈ nodesOf "@a(1, 2) const x = 1;".toList, n.kind = .annotation ['a'] → n.children.length ≤ 1 :=
    fun n hn => h n hn ['a']
  exact absurd this (by decide +kernel)

/-! ## C79: documents -/

namespace Dump

theorem visible_pos (c : Char) : 0 < (visible c).length := by
  unfold visible
  split <;> exact Nat.succ_pos _

theorem cutOff_seen (m : Nat) (colors : Bool) (text : List Char) (n : Nat) :
    (seen (printCutOff m colors n text) = text.flatMap visible ∧
      ∀ k < text.length, n + ((text.take k).flatMap visible).length < m) ∨
    ∃ a b, text = a ++ b ∧ b ≠ [] ∧ seen (printCutOff m colors n text) = a.flatMap visible ++ " ...".toList ∧
      m ≤ n + (a.flatMap visible).length ∧ ∀ k < a.length, n + ((a.take k).flatMap visible).length < m := by
  induction text generalizing n with
  | nil => exact .inl ⟨rfl, fun k hk => absurd hk (Nat.not_lt_zero _)⟩
  | cons c cs ih =>
    by_cases hm : n ≥ m
    · refine .inr ⟨[], c :: cs, rfl, by simp, ?_, by simpa using hm, fun k hk => absurd hk (Nat.not_lt_zero _)⟩
      simp only [printCutOff, if_pos hm, seen_append, ansiHBlack, ansiReset, seen_color]
      rfl
    · have key : seen (printCutOff m colors n (c :: cs)) =
          visible c ++ seen (printCutOff m colors (n + (visible c).length) cs) := by
        rw [printCutOff, if_neg hm]
        by_cases h1 : c = '\r'
        · subst h1
          simp only [if_true, seen_append, ansiHRed, ansiReset, seen_color]
          rfl
        · rw [if_neg h1]
          by_cases h2 : c = '\t'
          · subst h2
            simp only [if_true, seen_append, ansiHRed, ansiReset, seen_color]
            rfl
          · rw [if_neg h2]
            by_cases h3 : c = '\n'
            · subst h3
              simp only [if_true, seen_append, ansiHRed, ansiReset, seen_color]
              rfl
            · rw [if_neg h3]
              have : visible c = [c] := by
                unfold visible
                split
                · exact absurd rfl h1
                · exact absurd rfl h2
                · exact absurd rfl h3
                · rfl
              rw [this]; rfl
      rcases ih (n + (visible c).length) with ⟨h1, h2⟩ | ⟨a, b, h1, h2, h3, h4, h5⟩
      · refine .inl ⟨by rw [key, h1, List.flatMap_cons], fun k hk => ?_⟩
        cases k with
        | zero => simp only [List.take_zero, List.flatMap_nil, List.length_nil]; omega
        | succ k =>
          have := h2 k (by simpa using hk)
          rw [List.take_succ_cons, List.flatMap_cons, List.length_append]
          omega
      · refine .inr ⟨c :: a, b, by rw [h1]; rfl, h2, by rw [key, h3, List.flatMap_cons, List.append_assoc], ?_,
          fun k hk => ?_⟩
        · rw [List.flatMap_cons, List.length_append]; omega
        · cases k with
          | zero => simp only [List.take_zero, List.flatMap_nil, List.length_nil]; omega
          | succ k =>
            have := h5 k (by simpa using hk)
            rw [List.take_succ_cons, List.flatMap_cons, List.length_append]
            omega

theorem visible_plain (c : Char) : '\n' ∉ visible c ∧ '\r' ∉ visible c ∧ '\t' ∉ visible c := by
  unfold visible
  split
  · decide
  · decide
  · decide
  · rename_i h1 h2 h3
    simp only [List.mem_singleton]
    exact ⟨fun h => h3 h.symm, fun h => h1 h.symm, fun h => h2 h.symm⟩

end Dump

/-- **C79: texts in documents.** The text of a node is shown in one line: completely, or up to the first
place at which at least `m` characters are shown, followed by dots. -/
theorem C79_cut (m : Nat) (colors : Bool) (text : List Char) :
    let shown := seen (Dump.printCutOff m colors 0 text)
    ('\n' ∉ shown ∧ '\r' ∉ shown ∧ '\t' ∉ shown) ∧
    (shown = text.flatMap visible ∨
      ∃ a b, text = a ++ b ∧ b ≠ [] ∧ shown = a.flatMap visible ++ " ...".toList ∧
        m ≤ (a.flatMap visible).length ∧ (a.flatMap visible).length ≤ m + 1) := by
  have hv : ∀ s : List Char, '\n' ∉ s.flatMap visible ∧ '\r' ∉ s.flatMap visible ∧ '\t' ∉ s.flatMap visible := by
    intro s
    simp only [List.mem_flatMap, not_exists, not_and]
    exact ⟨fun c _ => (Dump.visible_plain c).1, fun c _ => (Dump.visible_plain c).2.1,
      fun c _ => (Dump.visible_plain c).2.2⟩
  have hd : '\n' ∉ " ...".toList ∧ '\r' ∉ " ...".toList ∧ '\t' ∉ " ...".toList := by decide
  rcases Dump.cutOff_seen m colors text 0 with ⟨h1, -⟩ | ⟨a, b, h1, h2, h3, h4, h5⟩
  · simp only [h1]
    exact ⟨hv text, .inl trivial⟩
  · simp only [h3]
    refine ⟨?_, .inr ⟨a, b, h1, h2, rfl, by omega, ?_⟩⟩
    · simp only [List.mem_append, not_or]
      exact ⟨⟨(hv a).1, hd.1⟩, ⟨(hv a).2.1, hd.2.1⟩, ⟨(hv a).2.2, hd.2.2⟩⟩
    · rcases List.eq_nil_or_concat a with rfl | ⟨a', c, rfl⟩
      · simp
      · have := h5 a'.length (by simp)
        rw [List.concat_eq_append, List.take_left] at this
        rw [List.concat_eq_append, List.flatMap_append, List.length_append]
        have hc : (visible c).length ≤ 2 := by unfold visible; split <;> simp
        simp only [List.flatMap_cons, List.flatMap_nil, List.append_nil]
        omega

/-- A text that is cut off, and one that is not. -/
theorem C79_cut_sample :
    String.ofList (seen (Dump.printCutOff 6 true 0 "ab\ncd\nef".toList)) = "ab\\ncd ..." ∧
    String.ofList (seen (Dump.printCutOff 6 true 0 "ab\nc".toList)) = "ab\\nc" := by
  decide

/-- **C79, violated: colours.** There are escape sequences whenever a document that is not blank is shown,
also without colours. -/
theorem C79_colours {order : List (List Char × Bmd.Value) → List (List Char × Bmd.Value)} {src : List Char}
    {n : Bmd.Node} {width m : Nat} {colors : Bool} {out : Out}
    (h : Dump.printDocument order src (some n) width m colors = .ok out) : ¬ Plain out := by
  have line : ∀ {indent : List Char} {name : Out} {p : Position} {len : Nat} {o : Out},
      Dump.printLine src indent name p len m colors = .ok o → ansiReset ∈ o := by
    intro indent name p len o ho
    unfold Dump.printLine at ho
    obtain ⟨text, -, ho⟩ := Outcome.bind_eq_ok.mp ho
    cases ho
    simp
  have hr : ansiReset ∈ out := by
    unfold Dump.printDocument Dump.printDocBlock at h
    cases n with
    | text p len cs => exact line h
    | list p len cs =>
      unfold Dump.printDocNode at h
      obtain ⟨l, hl, h⟩ := Outcome.bind_eq_ok.mp h
      obtain ⟨r, -, h⟩ := Outcome.bind_eq_ok.mp h
      cases h
      exact List.mem_append_left _ (line hl)
    | directive p len ty ident args block =>
      unfold Dump.printDocNode at h
      obtain ⟨l, hl, h⟩ := Outcome.bind_eq_ok.mp h
      obtain ⟨r, -, h⟩ := Outcome.bind_eq_ok.mp h
      obtain ⟨r2, -, h⟩ := Outcome.bind_eq_ok.mp h
      cases h
      exact List.mem_append_left _ (List.mem_append_left _ (line hl))
  intro hp
  obtain ⟨s, hs⟩ := hp _ hr
  cases hs

/-- What is shown for a document. -/
def shownForDocument (src : List Char) : Option (List Char) :=
  match Bmd.parse 100 src with
  | .ok root _ => match Dump.printDocument id src root 2 30 false with
    | .ok out => some (seen out)
    | _ => none
  | _ => none

/-- A document for which `C79_colours` has something to say. The second paragraph is shown with the text
of the heading that is in front of it. -/
theorem C79_document_sample : (shownForDocument "\\h1{a} \n\n b".toList).map String.ofList = some
    "List(\\h1{a} \\n\\n b)\n  \\h1(\\h1{a})\n    List(a)\n      Text(a)\n  List(\\h1{a} \\n\\n b)\n    Text(b)\n" := by
  decide +kernel

end Bms
