import Verif.Spec.DocErrors
import Verif.Model.DocHtml
import Verif.Lemmas.Positions

/-!
# Where errors of the conversion of documents are
-/

namespace Bms.Bmd

open Spec (Ident)

/-! ## Positions in documents -/

/-- Where a value is. -/
def Value.place : Value → Position
  | .ident p _ => p
  | .number p _ _ _ => p

mutual

/-- All directives and values are at characters of the text that are not line feeds, and all texts are at
characters. -/
def Placed (source : List Char) : Node → Prop
  | .list _ _ children => PlacedAll source children
  | .directive p _ _ _ args block => CharAt source true p ∧
      (∀ a ∈ args, CharAt source true a.2.place) ∧ PlacedBlock source block
  | .text p _ _ => CharAt source false p

/-- All nodes are placed. -/
def PlacedAll (source : List Char) : List Node → Prop
  | [] => True
  | n :: ns => Placed source n ∧ PlacedAll source ns

/-- The block is placed. -/
def PlacedBlock (source : List Char) : Option Node → Prop
  | none => True
  | some n => Placed source n

end

theorem placedAll_iff {source : List Char} {ns : List Node} :
    PlacedAll source ns ↔ ∀ n ∈ ns, Placed source n := by
  induction ns with
  | nil => simp [PlacedAll]
  | cons n ns ih => simp [PlacedAll, ih]

/-- `t` is in the source at `p`. -/
def Within' (source : List Char) (p : Position) (t : List Char) : Prop :=
  ∃ a b, source = a ++ t ++ b ∧ p = after ⟨0, 0, 0⟩ a

theorem after_append' (p : Position) (a b : List Char) : after p (a ++ b) = after (after p a) b := by
  induction a generalizing p with
  | nil => rfl
  | cons c a ih => exact ih _

theorem Within'.inner {source : List Char} {p : Position} {a t b : List Char}
    (h : Within' source p (a ++ t ++ b)) : Within' source (after p a) t := by
  obtain ⟨x, y, h1, rfl⟩ := h
  exact ⟨x ++ a, b ++ y, by rw [h1]; simp, by rw [after_append']⟩

theorem Within'.left {source : List Char} {p : Position} {t b : List Char}
    (h : Within' source p (t ++ b)) : Within' source p t := by
  have := Within'.inner (a := []) (t := t) (b := b) h
  exact this

theorem Within'.right {source : List Char} {p : Position} {a t : List Char}
    (h : Within' source p (a ++ t)) : Within' source (after p a) t := by
  have := Within'.inner (a := a) (t := t) (b := []) (by simpa using h)
  exact this

theorem Within'.char {source : List Char} {p : Position} {c : Char} {t : List Char} {inLine : Bool}
    (h : Within' source p (c :: t)) (hc : inLine = true → c ≠ '\n') : CharAt source inLine p := by
  obtain ⟨x, y, h1, rfl⟩ := h
  exact ⟨x, c, t ++ y, by rw [h1]; simp, rfl, hc⟩

theorem ident_char {t : List Char} (h : Ident t) : ∃ c u, t = c :: u ∧ c ≠ '\n' := by
  cases t with
  | nil => exact h.elim
  | cons c u =>
    refine ⟨c, u, rfl, ?_⟩
    rintro rfl
    exact absurd h.1 (by decide)

theorem literal_char {type : LiteralType} {t : List Char} {v : Int} (h : LiteralText type t v) :
    ∃ c u, t = c :: u ∧ c ≠ '\n' := by
  obtain ⟨m, h, -⟩ := h
  have hp := literal_identPart h
  have hne : t ≠ [] := by cases h <;> simp
  cases t with
  | nil => exact absurd rfl hne
  | cons c u =>
    refine ⟨c, u, rfl, ?_⟩
    rintro rfl
    exact absurd (hp _ (List.mem_cons_self ..)) (by decide)

theorem value_placed {source : List Char} {v : Value} {p : Position} {t : List Char}
    (h : ValueIs v p t) (hw : Within' source p t) : CharAt source true v.place := by
  cases h with
  | ident h =>
    obtain ⟨c, u, rfl, hc⟩ := ident_char h
    exact hw.char fun _ => hc
  | number h =>
    obtain ⟨c, u, rfl, hc⟩ := literal_char h
    exact hw.char fun _ => hc

theorem args_placed {source : List Char} {seen args p t} (h : ArgsIs seen args p t)
    (hw : Within' source p t) : ∀ a ∈ args, CharAt source true a.2.place := by
  induction h with
  | @last seen name v p b1 b2 b3 b4 t _ _ _ _ _ hv _ =>
    intro a ha
    rw [List.mem_singleton.1 ha]
    refine value_placed hv ?_
    have : b1 ++ name ++ b2 ++ '=' :: b3 ++ t ++ b4 ++ [']'] =
      (b1 ++ name ++ b2 ++ '=' :: b3) ++ t ++ (b4 ++ [']']) := by simp
    rw [this] at hw
    exact hw.inner
  | @more seen name v p b1 b2 b3 b4 t args u _ _ _ _ _ hv _ _ ih =>
    intro a ha
    rcases List.mem_cons.1 ha with rfl | ha
    · refine value_placed hv ?_
      have : b1 ++ name ++ b2 ++ '=' :: b3 ++ t ++ b4 ++ ',' :: u =
        (b1 ++ name ++ b2 ++ '=' :: b3) ++ t ++ (b4 ++ ',' :: u) := by simp
      rw [this] at hw
      exact hw.inner
    · refine ih ?_ a ha
      have : b1 ++ name ++ b2 ++ '=' :: b3 ++ t ++ b4 ++ ',' :: u =
        (b1 ++ name ++ b2 ++ '=' :: b3 ++ t ++ b4 ++ [',']) ++ u := by simp
      rw [this] at hw
      exact hw.right

theorem arguments_placed {source : List Char} {args p t} (h : ArgumentsIs args p t)
    (hw : Within' source p t) : ∀ a ∈ args, CharAt source true a.2.place := by
  cases h with
  | none => simp
  | some h => exact args_placed h (Within'.right (a := ['[']) hw)

/-- The nodes of a group. -/
def Group.nodes : Group → List Node
  | .paragraph ns => ns
  | .single n => [n]

theorem joinFront_nodes {P : Node → Prop} {n : Node} {gs : List Group} (hn : P n)
    (h : ∀ g ∈ gs, ∀ m ∈ g.nodes, P m) : ∀ g ∈ joinFront n gs, ∀ m ∈ g.nodes, P m := by
  intro g hg m hm
  unfold joinFront at hg
  split at hg
  · rcases List.mem_cons.1 hg with rfl | hg
    · rcases List.mem_cons.1 hm with rfl | hm
      · exact hn
      · exact h _ (List.mem_cons_self ..) _ hm
    · exact h _ (List.mem_cons_of_mem _ hg) _ hm
  · rcases List.mem_cons.1 hg with rfl | hg
    · rw [List.mem_singleton.1 hm]; exact hn
    · exact h _ hg _ hm

theorem paragraphs_nodes {P : Node → Prop} {nodes : List (Node × Bool)} (h : ∀ n ∈ nodes, P n.1) :
    ∀ g ∈ paragraphs nodes, ∀ m ∈ g.nodes, P m := by
  induction nodes with
  | nil => intro g hg; cases hg
  | cons n ns ih =>
    obtain ⟨n, b⟩ := n
    have ih := ih fun m hm => h m (by simp [hm])
    have hn := h (n, b) (by simp)
    unfold paragraphs
    by_cases hs : standsAlone n = true
    · rw [if_pos hs]
      intro g hg m hm
      rcases List.mem_cons.1 hg with rfl | hg
      · rw [List.mem_singleton.1 hm]; exact hn
      · exact ih g hg m hm
    · rw [if_neg hs]
      by_cases hb : b = true
      · rw [if_pos hb]
        intro g hg m hm
        rcases List.mem_cons.1 hg with rfl | hg
        · rw [List.mem_singleton.1 hm]; exact hn
        · exact ih g hg m hm
      · rw [if_neg hb]
        exact joinFront_nodes hn ih

theorem shows_placed {source : List Char} {lo hi gs ns} (h : Shows lo hi gs ns)
    (hg : ∀ g ∈ gs, ∀ m ∈ g.nodes, Placed source m) : PlacedAll source ns := by
  induction h with
  | nil => exact trivial
  | single _ _ ih =>
    exact ⟨hg _ (List.mem_cons_self ..) _ (by simp [Group.nodes]), ih fun g h => hg g (by simp [h])⟩
  | paragraph _ _ _ ih =>
    refine ⟨?_, ih fun g h => hg g (by simp [h])⟩
    unfold Placed
    exact placedAll_iff.2 (hg _ (List.mem_cons_self ..))

theorem placed_map {source : List Char} {nodes : List (Node × Bool)}
    (h : ∀ n ∈ nodes, Placed source n.1) : PlacedAll source (nodes.map Prod.fst) := by
  rw [placedAll_iff]
  intro n hn
  obtain ⟨m, hm, rfl⟩ := List.mem_map.1 hn
  exact h m hm

theorem series_placed {source : List Char} {ctx nodes p t} (h : Series ctx nodes p t) :
    Within' source p t → ∀ n ∈ nodes, Placed source n.1 := by
  refine Series.rec (motive_1 := fun n p t _ _ => Within' source p t → Placed source n)
    (motive_2 := fun ctx nodes p t _ => Within' source p t → ∀ n ∈ nodes, Placed source n.1)
    (motive_3 := fun ctx b p t _ => Within' source p t → PlacedBlock source b)
    ?_ ?_ ?_ ?_ ?_ ?_ ?_ ?_ ?_ ?_ ?_ h
  · intro p t r ht hw
    unfold Placed
    cases ht' : t with
    | nil => exact absurd ht' ht.nonempty
    | cons c t => rw [ht'] at hw; exact hw.char nofun
  · intro p name type args a block b r h1 h2 h3 h4 h5 h6 h7 ih hw
    unfold Placed
    refine ⟨Within'.char (c := '\\') (t := name ++ a ++ b) (by simpa using hw) (fun _ => by decide), ?_, ?_⟩
    · refine arguments_placed h3 ?_
      exact hw.inner
    · refine ih ?_
      exact hw.right
  · intro _ _ _ n hn; cases hn
  · intro ctx node broken rest p t b u h1 h2 h3 h4 h5 ih1 ih2 hw n hn
    rcases List.mem_cons.1 hn with rfl | hn
    · exact ih1 (Within'.left (b := b ++ u) (by simpa using hw))
    · exact ih2 hw.right n hn
  · intros; exact trivial
  · intro p t h1 h2 hw
    unfold PlacedBlock Placed
    cases ht' : t with
    | nil => exact absurd ht' h2
    | cons c t =>
      rw [ht'] at hw
      exact Within'.char (t := t) (Within'.inner (a := ['{']) (b := ['}']) (by simpa using hw)) nofun
  · intro p b t h1 h2 h3 h4 hw
    unfold PlacedBlock Placed
    cases ht' : t with
    | nil => exact absurd ht' h4.nonempty
    | cons c t =>
      rw [ht'] at hw
      exact Within'.char (t := t) (Within'.inner (a := '{' :: b) (b := ['}']) (by simpa using hw)) nofun
  · intros; exact trivial
  · intro p b t nodes h1 h2 h3 h4 h5 h6 ih hw
    unfold PlacedBlock Placed
    exact placed_map (ih (Within'.inner (a := '{' :: b) (b := ['}']) (by simpa using hw)))
  · intro p b t broken nodes elements h1 h2 h3 h4 h5 h6 ih hw
    unfold PlacedBlock Placed
    exact shows_placed h6 (paragraphs_nodes
      (ih (Within'.inner (a := '{' :: b) (b := ['}']) (by simpa using hw))))
  · intro type p b t broken nodes h1 h2 h3 h4 h5 h6 ih hw
    unfold PlacedBlock Placed
    exact placed_map (ih (Within'.inner (a := '{' :: b) (b := ['}']) (by simpa using hw)))

theorem document_placed {root source} (h : DocumentIs root source) : PlacedBlock source root := by
  cases h with
  | empty _ => exact trivial
  | @content b broken t nodes elements _ _ _ h4 h5 =>
    unfold PlacedBlock Placed
    exact shows_placed h5 (paragraphs_nodes (series_placed h4 ⟨b, [], by simp, rfl⟩))

/-! ## Errors -/

/-- Errors are at places in the text. -/
def Errs {α : Type} (source : List Char) (m : Conversion α) : Prop :=
  ∀ e, m = .err e → CharAt source (decide (e.code ≠ .code_tokenization_failure)) e.pos

variable {α β : Type} {source : List Char}

theorem Errs.ok {a : α} : Errs source (.ok a) := by rintro _ ⟨⟩
theorem Errs.throws : Errs source (.throws : Conversion α) := by rintro _ ⟨⟩
theorem Errs.ub : Errs source (.ub : Conversion α) := by rintro _ ⟨⟩
theorem Errs.err {c : DocCode} {p : Position} (h : CharAt source true p) :
    Errs source (.err ⟨c, p⟩ : Conversion α) := by
  rintro _ ⟨⟩
  obtain ⟨t, d, u, h1, h2, h3⟩ := h
  exact ⟨t, d, u, h1, h2, fun _ => h3 rfl⟩
theorem Errs.bind {m : Conversion α} {f : α → Conversion β} (hm : Errs source m)
    (hf : ∀ a, Errs source (f a)) : Errs source (m >>= f) := by
  intro e he
  cases m with
  | ok a => exact hf a e he
  | err e' => exact hm e (by cases he; rfl)
  | throws => cases he
  | ub => cases he

theorem Errs.wrote {c : Conv} {w : Html HtmlWriter} : Errs source (c.wrote w) := by
  cases w with
  | ok _ => exact Errs.ok
  | err _ => exact Errs.throws
  | throws => exact Errs.throws
  | ub => exact Errs.ub

theorem Errs.call {c : Conv} {calls : List HtmlCall} : Errs source (c.call calls) := Errs.wrote

theorem Errs.assert {b : Bool} : Errs source (Outcome.assert b : Conversion Unit) := by
  cases b
  · exact Errs.throws
  · exact Errs.ok

theorem enum_errs {args : List (List Char × Value)} {key : List Char} {table : List (List Char × α)}
    {code : DocCode} {fallback : α} (h : ∀ a ∈ args, CharAt source true a.2.place) :
    Errs source (enumByAttribute args key table code fallback) := by
  unfold enumByAttribute
  cases hf : findArgument args key with
  | none => exact Errs.ok
  | some v =>
    have hv : CharAt source true v.place := by
      unfold findArgument at hf
      cases hf' : args.find? fun a => a.1 = key with
      | none => rw [hf'] at hf; cases hf
      | some a =>
        rw [hf'] at hf
        cases hf
        exact h a (List.mem_of_find?_eq_some hf')
    cases v with
    | number p _ _ _ => exact Errs.err hv
    | ident p name =>
      dsimp only
      cases byName table name with
      | none => exact Errs.err hv
      | some x => exact Errs.ok

theorem nestedCode_errs {l : Language} {block : Option Node} {c : Conv} (h : PlacedBlock source block) :
    Errs source (convertNestedCode l block c) := by
  match block with
  | none => exact Errs.ok
  | some (.list ..) => exact Errs.throws
  | some (.directive ..) => exact Errs.throws
  | some (.text p _ code) =>
    unfold PlacedBlock Placed at h
    unfold convertNestedCode
    cases l <;> dsimp only
    case bms =>
      cases hb : bmsToHtml c.writer code with
      | ok r =>
        obtain ⟨w, b⟩ := r
        cases b
        · rintro _ ⟨⟩
          simpa using h
        · exact Errs.ok
      | err _ => exact Errs.throws
      | throws => exact Errs.throws
      | ub => exact Errs.ub
    case plaintext => exact Errs.call
    all_goals exact Errs.throws

theorem code_errs {type : DirType} {args : List (List Char × Value)} {block : Option Node} {c : Conv}
    (ha : ∀ a ∈ args, CharAt source true a.2.place) (hb : PlacedBlock source block) :
    Errs source (convertCode type args block c) := by
  unfold convertCode
  exact (enum_errs ha).bind fun _ => Errs.call.bind fun _ => (nestedCode_errs hb).bind fun _ => Errs.call

theorem extension_errs {args : List (List Char × Value)} {c : Conv} :
    Errs source (convertExtension args c) := by
  unfold convertExtension
  split
  · exact Errs.ok
  · exact Errs.throws
  · exact Errs.ok
  · exact Errs.call

theorem instruction_errs {args : List (List Char × Value)} {block : Option Node} {c : Conv}
    (ha : ∀ a ∈ args, CharAt source true a.2.place) :
    Errs source (convertInstruction args block c) := by
  unfold convertInstruction
  refine (enum_errs ha).bind fun arch => ?_
  match block with
  | none => exact Errs.ub
  | some (.list ..) => exact Errs.throws
  | some (.directive ..) => exact Errs.throws
  | some (.text ..) => exact Errs.call.bind fun _ => extension_errs

theorem metadata_errs {p : Position} {type : DirType} {block : Option Node} {c : Conv}
    (h : CharAt source true p) : Errs source (updateMetadata p type block c) := by
  unfold updateMetadata
  cases block with
  | none => exact Errs.ok
  | some b =>
    dsimp only
    split
    · split
      · exact Errs.ok
      · exact Errs.throws
    · split
      · split
        · exact Errs.ok
        · exact Errs.throws
      · exact Errs.err h

theorem metaLoop_errs {ns : List Node} (h : PlacedAll source ns) (title : Option Title) (c : Conv) :
    Errs source (metaLoop title ns c) := by
  induction ns generalizing title c with
  | nil => exact Errs.ok
  | cons n ns ih =>
    cases n with
    | list p len cs => exact Errs.throws
    | text p len s => exact Errs.throws
    | directive p len type name args block =>
      have hp : CharAt source true p := by
        have := h.1
        unfold Placed at this
        exact this.1
      unfold metaLoop
      refine (metadata_errs hp).bind fun c => ?_
      split
      · split
        · exact Errs.err hp
        · exact ih h.2 _ _
      · exact ih h.2 _ _

theorem meta_errs {order} {p : Position} {block : Option Node} {c : Conv} (hp : CharAt source true p)
    (hb : PlacedBlock source block) : Errs source (convertMeta order p block c) := by
  unfold convertMeta
  split
  · exact Errs.err hp
  · match block with
    | none => exact Errs.ok
    | some (.text ..) => exact Errs.throws
    | some (.directive ..) => exact Errs.throws
    | some (.list _ _ children) =>
      unfold PlacedBlock Placed at hb
      refine (metaLoop_errs hb _ _).bind fun r => ?_
      obtain ⟨title, c⟩ := r
      cases title with
      | none => exact Errs.ok
      | some t => exact Errs.call

theorem passthrough_errs {order} {type : DirType} {args : List (List Char × Value)}
    {block : Option Node} {inner : Conv → Conversion Conv} {c : Conv}
    (hi : ∀ c, Errs source (inner c)) :
    Errs source (convertPassthrough order type args block inner c) := by
  unfold convertPassthrough
  refine Errs.assert.bind fun _ => ?_
  split
  · exact Errs.call
  · exact Errs.call.bind fun _ => (hi _).bind fun _ => Errs.call

theorem directive_errs {order} {p : Position} {type : DirType} {args : List (List Char × Value)}
    {block : Option Node} {inner : Conv → Conversion Conv} {c : Conv} (hp : CharAt source true p)
    (ha : ∀ a ∈ args, CharAt source true a.2.place) (hb : PlacedBlock source block)
    (hi : ∀ c, Errs source (inner c)) :
    Errs source (convertDirective order p type args block inner c) := by
  unfold convertDirective
  split
  · exact passthrough_errs hi
  · split
    · exact meta_errs hp hb
    · exact code_errs ha hb
    · exact code_errs ha hb
    · exact instruction_errs ha
    · exact Errs.throws

theorem text_errs {style p len text next} {c : Conv} :
    Errs source (convertText style p len text next c) := by
  unfold convertText
  cases hw : c.writer.writeInnerText text style with
  | ok r =>
    obtain ⟨w, n⟩ := r
    dsimp only
    match next with
    | none => exact Errs.ok
    | some (.text ..) => exact Errs.throws
    | some (.list ..) => exact Errs.throws
    | some (.directive q _ _ _ _ _) =>
      dsimp only
      split
      · exact Errs.ok
      · exact Errs.call
  | err e => exact Errs.throws
  | throws => exact Errs.throws
  | ub => exact Errs.ub

theorem gap_errs {prev n} {c : Conv} : Errs source (gapBehind prev n c) := by
  unfold gapBehind
  split
  · exact Errs.wrote
  · exact Errs.ok

mutual

theorem content_errs {order} (ns : List Node) (c : Conv) (h : PlacedAll source ns) :
    Errs source (convertContent order ns c) := by
  cases ns with
  | nil => unfold convertContent; exact Errs.ok
  | cons n ns =>
    unfold convertContent
    exact (top_errs n c h.1).bind fun c => content_errs ns c h.2

theorem top_errs {order} (n : Node) (c : Conv) (h : Placed source n) :
    Errs source (convertTop order n c) := by
  cases n with
  | list p len children =>
    unfold Placed at h
    unfold convertTop
    exact Errs.assert.bind fun _ => Errs.call.bind fun _ => (children_errs none children _ h).bind
      fun _ => Errs.call
  | text p len s => unfold convertTop; exact Errs.throws
  | directive p len type name args block =>
    unfold Placed at h
    unfold convertTop
    exact Errs.assert.bind fun _ => directive_errs h.1 h.2.1 h.2.2 fun c => block_errs block c h.2.2

theorem children_errs {order} {style : Style} (prev : Option Node) (ns : List Node) (c : Conv)
    (h : PlacedAll source ns) : Errs source (convertChildren order style prev ns c) := by
  cases ns with
  | nil => unfold convertChildren; exact Errs.ok
  | cons n ns =>
    unfold convertChildren
    exact gap_errs.bind fun c => (child_errs n c h.1).bind fun c => children_errs (some n) ns c h.2

theorem child_errs {order} {style : Style} {next : Option Node} (n : Node) (c : Conv)
    (h : Placed source n) : Errs source (convertChild order style next n c) := by
  cases n with
  | list p len children => unfold convertChild; exact Errs.throws
  | text p len s => unfold convertChild; exact text_errs
  | directive p len type name args block =>
    unfold Placed at h
    unfold convertChild
    exact Errs.assert.bind fun _ => directive_errs h.1 h.2.1 h.2.2 fun c => block_errs block c h.2.2

theorem block_errs {order} {style : Style} {ctx : ContentType} (block : Option Node) (c : Conv)
    (h : PlacedBlock source block) : Errs source (convertBlock order style ctx block c) := by
  match block with
  | none => unfold convertBlock; exact Errs.ok
  | some (.text ..) =>
    unfold convertBlock convertInner
    split
    · exact text_errs
    · exact Errs.throws
  | some (.directive ..) => unfold convertBlock convertInner; exact Errs.throws
  | some (.list _ _ children) =>
    unfold PlacedBlock Placed at h
    unfold convertBlock convertInner
    split
    · exact children_errs none children c h
    · split
      · exact content_errs children c h
      · exact Errs.throws

end

/-- Errors of the conversion are at places in the text. -/
theorem doc_errs {order} {options : DocOptions} {root : Option Node} (h : PlacedBlock source root)
    {e : DocError} (he : docToHtml order options root = .err e) :
    e = ⟨.writer_misuse, ⟨0, 0, 0⟩⟩ ∨
      CharAt source (decide (e.code ≠ .code_tokenization_failure)) e.pos := by
  have key : ∀ {α : Type} {m : Conversion α} {f : α → Conversion HtmlWriter},
      Errs source m → (m >>= f) = .err e → (∀ a, f a = .err e →
        e = ⟨.writer_misuse, ⟨0, 0, 0⟩⟩ ∨
          CharAt source (decide (e.code ≠ .code_tokenization_failure)) e.pos) →
      e = ⟨.writer_misuse, ⟨0, 0, 0⟩⟩ ∨
        CharAt source (decide (e.code ≠ .code_tokenization_failure)) e.pos := by
    intro α m f hm h hf
    cases m with
    | ok a => exact hf a h
    | err e' => exact .inr (hm e (by cases h; rfl))
    | throws => cases h
    | ub => cases h
  unfold docToHtml at he
  refine key Errs.call he fun c he => ?_
  refine key ?_ he fun c he => ?_
  · unfold convertRoot
    match root with
    | none => exact Errs.ok
    | some (.text ..) => exact Errs.throws
    | some (.directive ..) => exact Errs.throws
    | some (.list _ _ children) =>
      unfold PlacedBlock Placed at h
      exact content_errs children _ h
  refine key Errs.call he fun c he => ?_
  split at he
  · cases he; exact .inl rfl
  · cases he

end Bms.Bmd
