import Verif.Lemmas.BmdSound

/-! Soundness of the functions of the BMD parser that make the tree. -/

namespace Bms.Bmd

open Spec (Ident IdentPart IdentStart Literal LowerCase)

/-! ### Paragraphs -/

/-- The paragraph that is pending, as groups. -/
def pendingGroups (par : List Node) : List Group := if par = [] then [] else [.paragraph par]

theorem paragraphs_pending {par : List Node} (h : ∀ x ∈ par, standsAlone x = false)
    (rest : List (Node × Bool)) :
    paragraphs (par.map (fun x => (x, false)) ++ rest) = par.foldr joinFront (paragraphs rest) := by
  induction par with
  | nil => rfl
  | cons x xs ih =>
    have hx := h x (by simp)
    rw [List.map_cons, List.cons_append, paragraphs, hx]
    simp only [Bool.false_eq_true, if_false]
    rw [ih fun y hy => h y (by simp [hy])]
    rfl

theorem foldr_join_single (par : List Node) {gs : List Group}
    (h : ∀ ns gs', gs ≠ .paragraph ns :: gs') : par.foldr joinFront gs = pendingGroups par ++ gs := by
  induction par with
  | nil => rfl
  | cons x xs ih =>
    rw [List.foldr_cons, ih]
    unfold pendingGroups
    rw [if_neg (by simp : x :: xs ≠ [])]
    cases xs with
    | nil =>
      simp only [if_true, List.nil_append]
      unfold joinFront
      split
      · next ns gs' => exact absurd rfl (h ns gs')
      · rfl
    | cons y ys => simp [joinFront]

theorem foldr_join_paragraph (par ns : List Node) (gs : List Group) :
    par.foldr joinFront (.paragraph ns :: gs) = .paragraph (par ++ ns) :: gs := by
  induction par with
  | nil => rfl
  | cons x xs ih => rw [List.foldr_cons, ih]; rfl

theorem paragraphs_end {par : List Node} (h : ∀ x ∈ par, standsAlone x = false) :
    paragraphs (par.map (fun x => (x, false))) = pendingGroups par := by
  have := paragraphs_pending h []
  rw [List.append_nil] at this
  rw [this, foldr_join_single par (by simp [paragraphs])]
  simp [paragraphs]

theorem paragraphs_alone {par : List Node} (h : ∀ x ∈ par, standsAlone x = false) {node : Node}
    (hn : standsAlone node = true) (b : Bool) (rest : List (Node × Bool)) :
    paragraphs (par.map (fun x => (x, false)) ++ (node, b) :: rest)
      = pendingGroups par ++ .single node :: paragraphs rest := by
  rw [paragraphs_pending h, paragraphs, hn]
  simp only [if_true]
  rw [foldr_join_single par (by simp)]

theorem paragraphs_broken {par : List Node} (h : ∀ x ∈ par, standsAlone x = false) {node : Node}
    (hn : standsAlone node = false) (rest : List (Node × Bool)) :
    paragraphs (par.map (fun x => (x, false)) ++ (node, true) :: rest)
      = .paragraph (par ++ [node]) :: paragraphs rest := by
  rw [paragraphs_pending h, paragraphs, hn]
  simp only [Bool.false_eq_true, if_false, if_true]
  rw [foldr_join_paragraph]

theorem shows_append {lo hi : Nat} {gs hs : List Group} {ns ms : List Node} (h : Shows lo hi gs ns)
    (h' : Shows lo hi hs ms) : Shows lo hi (gs ++ hs) (ns ++ ms) := by
  induction h with
  | nil => exact h'
  | single h1 _ ih => exact .single h1 ih
  | paragraph h1 h2 _ ih => exact .paragraph h1 h2 ih

theorem SpanIn.mono {lo hi hi' : Nat} {n : Node} (h : SpanIn lo hi n) (hh : hi ≤ hi') : SpanIn lo hi' n :=
  ⟨h.1, Nat.le_trans h.2 hh⟩

theorem shows_mono {lo hi hi' : Nat} {gs : List Group} {ns : List Node} (h : Shows lo hi gs ns) (hh : hi ≤ hi') :
    Shows lo hi' gs ns := by
  induction h with
  | nil => exact .nil
  | single h1 _ ih => exact .single (h1.mono hh) ih
  | paragraph h1 h2 _ ih => exact .paragraph (h1.mono hh) h2 ih

/-- What the loop of `match_content` has done when it is at `now`: elements, nodes of the paragraph that has begun, and
the place where this is said to begin. -/
structure ParagraphBegun (lo now : Nat) (gs : List Group) (elements par : List Node) (start : Position) : Prop where
  shows : Shows lo now gs elements
  alone : ∀ x ∈ par, standsAlone x = false
  lower : lo ≤ start.start
  upper : start.start ≤ now
  inside : ∀ x ∈ par, SpanIn start.start now x

theorem ParagraphBegun.mono {lo now now' : Nat} {gs : List Group} {elements par : List Node} {start : Position}
    (h : ParagraphBegun lo now gs elements par start) (hh : now ≤ now') : ParagraphBegun lo now' gs elements par start :=
  ⟨shows_mono h.shows hh, h.alone, h.lower, Nat.le_trans h.upper hh, fun x hx => (h.inside x hx).mono hh⟩

theorem ParagraphBegun.add {lo now : Nat} {gs : List Group} {elements par : List Node} {start : Position} {n : Node}
    (h : ParagraphBegun lo now gs elements par start) (hn : standsAlone n = false) (hi : SpanIn start.start now n) :
    ParagraphBegun lo now gs elements (par ++ [n]) start := by
  refine ⟨h.shows, fun x hx => ?_, h.lower, h.upper, fun x hx => ?_⟩ <;> rcases List.mem_append.1 hx with hx | hx
  · exact h.alone x hx
  · rw [List.mem_singleton.1 hx]; exact hn
  · exact h.inside x hx
  · rw [List.mem_singleton.1 hx]; exact hi

theorem shows_break {lo : Nat} {gs : List Group} {elements par : List Node} {start now : Position}
    (h : ParagraphBegun lo now.start gs elements par start) :
    ParagraphBegun lo now.start (gs ++ pendingGroups par) (breakParagraph elements par start now).1 []
      (breakParagraph elements par start now).2 := by
  unfold breakParagraph pendingGroups
  cases par with
  | nil => simpa using h
  | cons x xs =>
    have hu := h.upper
    have he : start.start + (now.start - start.start) = now.start := by omega
    simp only [List.isEmpty_cons, Bool.false_eq_true, if_false, reduceCtorEq]
    refine ⟨shows_append h.shows (.paragraph ⟨h.lower, by simp only [Node.stop]; omega⟩ ?_ .nil), by simp,
      Nat.le_trans h.lower h.upper, Nat.le_refl _, by simp⟩
    rw [he]
    exact h.inside

/-! ### Texts and directives -/

theorem textIs_noBlank {t r : List Char} (h : TextIs t r) : NoBlank (t ++ r) := by
  have hw := h.wordy
  have hne := h.nonempty
  have hf := h.front
  cases hw with
  | nil => exact absurd rfl hne
  | char _ hc _ => exact ⟨by intro d hd; exact hf d (by simpa using hd), hc⟩
  | escape _ _ =>
    exact ⟨by intro d hd; exact hf d (by simpa using hd), not_commentStart_of_ne (by decide) _⟩

theorem noBlank_backslash (t : List Char) : NoBlank ('\\' :: t) :=
  ⟨by intro d hd; simp at hd; subst hd; unfold Space; decide, not_commentStart_of_ne (by decide) _⟩

theorem lowerBound_mem {id : List Char} {l : List (String × DirType)} {e : String × DirType}
    (h : lowerBound id l = some e) : e ∈ l := by
  induction l with
  | nil => cases h
  | cons x xs ih =>
    unfold lowerBound at h
    split at h
    · exact List.mem_cons_of_mem _ (ih h)
    · cases h; exact List.mem_cons_self

theorem byId_found {id : List Char} {type : DirType} (h : directiveTypeById id = .found type) :
    (String.ofList id, type) ∈ directiveTable := by
  unfold directiveTypeById at h
  cases he : lowerBound id directiveTable with
  | none => rw [he] at h; cases h
  | some e =>
    rw [he] at h
    simp only at h
    split at h
    · cases h
    · next hn =>
      cases h
      simp only [ne_eq, not_not] at hn
      rw [← hn, String.ofList_toList]
      exact lowerBound_mem he

theorem matchText_sound {base s : St} (hs : ∀ c, s.rest.head? = some c → ¬ Space c) :
    Sound base (fun v t r => (v = none ∧ t = [] ∧ TextEnds r) ∨
      (v = some (.text s.pos t.length t) ∧ TextIs t r)) s (matchText s) := by
  rcases matchText_res s hs with ⟨h, he⟩ | ⟨t, r, h1, h2, h3⟩
  · rw [h]; exact ⟨[], rfl, rfl, .inl ⟨rfl, rfl, he⟩⟩
  · rw [h3]; exact ⟨t, h1, rfl, .inr ⟨rfl, h2⟩⟩

theorem peekSpace_false {s : St} (h : s.peekSpace = false) :
    ∀ c, s.rest.head? = some c → ¬ Space c := by
  unfold St.peekSpace at h
  intro c hc
  cases hr : s.rest with
  | nil => rw [hr] at hc; cases hc
  | cons d ds =>
    rw [hr] at h hc
    simp at hc h
    subst hc
    rw [← isSpace_iff, h]; simp

/-! ### Blocks -/

theorem matchEmptyBlock_sound {base s : St} (hb : Within base s) (hs : s.rest.head? = some '{')
    {Q : Option Node → List Char → List Char → Prop} : Sound base Q s (matchEmptyBlock s) := by
  obtain ⟨p, rest⟩ := s
  cases rest with
  | nil => cases hs
  | cons c cs =>
    simp only [List.head?_cons, Option.some.injEq] at hs
    subst hs
    have h1 : matchBlank .block ⟨p, '{' :: cs⟩ = .ok false ⟨p, '{' :: cs⟩ := by
      unfold matchBlank
      cases cs with
      | nil => simp [blankLoop, isSpace]
      | cons d ds => simp [blankLoop, isSpace]
    have : matchEmptyBlock ⟨p, '{' :: cs⟩ = .err .directive_must_be_empty .block p := by
      unfold matchEmptyBlock
      rw [run_bind, h1]
      rfl
    rw [this]
    exact hb.located

theorem advance_open (p : Position) : after p ['{'] = p.toRight 1 := by
  rw [after_one]; rfl

theorem advance_close (p : Position) : after p ['}'] = p.toRight 1 := by
  rw [after_one]; rfl

theorem inside_sound {base s : St} {inner : PM (Option Node)}
    {Q : Option Node → List Char → Position → Prop} (hb : Within base s)
    (hi : ∀ s' : St, Sound s' (fun b t r => r = [] → Q b t s'.pos) s' (inner s')) :
    Sound base (fun b u _ => ∃ t, u = '{' :: t ++ ['}'] ∧ Balanced t ∧ t ≠ [] ∧
      Q b t (after s.pos ['{'])) s (matchInsideBlock inner s) := by
  unfold matchInsideBlock
  rw [run_get_bind, run_bind]
  rcases matchRaw_res s with ⟨t, r, h1, h2, h3⟩ | ⟨⟨c, r, q, u, v, h1, h2, h3⟩, -⟩
  · rw [h3]
    split
    · next hif =>
      split at hif
      · cases hif
      · next hne =>
        cases hif
        simp only
        rw [run_set_bind, run_bind]
        have := hi ⟨s.pos.toRight 1, t⟩
        cases hr : inner ⟨s.pos.toRight 1, t⟩ with
        | ok b s' =>
          rw [hr] at this
          obtain ⟨u, h4, h5, h6⟩ := this
          simp only at h4 h5 h6
          simp only [run_get_bind, run_require_bind]
          split
          · next heof =>
            have he : s'.rest = [] := by simpa [St.eof] using heof
            rw [he, List.append_nil] at h4
            subst h4
            have hlen : s'.pos.start - s.pos.start = ('{' :: t).length := by
              rw [h5, after_start]; simp [Position.toRight]; omega
            have hdrop : s.rest.drop ('{' :: t).length = '}' :: r := by
              rw [h1, List.drop_left]
            rw [hlen, hdrop]
            simp only [List.head?_cons, decide_true, if_true, run_set_bind]
            refine ⟨'{' :: t ++ ['}'], by rw [h1]; simp, ?_, t, rfl, h2, hne, ?_⟩
            · show s'.pos.toRight 1 = _
              rw [← advance_close, h5, ← advance_open, ← after_append, ← after_append]
              simp
            · rw [advance_open]; exact h6 he
          · trivial
        | err c rule q =>
          rw [hr] at this
          obtain ⟨u, v, h4, h5, -⟩ := this
          simp only at h4 h5
          refine hb.located' (t := '{' :: u) (u := v ++ '}' :: r) ?_ ?_ (by simp)
          · rw [h1, h4]; simp
          · rw [h5, ← advance_open, ← after_append]; rfl
        | _ => trivial
    · next hif => split at hif <;> cases hif
    · next hif => trivial
    · trivial
    · trivial
  · rw [h1]
    exact hb.located' h2 h3.1 h3.2

theorem matchRawBlock_sound {base s : St} (hb : Within base s) :
    Sound base (fun b u _ => BlockIs .raw b s.pos u ∧ u ≠ [] ∧ u.getLast? = some '}') s
      (matchRawBlock s) := by
  unfold matchRawBlock
  rw [run_bind]
  rcases matchRaw_res s with ⟨t, r, h1, h2, h3⟩ | ⟨⟨c, r, q, u, v, h1, h2, h3⟩, -⟩
  · rw [h3]
    by_cases ht : t = []
    · rw [if_pos ht]; trivial
    · rw [if_neg ht]
      exact ⟨'{' :: t ++ ['}'], by rw [h1]; simp, rfl, .raw h2 ht, by simp,
        by rw [List.getLast?_concat]⟩
  · rw [h1]
    exact hb.located' h2 h3.1 h3.2

/-! ### The statements -/

/-- What `match_directive` returns. -/
def DirectiveQ (context : ContentType) (p : Position) (v : DirType × Node) (t r : List Char) : Prop :=
  Written v.2 p t r ∧ Allowed context v.2 ∧
    ∃ q len name args block, v.2 = .directive q len v.1 name args block

/-- What the block of a directive is, if there is one. -/
def BlockQ (type : ContentType) (p : Position) (b : Option Node) (t _r : List Char) : Prop :=
  BlockIs type b p t ∧ t ≠ []

/-- What the inside of a block is, if all of it is matched. -/
def InsideQ (type : ContentType) (b : Option Node) (t : List Char) (p : Position) : Prop :=
  ∀ q, p = after q ['{'] → Balanced t → t ≠ [] → BlockIs type b q ('{' :: t ++ ['}'])

def ParagraphQ (initial : Position) (elements : List Node) (p : Position) (v : Option Node)
    (t r : List Char) : Prop :=
  (∃ c, r.head? = some c ∧ Space c) ∨
  (r = [] ∧ ∃ b u nodes, t = b ++ u ∧ BlankText b false ∧ NoBlank u ∧
    Series .span nodes (after p b) u ∧ (∀ n ∈ nodes, n.2 = false) ∧
    v = some (.list initial ((after p t).start - initial.start) (elements ++ nodes.map Prod.fst)))

def ContentQ (initial : Position) (gs : List Group) (par : List Node) (p : Position)
    (v : Option Node) (t r : List Char) : Prop :=
  r = [] ∧ ∃ nodes els, Series .block nodes p t ∧
    Shows initial.start (after p t).start (gs ++ paragraphs (par.map (fun x => (x, false)) ++ nodes)) els ∧
    v = some (.list initial ((after p t).start - initial.start) els)

def ContentNextQ (initial : Position) (gs : List Group) (par : List Node) (p : Position)
    (v : Option Node) (t r : List Char) : Prop :=
  r = [] ∧ ∃ b u broken nodes els, t = b ++ u ∧ BlankText b broken ∧ NoBlank u ∧
    Series .block nodes (after p b) u ∧
    Shows initial.start (after p t).start (gs ++ (if broken then pendingGroups par ++ paragraphs nodes
      else paragraphs (par.map (fun x => (x, false)) ++ nodes))) els ∧
    v = some (.list initial ((after p t).start - initial.start) els)

def DirectivesQ (type : ContentType) (initial : Position) (elements : List Node) (p : Position)
    (v : Option Node) (t r : List Char) : Prop :=
  r = [] ∧ ∃ nodes, Series type nodes p t ∧
    v = some (.list initial ((after p t).start - initial.start) (elements ++ nodes.map Prod.fst))

/-- Soundness of all functions within `n` steps. -/
structure AllSound (n : Nat) : Prop where
  content : ∀ {base s : St} initial elements gs par start, Within base s →
    ParagraphBegun initial.start s.pos.start gs elements par start →
    Sound base (ContentQ initial gs par s.pos) s (contentLoop n initial elements par start s)
  next : ∀ {base s : St} initial elements gs par start, Within base s →
    ParagraphBegun initial.start s.pos.start gs elements par start →
    Sound base (ContentNextQ initial gs par s.pos) s (contentNext n initial elements par start s)
  loop : ∀ {base s : St} initial elements, Within base s →
    Sound base (ParagraphQ initial elements s.pos) s (paragraphLoop n initial elements s)
  element : ∀ {base s : St} initial elements, Within base s →
    (∀ c, s.rest.head? = some c → ¬ Space c) →
    Sound base (ParagraphQ initial elements s.pos) s (paragraphElement n initial elements s)
  directive : ∀ {base s : St} context, Within base s →
    Sound base (DirectiveQ context s.pos) s (matchDirective n context s)
  block : ∀ {base s : St} type, Within base s → s.rest.head? = some '{' →
    Sound base (BlockQ type s.pos) s (matchDirectiveContent n type s)
  span : ∀ s : St, Sound s (fun b t r => r = [] → InsideQ .span b t s.pos) s (spanInside n true s)
  text : ∀ s : St,
    Sound s (fun b t r => r = [] → InsideQ .text_span b t s.pos) s (spanInside n false s)
  inside : ∀ s : St, Sound s (fun b t r => r = [] → InsideQ .block b t s.pos) s (blockInside n s)
  directives : ∀ (s : St) type, type = .list ∨ type = .meta_ →
    Sound s (fun b t r => r = [] → InsideQ type b t s.pos) s (directivesInside n type s)
  list : ∀ {base s : St} type initial elements, Within base s →
    Sound base (DirectivesQ type initial elements s.pos) s (directivesLoop n type initial elements s)
  whole : ∀ {base s : St}, Within base s →
    Sound base (ContentQ s.pos [] [] s.pos) s (matchContent n s)
  paragraph : ∀ {base s : St}, Within base s →
    Sound base (ParagraphQ s.pos [] s.pos) s (matchParagraph n s)

theorem start_after (p : Position) (t : List Char) : (after p t).start - p.start = t.length := by
  rw [after_start]; omega

theorem sound_ite_bind {base s : St} {c : Prop} [Decidable c] {x y : PM α} {f : α → PM β}
    {R : β → List Char → List Char → Prop} (h : Sound base R s (((if c then x else y) >>= f) s)) :
    Sound base R s ((if c then x >>= f else y >>= f) s) := by
  by_cases hc : c
  · rw [if_pos hc] at h ⊢; exact h
  · rw [if_neg hc] at h ⊢; exact h

theorem directive_sound {n : Nat} (ih : AllSound n) {base s : St} (context : ContentType)
    (hb : Within base s) :
    Sound base (DirectiveQ context s.pos) s (matchDirective (n + 1) context s) := by
  rw [matchDirective, run_require_bind]
  split
  rotate_left
  · trivial
  rw [run_get_bind]
  refine sound_bind hb (expect_sound _ _ hb) ?_
  rintro _ _ s1 h1 hp1 rfl hb1
  refine sound_bind hb1 (matchIdent_sound hb1) ?_
  rintro ⟨p, name⟩ t2 s2 h2 hp2 ⟨he, hid, hpart⟩ hb2
  cases he
  simp only
  cases htype : directiveTypeById name with
  | ub => trivial
  | missing =>
    simp only
    rw [run_set_bind]
    refine hb.located' (t := ['\\']) (u := s1.rest) h1 ?_
    rw [after_one]
  | found type =>
    simp only
    rw [run_ite]
    split
    · exact hb2.located
    · next hallow =>
      rw [run_get_bind]
      refine sound_ite_bind ?_
      refine sound_bind (Q := fun all t r => ArgumentsIs all s2.pos t ∧ (t = [] → r.head? ≠ some '['))
        hb2 ?_ ?_
      · rw [run_ite]
        split
        · refine sound_mono (matchArguments_sound n hb2) ?_
          rintro all t u - ⟨ha, hne, -⟩
          exact ⟨ha, fun h => absurd h hne⟩
        · next hpeek =>
          refine sound_pure ⟨.none, fun _ h => hpeek ?_⟩
          simp [St.peek, h]
      rintro args a s3 h3 hp3 ⟨ha, hne⟩ hb3
      rw [run_get_bind]
      refine sound_ite_bind ?_
      refine sound_bind (Q := fun b t r => BlockIs (contentTypeOf type) b s3.pos t ∧
        (t = [] → r.head? ≠ some '{')) hb3 ?_ ?_
      · rw [run_ite]
        split
        · next hpeek =>
          refine sound_mono (ih.block _ hb3 (by simpa [St.peek] using hpeek)) ?_
          rintro all t u - ⟨ha, hne⟩
          exact ⟨ha, fun h => absurd h hne⟩
        · next hpeek =>
          refine sound_pure ⟨.none, fun _ h => hpeek ?_⟩
          simp [St.peek, h]
      rintro block b s4 h4 hp4 ⟨hblock, hne'⟩ hb4
      rw [run_get_bind]
      refine sound_pure ?_
      have hlen : s4.pos.start - s.pos.start = ('\\' :: name ++ a ++ b).length := by
        rw [hp4, hp3, hp2, hp1, ← after_append, ← after_append, ← after_append, start_after]
        simp
      rw [hlen]
      refine ⟨?_, ?_, _, _, _, _, _, rfl⟩
      · have := Written.directive (r := s4.rest) hid (byId_found htype) (a := a) (b := b)
          (p := s.pos) (args := args) (block := block) ?_ ?_ ?_ ?_ hne'
        · simpa using this
        · rw [hp2, hp1, ← after_append] at ha; exact ha
        · rw [hp3, hp2, hp1, ← after_append, ← after_append] at hblock
          simpa using hblock
        · rw [List.append_assoc, ← h4, ← h3]; exact hpart
        · intro h; rw [← h4]; exact hne h
      · simpa [Allowed] using hallow

theorem block_sound {n : Nat} (ih : AllSound n) {base s : St} (type : ContentType)
    (hb : Within base s) (hs : s.rest.head? = some '{') :
    Sound base (BlockQ type s.pos) s (matchDirectiveContent (n + 1) type s) := by
  have inner : ∀ (ct : ContentType) (f : PM (Option Node)),
      (∀ s' : St, Sound s' (fun b t r => r = [] → InsideQ ct b t s'.pos) s' (f s')) →
      Sound base (BlockQ ct s.pos) s (matchInsideBlock f s) := by
    intro ct f hf
    refine sound_mono (inside_sound hb hf) ?_
    rintro b _ _ - ⟨t, rfl, hbal, hne, hq⟩
    exact ⟨hq _ rfl hbal hne, by simp⟩
  cases type <;> rw [matchDirectiveContent]
  case nothing => exact matchEmptyBlock_sound hb hs
  case raw =>
    refine sound_mono (matchRawBlock_sound hb) ?_
    rintro b t _ - ⟨h1, h2, -⟩
    exact ⟨h1, h2⟩
  case text_span => exact inner _ _ ih.text
  case span => exact inner _ _ ih.span
  case block => exact inner _ _ ih.inside
  case meta_ => exact inner _ _ fun s => ih.directives s _ (.inr rfl)
  case list => exact inner _ _ fun s => ih.directives s _ (.inl rfl)

theorem element_sound {n : Nat} (ih : AllSound n) {base s : St} (initial : Position)
    (elements : List Node) (hb : Within base s) (hs : ∀ c, s.rest.head? = some c → ¬ Space c) :
    Sound base (ParagraphQ initial elements s.pos) s (paragraphElement (n + 1) initial elements s) := by
  have go : ∀ (node : Node) (t : List Char) (s1 : St), s.rest = t ++ s1.rest →
      s1.pos = after s.pos t → Written node s.pos t s1.rest → Allowed .span node →
      NoBlank s.rest → Within base s1 →
      Sound base (fun v u r => ParagraphQ initial elements s.pos v (t ++ u) r) s1
        (paragraphLoop n initial (elements ++ [node]) s1) := by
    intro node t s1 h1 hp1 hw hal hno hb1
    refine sound_mono (ih.loop initial _ hb1) ?_
    rintro v u r hr (hsp | ⟨rfl, b, w, nodes, rfl, hB, hN, hS, hall, rfl⟩)
    · exact .inl hsp
    · rw [List.append_nil] at hr
      refine .inr ⟨rfl, [], t ++ (b ++ w), (node, false) :: nodes, rfl, blankText_nil, ?_, ?_, ?_, ?_⟩
      · rw [← hr, ← h1]; exact hno
      · rw [hp1, ← after_append] at hS
        rw [hr] at hw
        have := Series.cons hw hal hB hN hS
        simpa [after] using this
      · intro x hx
        rcases List.mem_cons.1 hx with rfl | hx
        · rfl
        · exact hall x hx
      · rw [hp1, ← after_append]; simp
  rw [paragraphElement]
  refine sound_bind hb (matchText_sound hs) ?_
  rintro v t s1 h1 hp1 (⟨rfl, rfl, -⟩ | ⟨rfl, ht⟩) hb1
  · simp only
    have hs1 : s1 = s := by
      obtain ⟨q, w⟩ := s1
      obtain ⟨q', w'⟩ := s
      simp only [List.nil_append, after] at h1 hp1
      rw [h1, hp1]
    subst hs1
    rw [run_get_bind, run_ite]
    split
    · next hpd =>
      refine sound_bind hb (ih.directive .span hb) ?_
      rintro ⟨type, node⟩ t s2 h2 hp2 ⟨hw, hal, -⟩ hb2
      refine go node t s2 h2 hp2 hw hal ?_ hb2
      obtain ⟨u, hu, -⟩ := (possibleDirective_iff _).1 hpd
      rw [hu]; exact noBlank_backslash u
    · exact ih.loop _ _ hb
  · simp only
    exact go _ t s1 h1 hp1 (.text ht) (.inl rfl) (by rw [h1]; exact textIs_noBlank ht) hb1

theorem loop_sound {n : Nat} (ih : AllSound n) {base s : St} (initial : Position)
    (elements : List Node) (hb : Within base s) :
    Sound base (ParagraphQ initial elements s.pos) s (paragraphLoop (n + 1) initial elements s) := by
  rw [paragraphLoop, run_get_bind]
  simp only [run_ite]
  split
  · next heof =>
    have he : s.rest = [] := by simpa [St.eof] using heof
    rw [run_get_bind]
    refine sound_pure (.inr ⟨he, [], [], [], rfl, blankText_nil, ?_, .nil, by simp, by simp [after]⟩)
    exact ⟨by simp, by rintro ⟨u, h | h⟩ <;> cases h⟩
  · split
    · next hsp =>
      refine sound_bind hb (matchBlankRule_sound hb) ?_
      rintro len b s1 h1 hp1 ⟨hB, hlen, hno⟩ hb1
      rw [run_ite]
      split
      · next h0 =>
        have hb0 : b = [] := by cases b with | nil => rfl | cons => simp at hlen; omega
        subst hb0
        rw [run_get_bind]
        refine sound_pure (.inl ?_)
        rw [List.nil_append] at h1
        rw [← h1]
        unfold St.peekSpace at hsp
        cases hr : s.rest with
        | nil => rw [hr] at hsp; simp at hsp
        | cons c cs =>
          rw [hr] at hsp
          simp at hsp
          exact ⟨c, rfl, (isSpace_iff c).1 hsp⟩
      · next h0 =>
        have hb0 : b ≠ [] := by rintro rfl; simp at hlen; exact h0 hlen
        have hN := hno hb0
        refine sound_mono (ih.element initial elements hb1 hN.1) ?_
        rintro v u r hr (hsp | ⟨rfl, b', w, nodes, rfl, hB', hN', hS, hall, rfl⟩)
        · exact .inl hsp
        · rw [List.append_nil] at hr
          have hb' : b' = [] := blankText_of_noBlank hB' (by rw [← hr]; exact hN)
          subst hb'
          refine .inr ⟨rfl, b, w, nodes, by simp, hB, hN', ?_, hall, ?_⟩
          · rw [← hp1]; exact hS
          · rw [hp1, ← after_append]
    · next hsp => exact ih.element initial elements hb (peekSpace_false (by simpa using hsp))

theorem next_sound {n : Nat} (ih : AllSound n) {base s : St} (initial : Position)
    (elements : List Node) (gs : List Group) (par : List Node) (start : Position)
    (hb : Within base s) (hpe : ParagraphBegun initial.start s.pos.start gs elements par start) :
    Sound base (ContentNextQ initial gs par s.pos) s
      (contentNext (n + 1) initial elements par start s) := by
  rw [contentNext]
  refine sound_bind hb (matchBlank_sound _ hb) ?_
  rintro broken b s1 h1 hp1 ⟨hB, hN⟩ hb1
  rw [run_get_bind]
  have hpe1 : ParagraphBegun initial.start s1.pos.start gs elements par start :=
    hpe.mono (by rw [hp1, after_start]; omega)
  cases broken with
  | true =>
    simp only [if_true]
    have hs := shows_break hpe1
    cases hbp : breakParagraph elements par start s1.pos with
    | mk e' st' =>
      rw [hbp] at hs
      simp only at hs ⊢
      refine sound_mono (ih.content initial e' _ [] st' hb1 hs) ?_
      rintro v u r hr ⟨rfl, nodes, els, hS, hsh', rfl⟩
      rw [List.append_nil] at hr
      refine ⟨rfl, b, u, true, nodes, els, rfl, hB, by rw [← hr]; exact hN, ?_, ?_, ?_⟩
      · rw [← hp1]; exact hS
      · rw [hp1, ← after_append] at hsh'
        simpa using hsh'
      · rw [hp1, ← after_append]
  | false =>
    simp only [Bool.false_eq_true, if_false]
    refine sound_mono (ih.content initial elements gs par start hb1 hpe1) ?_
    rintro v u r hr ⟨rfl, nodes, els, hS, hsh', rfl⟩
    rw [List.append_nil] at hr
    refine ⟨rfl, b, u, false, nodes, els, rfl, hB, by rw [← hr]; exact hN, ?_, ?_, ?_⟩
    · rw [← hp1]; exact hS
    · rw [hp1, ← after_append] at hsh'
      simpa using hsh'
    · rw [hp1, ← after_append]

theorem content_sound {n : Nat} (ih : AllSound n) {base s : St} (initial : Position)
    (elements : List Node) (gs : List Group) (par : List Node) (start : Position)
    (hb : Within base s) (hpe : ParagraphBegun initial.start s.pos.start gs elements par start) :
    Sound base (ContentQ initial gs par s.pos) s
      (contentLoop (n + 1) initial elements par start s) := by
  have hpar := hpe.alone
  have moved : ∀ {t : List Char} {s1 : St}, s1.pos = after s.pos t →
      ParagraphBegun initial.start s1.pos.start gs elements par start := by
    intro t s1 hp1
    exact hpe.mono (by rw [hp1, after_start]; omega)
  have span : ∀ {node : Node} {t : List Char} {s1 : St} {r : List Char} {lo hi : Nat}, s1.pos = after s.pos t →
      Written node s.pos t r → s1.pos.start ≤ hi → lo ≤ s.pos.start → SpanIn lo hi node := by
    intro node t s1 r lo hi hp1 hw hh hl
    rw [hp1, after_start] at hh
    cases hw <;> exact ⟨hl, hh⟩
  have cons : ∀ {node : Node} {t : List Char} {s1 : St} {v : Option Node} {u r : List Char}
      {gs' par'}, s.rest = t ++ s1.rest → s1.pos = after s.pos t → Written node s.pos t s1.rest →
      Allowed .block node → s1.rest = u ++ r → ContentNextQ initial gs' par' s1.pos v u r →
      (∀ (broken : Bool) nodes,
        gs' ++ (if broken then pendingGroups par' ++ paragraphs nodes
          else paragraphs (par'.map (fun x => (x, false)) ++ nodes))
        = gs ++ paragraphs (par.map (fun x => (x, false)) ++ (node, broken) :: nodes)) →
      ContentQ initial gs par s.pos v (t ++ u) r := by
    rintro node t s1 v u r gs' par' h1 hp1 hw hal hr ⟨rfl, b, w, broken, nodes, els, rfl, hB, hN, hS,
      hs', rfl⟩ heq
    rw [List.append_nil] at hr
    rw [heq, hp1, ← after_append] at hs'
    refine ⟨rfl, _, els, ?_, hs', ?_⟩
    · rw [hp1, ← after_append] at hS
      rw [hr] at hw
      have := Series.cons hw hal hB hN hS
      simpa using this
    · rw [hp1, ← after_append]
  have inPar : ∀ {node : Node} {t : List Char} {s1 : St}, s.rest = t ++ s1.rest →
      s1.pos = after s.pos t → Written node s.pos t s1.rest → Allowed .block node →
      standsAlone node = false → Within base s1 →
      Sound base (fun v u r => ContentQ initial gs par s.pos v (t ++ u) r) s1
        (contentNext n initial elements (par ++ [node]) start s1) := by
    intro node t s1 h1 hp1 hw hal hst hb1
    refine sound_mono (ih.next initial elements gs (par ++ [node]) start hb1
      ((moved hp1).add hst (span hp1 hw (Nat.le_refl _) hpe.upper))) ?_
    intro v u r hr hq
    refine cons h1 hp1 hw hal hr hq ?_
    intro broken nodes
    congr 1
    cases broken with
    | true => simp [paragraphs_broken hpar hst, pendingGroups]
    | false => simp
  rw [contentLoop, run_get_bind, run_ite]
  split
  · next heof =>
    have he : s.rest = [] := by simpa [St.eof] using heof
    have hs := (shows_break hpe).shows
    cases hbp : breakParagraph elements par start s.pos with
    | mk e' st' =>
      rw [hbp] at hs
      refine sound_pure ⟨he, [], e', .nil, ?_, by simp [after]⟩
      rw [List.append_nil, paragraphs_end hpar]
      exact hs
  · rw [run_require_bind]
    split
    rotate_left
    · trivial
    next hsp =>
    rw [run_ite]
    split
    · refine sound_bind hb (ih.directive .block hb) ?_
      rintro ⟨type, node⟩ t s1 h1 hp1 ⟨hw, hal, q, len, name, args, block, hnode⟩ hb1
      simp only at hw hal hnode
      simp only
      rw [run_get_bind]
      cases henv : environmentOf type with
      | list => exact hb1.located
      | meta_ => exact hb1.located
      | paragraph =>
        simp only
        refine inPar h1 hp1 hw hal ?_ hb1
        rw [hnode]
        simp [standsAlone, henv]
      | content =>
        simp only
        have hst : standsAlone node = true := by
          rw [hnode]; simp [standsAlone, henv]
        have hs := shows_break (moved hp1)
        cases hbp : breakParagraph elements par start s1.pos with
        | mk e' st' =>
          rw [hbp] at hs
          simp only at hs ⊢
          refine sound_mono (ih.next initial _ _ [] st' hb1
            ⟨shows_append hs.shows (.single (node := node)
              (span hp1 hw (Nat.le_refl _) (Nat.le_trans hpe.lower hpe.upper)) .nil),
              by simp, hs.lower, hs.upper, by simp⟩) ?_
          intro v u r hr hq
          refine cons h1 hp1 hw hal hr hq ?_
          intro broken nodes
          rw [paragraphs_alone hpar hst]
          cases broken <;> simp [pendingGroups]
    · refine sound_bind hb (matchText_sound (peekSpace_false (by simpa using hsp))) ?_
      rintro v t s1 h1 hp1 (⟨rfl, rfl, -⟩ | ⟨rfl, ht⟩) hb1
      · trivial
      · simp only
        exact inPar h1 hp1 (.text ht) (.inr rfl) rfl hb1

theorem list_sound {n : Nat} (ih : AllSound n) {base s : St} (type : ContentType) (initial : Position)
    (elements : List Node) (hb : Within base s) :
    Sound base (DirectivesQ type initial elements s.pos) s
      (directivesLoop (n + 1) type initial elements s) := by
  rw [directivesLoop, run_get_bind, run_ite]
  split
  · next heof =>
    have he : s.rest = [] := by simpa [St.eof] using heof
    exact sound_pure ⟨he, [], .nil, by simp [after]⟩
  · rw [run_ite]
    split
    · exact hb.located
    · refine sound_bind hb (ih.directive type hb) ?_
      rintro ⟨_, node⟩ t s1 h1 hp1 ⟨hw, hal, -⟩ hb1
      refine sound_bind hb1 (matchBlank_sound _ hb1) ?_
      rintro broken b s2 h2 hp2 ⟨hB, hN⟩ hb2
      refine sound_mono (ih.list type initial _ hb2) ?_
      rintro v u r hr ⟨rfl, nodes, hS, rfl⟩
      rw [List.append_nil] at hr
      refine ⟨rfl, (node, broken) :: nodes, ?_, ?_⟩
      · rw [hp2, hp1, ← after_append] at hS
        rw [h2, hr] at hw
        rw [hr] at hN
        have := Series.cons hw hal hB hN hS
        simpa using this
      · rw [hp2, hp1, ← after_append, ← after_append]
        simp

theorem directives_sound {n : Nat} (ih : AllSound n) (s : St) (type : ContentType)
    (ht : type = .list ∨ type = .meta_) :
    Sound s (fun b t r => r = [] → InsideQ type b t s.pos) s (directivesInside (n + 1) type s) := by
  have hb := Within.refl s
  rw [directivesInside, run_get_bind]
  refine sound_bind hb (matchBlank_sound _ hb) ?_
  rintro broken b s1 h1 hp1 ⟨hB, hN⟩ hb1
  refine sound_mono (ih.list type s.pos [] hb1) ?_
  rintro v u r hr ⟨rfl, nodes, hS, rfl⟩ - q hq hbal hne
  rw [List.append_nil] at hr
  rw [hp1, hq, ← after_append] at hS
  rw [hr] at hN
  have := BlockIs.directives ht hbal hne hB hN hS
  rw [hp1, ← after_append, start_after, hq]
  simpa using this

theorem inside_block_sound {n : Nat} (ih : AllSound n) (s : St) :
    Sound s (fun b t r => r = [] → InsideQ .block b t s.pos) s (blockInside (n + 1) s) := by
  have hb := Within.refl s
  rw [blockInside]
  refine sound_bind hb (matchBlank_sound _ hb) ?_
  rintro broken b s1 h1 hp1 ⟨hB, hN⟩ hb1
  refine sound_mono (ih.whole hb1) ?_
  rintro v u r hr ⟨rfl, nodes, els, hS, hsh, rfl⟩ - q hq hbal hne
  rw [List.append_nil] at hr
  rw [hp1, hq, ← after_append] at hS
  rw [hr] at hN
  rw [after_start s1.pos, hp1, hq, ← after_append] at hsh
  have := BlockIs.block hbal hne hB hN hS (by simpa using hsh)
  rw [start_after, hp1, hq, ← after_append]
  simpa using this

theorem span_sound {n : Nat} (ih : AllSound n) (s : St) :
    Sound s (fun b t r => r = [] → InsideQ .span b t s.pos) s (spanInside (n + 1) true s) := by
  have hb := Within.refl s
  rw [spanInside]
  refine sound_bind hb (matchBlank_sound _ hb) ?_
  rintro broken b s1 h1 hp1 ⟨hB, hN⟩ hb1
  rw [run_ite]
  split
  · exact hb1.located
  · next hbr =>
    have hbr : broken = false := by simpa using hbr
    subst hbr
    simp only [if_true]
    refine sound_bind hb1 (ih.paragraph hb1) ?_
    rintro v u s2 h2 hp2 hq hb2
    rw [run_get_bind, run_ite]
    split
    · exact hb2.located
    · next hsp =>
      simp only [Bool.not_true, Bool.false_and, Bool.false_eq_true, if_false]
      refine sound_pure ?_
      intro hr q hpos hbal hne
      rcases hq with ⟨c, hc, -⟩ | ⟨-, b', w, nodes, rfl, hB', hN', hS, hall, rfl⟩
      · rw [hr] at hc; cases hc
      · rw [hr, List.append_nil] at h2
        have hb' : b' = [] := blankText_of_noBlank hB' (by rw [← h2]; exact hN)
        subst hb'
        simp only [List.nil_append, List.append_nil] at hbal hne ⊢
        rw [show after s1.pos [] = s1.pos from rfl, hp1, hpos, ← after_append] at hS
        have := BlockIs.span hbal hne hB hN' hS hall
        rw [start_after, hp1, hpos, ← after_append]
        simpa using this

theorem text_sound {n : Nat} (s : St) :
    Sound s (fun b t r => r = [] → InsideQ .text_span b t s.pos) s (spanInside (n + 1) false s) := by
  have hb := Within.refl s
  rw [spanInside]
  refine sound_bind hb (matchBlank_sound _ hb) ?_
  rintro broken b s1 h1 hp1 ⟨hB, hN⟩ hb1
  rw [run_ite]
  split
  · exact hb1.located
  · next hbr =>
    have hbr : broken = false := by simpa using hbr
    subst hbr
    simp only [Bool.false_eq_true, if_false]
    refine sound_bind hb1 (matchText_sound hN.1) ?_
    rintro v u s2 h2 hp2 hq hb2
    rw [run_get_bind, run_ite]
    split
    · exact hb2.located
    · rw [run_ite]
      split
      · exact hb2.located
      · refine sound_pure ?_
        intro hr q hpos hbal hne
        rw [hr, List.append_nil] at h2
        rw [hr] at hq
        rcases hq with ⟨rfl, rfl, -⟩ | ⟨rfl, ht⟩
        · simp only [List.append_nil] at hbal hne ⊢
          exact .noText hbal hne hB
        · simp only [List.append_nil] at hbal hne ⊢
          rw [h2] at hN
          have := BlockIs.text (p := q) hbal hB hN ht
          rw [hp1, hpos, ← after_append]
          simpa using this

theorem all_sound (n : Nat) : AllSound n := by
  induction n with
  | zero =>
    constructor <;> intros <;>
      first
        | (rw [contentLoop]; trivial) | (rw [contentNext]; trivial) | (rw [paragraphLoop]; trivial)
        | (rw [paragraphElement]; trivial) | (rw [matchDirective]; trivial)
        | (rw [matchDirectiveContent]; trivial) | (rw [spanInside]; trivial)
        | (rw [blockInside]; trivial) | (rw [directivesInside]; trivial)
        | (rw [directivesLoop]; trivial) | (rw [matchContent]; trivial)
        | (rw [matchParagraph]; trivial)
  | succ n ih =>
    exact {
      content := fun i e g p st hb hp => content_sound ih i e g p st hb hp
      next := fun i e g p st hb hp => next_sound ih i e g p st hb hp
      loop := fun i e hb => loop_sound ih i e hb
      element := fun i e hb hs => element_sound ih i e hb hs
      directive := fun c hb => directive_sound ih c hb
      block := fun c hb hs => block_sound ih c hb hs
      span := fun s => span_sound ih s
      text := fun s => text_sound s
      inside := fun s => inside_block_sound ih s
      directives := fun s t h => directives_sound ih s t h
      list := fun t i e hb => list_sound ih t i e hb
      whole := by
        intro base s hb
        rw [matchContent, run_get_bind]
        exact ih.content _ _ _ _ _ hb ⟨.nil, by simp, Nat.le_refl _, Nat.le_refl _, by simp⟩
      paragraph := by
        intro base s hb
        rw [matchParagraph, run_get_bind]
        exact ih.loop _ _ hb }

/-- What `parse` returns is written in the source, and its errors are located in the source. -/
theorem parse_sound (n : Nat) (source : List Char) :
    Sound ⟨⟨0, 0, 0⟩, source⟩ (fun v t r => r = [] ∧ DocumentIs v t) ⟨⟨0, 0, 0⟩, source⟩
      (parse n source) := by
  have hb := Within.refl ⟨⟨0, 0, 0⟩, source⟩
  unfold parse matchDocument
  refine sound_bind hb (matchBlank_sound _ hb) ?_
  rintro broken b s1 h1 hp1 ⟨hB, hN⟩ hb1
  rw [run_get_bind, run_ite]
  split
  · next heof =>
    have he : s1.rest = [] := by simpa [St.eof] using heof
    refine sound_pure ⟨he, ?_⟩
    rw [List.append_nil]
    exact .empty hB
  · next heof =>
    refine sound_mono ((all_sound n).whole hb1) ?_
    rintro v u r hr ⟨rfl, nodes, els, hS, hsh, rfl⟩
    rw [List.append_nil] at hr
    refine ⟨rfl, ?_⟩
    rw [start_after, hp1]
    rw [hp1] at hS
    rw [after_start s1.pos, hp1] at hsh
    refine .content hB (by rw [← hr]; exact hN) ?_ hS (by simpa using hsh)
    rintro rfl
    apply heof
    simp [St.eof, hr]

end Bms.Bmd
