import Verif.Spec.Cli
import Verif.Props.AnalysisReport
import Verif.Props.DiagnosticsDoc
import Verif.Props.DocDump
import Verif.Props.DocHtml
import Verif.Props.Dump
import Verif.Props.Generate
import Verif.Props.Output

/-!
# C83: the command line

Runs of the command line program: what they show, which file they write, and the status they end with.
-/

namespace Bms

open Spec Diag Output
open C (TypesD Named HasConst)

namespace Cli

theorem readAll_some {size : Nat} (hs : 0 < size) (n : Nat) (r : Reading) (hb : r.buf.length = size)
    {x : List Char} (h : readAll size n r = some x) : r.rest.length < n * size := by
  induction n generalizing r with
  | zero => cases h
  | succ n ih =>
    have hm : (n + 1) * size = n * size + size := Nat.succ_mul n size
    by_cases hl : size ≤ r.rest.length
    · have hr : read size r = (⟨r.rest.drop size, r.rest.take size ++ r.buf.drop (r.rest.take size).length,
          r.out⟩, true, (r.rest.take size).length) := by simp [Output.read, hl]
      rw [readAll, hr] at h
      simp only [append] at h
      have := ih _ (by simp [hb]; omega) h
      simp only [List.length_drop] at this
      omega
    · omega

theorem load_iff {w : World} {file src : List Char} :
    loadFile w file = .ok src ↔ w.file file = .content src ∧ Enough w.fuel src := by
  have h1 : 0 < readSize := by decide
  have key : ∀ text, fileToString w.fuel text = if text.length < w.fuel * readSize then some text else none := by
    intro text
    split
    · rename_i h
      rw [fileToString, readAll_eq h1 w.fuel _ (by simp) h]
      rfl
    · rename_i h
      cases hx : fileToString w.fuel text with
      | none => rfl
      | some x => exact absurd (readAll_some h1 _ _ (by simp) hx) h
  unfold loadFile
  cases hf : w.file file with
  | missing => simp
  | unreadable => simp
  | content text =>
    simp only [key, File.content.injEq, Enough]
    by_cases hl : text.length < w.fuel * readSize
    · rw [if_pos hl]
      simp only [Except.ok.injEq]
      constructor
      · rintro rfl
        exact ⟨rfl, hl⟩
      · exact And.left
    · rw [if_neg hl]
      simp only [reduceCtorEq, false_iff, not_and]
      rintro rfl
      exact hl

theorem printed_zero {ε : Type} {r : Outcome ε Out} (h : (Run.printed 0 r).ending = .exit 0) : ∃ out, r = .ok out := by
  cases r with
  | ok out => exact ⟨out, rfl⟩
  | _ => simp [Run.printed, Run.unfinished, Run.internal, Run.ub] at h

theorem printed_untouched {ε : Type} (n : Nat) (r : Outcome ε Out) : (Run.printed n r).written = .untouched := by
  cases r <;> rfl

theorem printed_one {ε : Type} (r : Outcome ε Out) : (Run.printed 1 r).ending ≠ .exit 0 := by
  cases r <;> simp [Run.printed, Run.unfinished, Run.internal, Run.ub, Run.exit]

/-- Steps that end the program early do not end it with status 0, and they do not write to a file. -/
def Fails {α : Type} (s : Step α) : Prop := ∀ r, s = .error r → r.ending ≠ .exit 0 ∧ r.written = .untouched

theorem load_fails (w : World) (file : List Char) : Fails (loadFile w file) := by
  intro r h
  unfold loadFile at h
  split at h
  · cases h; simp [Run.exit]
  · cases h; simp [Run.internal]
  · split at h
    · cases h
    · cases h; simp [Run.unfinished]

theorem tokenize_fails (source file : List Char) : Fails (tokenizeFile source file) := by
  intro r h
  unfold tokenizeFile at h
  split at h <;> cases h
  · exact ⟨printed_one _, printed_untouched _ _⟩
  all_goals simp [Run.unfinished, Run.internal, Run.ub]

theorem document_fails (w : World) (source file : List Char) : Fails (parseDocument w source file) := by
  intro r h
  unfold parseDocument at h
  split at h <;> cases h
  · exact ⟨printed_one _, printed_untouched _ _⟩
  all_goals simp [Run.unfinished, Run.internal, Run.ub]

theorem parse_fails (ts : List Token) (source file : List Char) : Fails (parseTokenized ts source file) := by
  intro r h
  unfold parseTokenized at h
  split at h <;> cases h
  · exact ⟨printed_one _, printed_untouched _ _⟩
  all_goals simp [Run.unfinished, Run.internal]

theorem analyze_fails (w : World) (nodes : List Parse.Node) (root : Nat) (source file : List Char) :
    Fails (analyzeParsed w nodes root source file) := by
  intro r h
  unfold analyzeParsed at h
  split at h
  · split at h
    · split at h <;> cases h
      · exact ⟨printed_one _, printed_untouched _ _⟩
      all_goals simp [Run.unfinished, Run.internal, Run.ub]
    all_goals cases h
    · exact ⟨printed_one _, printed_untouched _ _⟩
    all_goals simp [Run.unfinished, Run.internal, Run.ub]
  all_goals cases h
  all_goals simp [Run.unfinished, Run.internal, Run.ub]

/-- Status 0 means that a step was successful, and what followed it was, too. -/
theorem step_zero {α : Type} {s : Step α} {f : α → Step Run} (hs : Fails s)
    (h : (finish (s >>= f)).ending = .exit 0) : ∃ a, s = .ok a ∧ (finish (f a)).ending = .exit 0 := by
  cases s with
  | ok a => exact ⟨a, rfl, h⟩
  | error r => exact absurd h (hs r rfl).1

theorem step_untouched {α : Type} {s : Step α} {f : α → Step Run} (hs : Fails s)
    (hf : ∀ a, s = .ok a → (finish (f a)).written = .untouched) : (finish (s >>= f)).written = .untouched := by
  cases s with
  | ok a => exact hf a rfl
  | error r => exact (hs r rfl).2

theorem step_ok {α : Type} {s : Step α} {f : α → Step Run} {a : α} (hs : s = .ok a) :
    finish (s >>= f) = finish (f a) := by
  rw [hs]; rfl

theorem tokenize_iff {source file : List Char} {ts : List Token} :
    tokenizeFile source file = .ok ts ↔ tokenize source = some (ts, .ok ()) := by
  unfold tokenizeFile
  split <;> simp_all

theorem parse_iff {ts : List Token} {source file : List Char} {p : List Parse.Node × Nat} :
    parseTokenized ts source file = .ok p ↔ Parse.parse source ts = .ok p.1 p.2 := by
  obtain ⟨nodes, root⟩ := p
  unfold parseTokenized
  split <;> simp_all

theorem document_iff {w : World} {source file : List Char} {root : Option Bmd.Node} :
    parseDocument w source file = .ok root ↔ ∃ s, Bmd.parse w.fuel source = .ok root s := by
  unfold parseDocument
  split <;> simp_all

theorem analyze_iff {w : World} {nodes : List Parse.Node} {root : Nat} {source file : List Char} {r : List ADecl} :
    analyzeParsed w nodes root source file = .ok r ↔
      ∃ ds rs s, Build.program nodes root = .ok ds ∧ Annot.resolve nodes root = .ok rs ∧
        Ana.program w.fuel ds (nodes.length + 1) = .ok () s ∧ r = ds.map (Ana.result s) := by
  unfold analyzeParsed
  constructor
  · intro h
    split at h
    · rename_i ds hb
      split at h
      · rename_i rs hr
        split at h
        · rename_i u s ha
          cases h
          exact ⟨ds, rs, s, hb, hr, ha, rfl⟩
        all_goals cases h
      all_goals cases h
    all_goals cases h
  · rintro ⟨ds, rs, s, hb, hr, ha, rfl⟩
    simp only [hb, hr, ha]

/-- A text is accepted if all steps are successful. -/
theorem verified_iff {n : Nat} {src : List Char} {ds : List ADecl} {s : ASt} :
    Verified n src ds s ↔ ∃ ts nodes root rs, tokenize src = some (ts, .ok ()) ∧
      Parse.parse src ts = .ok nodes root ∧ Build.program nodes root = .ok ds ∧
      Annot.resolve nodes root = .ok rs ∧ Ana.program n ds (nodes.length + 1) = .ok () s := by
  constructor
  · rintro ⟨h1, h2⟩
    unfold compile at h1
    split at h1
    · rename_i ts ht
      split at h1
      · rename_i nodes root hp
        obtain ⟨rs, hr⟩ := h2 ts nodes root ht hp
        split at h1
        · rename_i ds' hb
          obtain ⟨rfl, h3⟩ := CompileResult.analyzed.inj h1
          exact ⟨ts, nodes, root, rs, ht, hp, hb, hr, h3⟩
        all_goals cases h1
      all_goals cases h1
    · cases h1
  · rintro ⟨ts, nodes, root, rs, ht, hp, hb, hr, ha⟩
    refine ⟨by simp only [compile, ht, hp, hb, ha], fun ts' nodes' root' ht' hp' => ?_⟩
    rw [ht] at ht'
    cases ht'
    rw [hp] at hp'
    cases hp'
    exact ⟨rs, hr⟩

theorem suffix_iff {suffix : String} {file : List Char} : endsWith suffix.toList file = true ↔ Suffix suffix file := by
  rw [endsWith, List.isSuffixOf_iff_suffix]
  constructor
  · rintro ⟨t, h⟩; exact ⟨t, h.symm⟩
  · rintro ⟨t, h⟩; exact ⟨t, h.symm⟩

end Cli

open Cli

/-- The names of the commands. -/
def Cli.names : List (List Char) := commands.map fun c => c.1.toList

theorem Cli.seen_line (a b c d e f g h i j k : List Char) (rest : Out) :
    seen ([.text a, .ansi b, .text c, .text d, .ansi e, .text f, .text g, .text h, .ansi i, .text j, .text k] ++
      rest) = a ++ c ++ d ++ f ++ (g ++ h) ++ j ++ k ++ seen rest := by
  simp [seen]

theorem Cli.seen_three (a b c : List Char) : seen [.text a, .text b, .text c] = a ++ b ++ c := by
  simp [seen]

theorem Cli.seen_usage (a b c d e f g h : List Char) (rest : Out) :
    seen ([.ansi a, .text b, .ansi c, .text d, .ansi e, .text f, .ansi g, .text h] ++ rest) =
      b ++ d ++ (f ++ h) ++ seen rest := by
  simp [seen]

theorem Cli.seen_lines (hs : List (String × String × String)) (rest : Out) :
    seen ((hs.flatMap fun h => [lit "    ", ansiYellow, lit h.1, lit " ", ansiHGreen, lit h.2.1, lit "\n",
      lit "      ", ansiReset, lit h.2.2, lit "\n"]) ++ rest) = hs.flatMap commandLines ++ seen rest := by
  induction hs with
  | nil => rfl
  | cons h hs ih =>
    rw [List.flatMap_cons, List.append_assoc, List.flatMap_cons, List.append_assoc, ← ih]
    exact Cli.seen_line _ _ _ _ _ _ _ _ _ _ _ _

theorem Cli.seen_help (p : List Char) : seen (help p) = helpText p := by
  have h : ∀ hs : List (String × String × String),
      seen ([ansiBlack, lit "Usage: ", ansiReset, .text p, ansiYellow, lit " COMMAND ", ansiHGreen, lit "...\n"] ++
        hs.flatMap fun h => [lit "    ", ansiYellow, lit h.1, lit " ", ansiHGreen, lit h.2.1, lit "\n",
          lit "      ", ansiReset, lit h.2.2, lit "\n"]) =
      "Usage: ".toList ++ p ++ (" COMMAND ".toList ++ "...\n".toList) ++ hs.flatMap commandLines := by
    intro hs
    have h1 := Cli.seen_lines hs []
    rw [List.append_nil, seen, List.append_nil] at h1
    rw [← h1]
    exact Cli.seen_usage _ _ _ _ _ _ _ _ _
  exact h commands

/-- **C83: help.** Without a command and a file, and for `generate` without a language, the help is shown,
which names every command. The status is 1. -/
theorem C83_help (w : World) (program x file : List Char) :
    (∃ out, Cli.main w [] = .exit 1 out ∧ seen out = helpText "bitmanip".toList) ∧
    (∃ out, Cli.main w [program] = .exit 1 out ∧ seen out = helpText program) ∧
    (∃ out, Cli.main w [program, x] = .exit 1 out ∧ seen out = helpText program) ∧
    ∃ out, Cli.main w [program, "generate".toList, file] = .exit 1 out ∧ seen out = helpText program := by
  have key := Cli.seen_help
  refine ⟨⟨_, rfl, key _⟩, ⟨_, rfl, key _⟩, ⟨_, rfl, key _⟩, _, ?_, key program⟩
  have h1 : "generate".toList ≠ "dump_tokens".toList := by decide
  have h2 : "generate".toList ≠ "dump_ast".toList := by decide
  have h3 : "generate".toList ≠ "verify".toList := by decide
  rw [Cli.main, Cli.command.eq_def, if_neg h1, if_neg h2, if_neg h3, if_pos rfl]

/-- **C83: unknown commands.** Commands that the help does not name are rejected. -/
theorem C83_unknown (w : World) (program command file : List Char) (rest : List (List Char))
    (h : command ∉ Cli.names) :
    ∃ out, Cli.main w (program :: command :: file :: rest) = .exit 1 out ∧
      seen out = "Unknown command '".toList ++ command ++ "'\n".toList := by
  have hn : ∀ c ∈ commands, command ≠ c.1.toList := fun c hc e => h (List.mem_map.2 ⟨c, hc, e.symm⟩)
  have h1 : command ≠ "dump_tokens".toList := hn commands[0] (List.getElem_mem _)
  have h2 : command ≠ "dump_ast".toList := hn commands[1] (List.getElem_mem _)
  have h3 : command ≠ "verify".toList := hn commands[2] (List.getElem_mem _)
  have h4 : command ≠ "generate".toList := hn commands[3] (List.getElem_mem _)
  have h5 : command ≠ "html".toList := hn commands[4] (List.getElem_mem _)
  refine ⟨_, by rw [Cli.main, Cli.command.eq_def, if_neg h1, if_neg h2, if_neg h3, if_neg h4, if_neg h5], ?_⟩
  exact Cli.seen_three _ _ _

namespace Cli

theorem main_tokens (w : World) (program file : List Char) (rest : List (List Char)) :
    Cli.main w (program :: "dump_tokens".toList :: file :: rest) = dumpTokens w file := by
  rw [Cli.main, Cli.command.eq_def, if_pos rfl]

theorem main_ast (w : World) (program file : List Char) (rest : List (List Char)) :
    Cli.main w (program :: "dump_ast".toList :: file :: rest) = dumpAst w file := by
  rw [Cli.main, Cli.command.eq_def, if_neg (by decide), if_pos rfl]

theorem main_verify (w : World) (program file : List Char) (rest : List (List Char)) :
    Cli.main w (program :: "verify".toList :: file :: rest) = verify w file := by
  rw [Cli.main, Cli.command.eq_def, if_neg (by decide), if_neg (by decide), if_pos rfl]

theorem main_generate (w : World) (program file language : List Char) (rest : List (List Char)) :
    Cli.main w (program :: "generate".toList :: file :: language :: rest) = generate w file language := by
  rw [Cli.main, Cli.command.eq_def, if_neg (by decide), if_neg (by decide), if_neg (by decide), if_pos rfl]

theorem main_html (w : World) (program file : List Char) (rest : List (List Char)) :
    Cli.main w (program :: "html".toList :: file :: rest) = toHtml w file rest.head? := by
  rw [Cli.main, Cli.command.eq_def, if_neg (by decide), if_neg (by decide), if_neg (by decide), if_neg (by decide), if_pos rfl]

end Cli

/-- **C83: tokens.** `dump_tokens` ends with status 0 iff the file is a BMS file that can be read and split
into tokens. Then it shows them. -/
theorem C83_tokens : ∃ name : TokenType → List Char, (∀ a b, name a = name b → a = b) ∧
    ∀ (w : World) (program file : List Char) (rest : List (List Char)),
      let r := Cli.main w (program :: "dump_tokens".toList :: file :: rest)
      r.written = .untouched ∧
      (r.ending = .exit 0 ↔ Suffix ".bms" file ∧ ∃ src ts, w.file file = .content src ∧ Enough w.fuel src ∧
        tokenize src = some (ts, .ok ())) ∧
      ∀ src ts, r.ending = .exit 0 → w.file file = .content src → tokenize src = some (ts, .ok ()) →
        TokenLines src name ts (seen r.shown) := by
  obtain ⟨name, hn, ht⟩ := C79_tokens
  refine ⟨name, hn, fun w program file rest => ?_⟩
  simp only [main_tokens]
  have key : ∀ src ts, Suffix ".bms" file → w.file file = .content src → Enough w.fuel src →
      tokenize src = some (ts, .ok ()) → ∃ out, dumpTokens w file = .exit 0 out ∧ TokenLines src name ts (seen out) := by
    intro src ts h1 h2 h3 h4
    obtain ⟨out, h5, -, h6⟩ := ht src ts h4
    refine ⟨out, ?_, h6⟩
    rw [dumpTokens, suffix_iff.2 h1]
    simp only [Bool.not_true, Bool.false_eq_true, if_false]
    rw [step_ok (load_iff.2 ⟨h2, h3⟩), step_ok (tokenize_iff.2 h4), h5]
    rfl
  have conv : (dumpTokens w file).ending = .exit 0 → Suffix ".bms" file ∧ ∃ src ts, w.file file = .content src ∧
      Enough w.fuel src ∧ tokenize src = some (ts, .ok ()) := by
    intro h
    rw [dumpTokens] at h
    by_cases hs : endsWith ".bms".toList file = true
    · rw [hs] at h
      simp only [Bool.not_true, Bool.false_eq_true, if_false] at h
      obtain ⟨src, h1, h⟩ := step_zero (load_fails w file) h
      obtain ⟨ts, h2, -⟩ := step_zero (tokenize_fails src file) h
      obtain ⟨h3, h4⟩ := load_iff.1 h1
      exact ⟨suffix_iff.1 hs, src, ts, h3, h4, tokenize_iff.1 h2⟩
    · simp only [hs, Bool.not_false, if_true, Run.exit, Ending.exit.injEq] at h
      cases h
  refine ⟨?_, ⟨conv, ?_⟩, ?_⟩
  · rw [dumpTokens]
    split
    · rfl
    · exact step_untouched (load_fails w file) fun src _ => step_untouched (tokenize_fails src file) fun ts _ =>
        printed_untouched _ _
  · rintro ⟨h1, src, ts, h2, h3, h4⟩
    obtain ⟨out, h5, -⟩ := key src ts h1 h2 h3 h4
    rw [h5]; rfl
  · intro src ts h h2 h4
    obtain ⟨h1, src', ts', h2', h3, h4'⟩ := conv h
    rw [h2] at h2'
    cases h2'
    obtain ⟨out, h5, h6⟩ := key src ts h1 h2 h3 h4
    rw [h5]
    exact h6

/-- The file is a program with this text and this tree. -/
def Cli.Parsed (w : World) (file src : List Char) (ts : List Token) (nodes : List Parse.Node) (root : Nat) : Prop :=
  w.file file = .content src ∧ Enough w.fuel src ∧ tokenize src = some (ts, .ok ()) ∧
    Parse.parse src ts = .ok nodes root

namespace Cli

theorem dumpAst_parsed {w : World} {file src : List Char} {ts : List Token} {nodes : List Parse.Node} {root : Nat}
    (hs : Suffix ".bms" file) (h : Parsed w file src ts nodes root) :
    dumpAst w file = .printed 0 (Dump.printProgram src nodes root 2 true) := by
  obtain ⟨h1, h2, h3, h4⟩ := h
  rw [dumpAst, step_ok (load_iff.2 ⟨h1, h2⟩), if_pos (suffix_iff.2 hs), step_ok (tokenize_iff.2 h3),
    step_ok (parse_iff (p := (nodes, root)).2 h4)]
  rfl

theorem dumpAst_document {w : World} {file src : List Char} {root : Option Bmd.Node} {s : Bmd.St}
    (hn : ¬ Suffix ".bms" file) (hs : Suffix ".bmd" file) (h1 : w.file file = .content src) (h2 : Enough w.fuel src)
    (h : Bmd.parse w.fuel src = .ok root s) :
    dumpAst w file = .printed 0 (Dump.printDocument w.order src root 2 30 true) := by
  rw [dumpAst, step_ok (load_iff.2 ⟨h1, h2⟩), if_neg (fun h => hn (suffix_iff.1 h)), if_pos (suffix_iff.2 hs),
    step_ok (document_iff.2 ⟨s, h⟩)]
  rfl

theorem no_both {file : List Char} (h : Suffix ".bms" file) : ¬ Suffix ".bmd" file := by
  rintro ⟨b, hb⟩
  obtain ⟨a, ha⟩ := h
  have h1 := congrArg List.getLast? ha
  have h2 := congrArg List.getLast? hb
  rw [List.getLast?_append, show (".bms".toList.getLast?) = some 's' from by decide] at h1
  rw [List.getLast?_append, show (".bmd".toList.getLast?) = some 'd' from by decide, h1] at h2
  simp at h2

theorem verify_steps {w : World} {file src : List Char} {ts : List Token} {nodes : List Parse.Node} {root : Nat}
    (hs : Suffix ".bms" file) (h : Parsed w file src ts nodes root) :
    verify w file = finish (do
      let _ ← analyzeParsed w nodes root src file
      return .exit 0 [ansiGreen, lit "All checks passed.\n", ansiReset]) := by
  obtain ⟨h1, h2, h3, h4⟩ := h
  rw [verify, suffix_iff.2 hs]
  simp only [Bool.not_true, Bool.false_eq_true, if_false]
  rw [step_ok (load_iff.2 ⟨h1, h2⟩), step_ok (tokenize_iff.2 h3), step_ok (parse_iff (p := (nodes, root)).2 h4)]

theorem generate_steps {w : World} {file language src : List Char} {l : Gen.Lang} {ts : List Token}
    {nodes : List Parse.Node} {root : Nat}
    (hs : Suffix ".bms" file) (hl : Gen.languageByName language = some l) (h : Parsed w file src ts nodes root) :
    generate w file language = finish (do
      let ds ← analyzeParsed w nodes root src file
      return showCode (Gen.generate {} l ds)) := by
  obtain ⟨h1, h2, h3, h4⟩ := h
  rw [generate.eq_def, suffix_iff.2 hs]
  simp only [Bool.not_true, Bool.false_eq_true, if_false, hl]
  rw [step_ok (load_iff.2 ⟨h1, h2⟩), step_ok (tokenize_iff.2 h3), step_ok (parse_iff (p := (nodes, root)).2 h4)]

theorem seen_passed : seen [ansiGreen, lit "All checks passed.\n", ansiReset] = "All checks passed.\n".toList := by
  have h : ∀ a b c : List Char, seen [.ansi a, .text b, .ansi c] = b := by simp [seen]
  exact h _ _ _

theorem seen_red (x : List Char) : seen [ansiRed, .text x] = x := by
  have h : ∀ a b : List Char, seen [.ansi a, .text b] = b := by simp [seen]
  exact h _ _

theorem showCode_zero {r : Outcome GenC.GenError (List Char)} :
    (showCode r).ending = .exit 0 ↔ ∃ code, r = .ok code := by
  cases r <;> simp [showCode, Run.exit, Run.internal, Run.ub]

theorem showCode_untouched (r : Outcome GenC.GenError (List Char)) : (showCode r).written = .untouched := by
  cases r <;> rfl

end Cli

/-- **C83, partial: trees.** `dump_ast` of a BMS file ends with status 0 iff the file can be read and parsed and
no annotation has more than one argument. Then every node is shown once. If an annotation has more arguments, then
the behaviour is undefined. -/
theorem C83_tree_partial : ∃ names : Parse.Kind → List Char,
    (∀ a b, names a = names b ↔ a.ctorIdx = b.ctorIdx) ∧
    ∀ (w : World) (program file : List Char) (rest : List (List Char)), Suffix ".bms" file →
      let r := Cli.main w (program :: "dump_ast".toList :: file :: rest)
      r.written = .untouched ∧
      (r.ending = .exit 0 ↔ ∃ src ts nodes root, Parsed w file src ts nodes root ∧ FewArguments nodes) ∧
      ∀ src ts nodes root, Parsed w file src ts nodes root →
        (r.ending = .ub ↔ ¬ FewArguments nodes) ∧
        (FewArguments nodes → ∃ shown, Preorder nodes [⟨0, [], some root⟩] shown ∧
          ItemLines src names nodes 2 shown (seen r.shown) ∧
          ∀ i < nodes.length, (shown.map (·.handle)).count (some i) = 1) := by
  obtain ⟨names, hn, ht⟩ := C79_tree_partial
  refine ⟨names, hn, fun w program file rest hs => ?_⟩
  simp only [main_ast]
  have conv : (dumpAst w file).ending = .exit 0 →
      ∃ src ts nodes root, Parsed w file src ts nodes root ∧ FewArguments nodes := by
    intro h
    have h' := h
    rw [dumpAst] at h
    obtain ⟨src, h1, h⟩ := step_zero (load_fails w file) h
    rw [if_pos (suffix_iff.2 hs)] at h
    obtain ⟨ts, h2, h⟩ := step_zero (tokenize_fails src file) h
    obtain ⟨⟨nodes, root⟩, h3, h⟩ := step_zero (parse_fails ts src file) h
    have hp : Parsed w file src ts nodes root :=
      ⟨(load_iff.1 h1).1, (load_iff.1 h1).2, tokenize_iff.1 h2, parse_iff.1 h3⟩
    refine ⟨src, ts, nodes, root, hp, Classical.byContradiction fun hf => ?_⟩
    rw [dumpAst_parsed hs hp, (C79_arguments hp.2.2.1 hp.2.2.2).2 hf] at h'
    cases h'
  refine ⟨?_, ⟨conv, ?_⟩, ?_⟩
  · rw [dumpAst]
    refine step_untouched (load_fails w file) fun src _ => ?_
    rw [if_pos (suffix_iff.2 hs)]
    exact step_untouched (tokenize_fails src file) fun ts _ => step_untouched (parse_fails ts src file) fun p _ =>
        printed_untouched _ _
  · rintro ⟨src, ts, nodes, root, h, hf⟩
    obtain ⟨out, -, h1, -⟩ := ht src ts nodes root 2 true h.2.2.1 h.2.2.2 hf
    rw [dumpAst_parsed hs h, h1]
    rfl
  · intro src ts nodes root h
    rw [dumpAst_parsed hs h]
    constructor
    · rw [← C79_arguments (width := 2) (colors := true) h.2.2.1 h.2.2.2]
      cases Dump.printProgram src nodes root 2 true <;>
        simp [Run.printed, Run.exit, Run.internal, Run.ub, Run.unfinished]
    · intro hf
      obtain ⟨out, shown, h1, h2, h3, h4, -⟩ := ht src ts nodes root 2 true h.2.2.1 h.2.2.2 hf
      rw [h1]
      exact ⟨shown, h2, h3, h4⟩

/-- **C83: checks.** `verify` ends with status 0 iff the file is a BMS file that can be read and contains a
program that is accepted. Then it says so. -/
theorem C83_verify (w : World) (program file : List Char) (rest : List (List Char)) :
    let r := Cli.main w (program :: "verify".toList :: file :: rest)
    r.written = .untouched ∧
    (r.ending = .exit 0 ↔ Suffix ".bms" file ∧ ∃ src ds s, w.file file = .content src ∧ Enough w.fuel src ∧
      Verified w.fuel src ds s) ∧
    (r.ending = .exit 0 → seen r.shown = "All checks passed.\n".toList) := by
  simp only [main_verify]
  have key : ∀ src ds s, Suffix ".bms" file → w.file file = .content src → Enough w.fuel src →
      Verified w.fuel src ds s →
      verify w file = .exit 0 [ansiGreen, lit "All checks passed.\n", ansiReset] := by
    intro src ds s h1 h2 h3 h4
    obtain ⟨ts, nodes, root, rs, ht, hp, hb, hr, ha⟩ := verified_iff.1 h4
    rw [verify_steps h1 ⟨h2, h3, ht, hp⟩, step_ok (analyze_iff.2 ⟨ds, rs, s, hb, hr, ha, rfl⟩)]
    rfl
  have conv : (verify w file).ending = .exit 0 → Suffix ".bms" file ∧ ∃ src ds s, w.file file = .content src ∧
      Enough w.fuel src ∧ Verified w.fuel src ds s := by
    intro h
    rw [verify] at h
    by_cases hs : endsWith ".bms".toList file = true
    · rw [hs] at h
      simp only [Bool.not_true, Bool.false_eq_true, if_false] at h
      obtain ⟨src, h1, h⟩ := step_zero (load_fails w file) h
      obtain ⟨ts, h2, h⟩ := step_zero (tokenize_fails src file) h
      obtain ⟨⟨nodes, root⟩, h3, h⟩ := step_zero (parse_fails ts src file) h
      obtain ⟨ds, h4, h⟩ := step_zero (analyze_fails w nodes root src file) h
      obtain ⟨ds', rs, s, hb, hr, ha, -⟩ := analyze_iff.1 h4
      exact ⟨suffix_iff.1 hs, src, ds', s, (load_iff.1 h1).1, (load_iff.1 h1).2,
        verified_iff.2 ⟨ts, nodes, root, rs, tokenize_iff.1 h2, parse_iff.1 h3, hb, hr, ha⟩⟩
    · simp only [hs, Bool.not_false, if_true, Run.exit, Ending.exit.injEq] at h
      cases h
  refine ⟨?_, ⟨conv, ?_⟩, ?_⟩
  · rw [verify]
    split
    · rfl
    · exact step_untouched (load_fails w file) fun src _ => step_untouched (tokenize_fails src file) fun ts _ =>
        step_untouched (parse_fails ts src file) fun p _ => step_untouched (analyze_fails w _ _ src file) fun _ _ => rfl
  · rintro ⟨h1, src, ds, s, h2, h3, h4⟩
    rw [key src ds s h1 h2 h3 h4]
    rfl
  · intro h
    obtain ⟨h1, src, ds, s, h2, h3, h4⟩ := conv h
    rw [key src ds s h1 h2 h3 h4]
    exact seen_passed

/-- **C83: code.** `generate` ends with status 0 iff the language has a name that is known, the file is a BMS file
that can be read and contains a program that is accepted, and code can be generated for it. Then exactly the code
is shown. -/
theorem C83_generate (w : World) (program file language : List Char) (rest : List (List Char)) :
    let r := Cli.main w (program :: "generate".toList :: file :: language :: rest)
    r.written = .untouched ∧
    (r.ending = .exit 0 ↔ ∃ l src ds s code, Suffix ".bms" file ∧ Gen.languageByName language = some l ∧
      w.file file = .content src ∧ Enough w.fuel src ∧ Verified w.fuel src ds s ∧
      Gen.generate {} l (ds.map (Ana.result s)) = .ok code) ∧
    ∀ l src ds s, Suffix ".bms" file → Gen.languageByName language = some l →
      w.file file = .content src → Enough w.fuel src → Verified w.fuel src ds s →
      (∀ code, Gen.generate {} l (ds.map (Ana.result s)) = .ok code → bytes r.shown = code) ∧
      ∀ e, Gen.generate {} l (ds.map (Ana.result s)) = .err e →
        r.ending = .exit 1 ∧ seen r.shown = "Error: failed to generate code.\n".toList := by
  simp only [main_generate]
  have key : ∀ l src ds s, Suffix ".bms" file → Gen.languageByName language = some l →
      w.file file = .content src → Enough w.fuel src → Verified w.fuel src ds s →
      generate w file language = showCode (Gen.generate {} l (ds.map (Ana.result s))) := by
    intro l src ds s h1 hl h2 h3 h4
    obtain ⟨ts, nodes, root, rs, ht, hp, hb, hr, ha⟩ := verified_iff.1 h4
    rw [generate_steps h1 hl ⟨h2, h3, ht, hp⟩, step_ok (analyze_iff.2 ⟨ds, rs, s, hb, hr, ha, rfl⟩)]
    rfl
  refine ⟨?_, ⟨?_, ?_⟩, ?_⟩
  · rw [generate.eq_def]
    split
    · rfl
    · split
      · rfl
      · exact step_untouched (load_fails w file) fun src _ => step_untouched (tokenize_fails src file) fun ts _ =>
          step_untouched (parse_fails ts src file) fun p _ => step_untouched (analyze_fails w _ _ src file) fun _ _ =>
            showCode_untouched _
  · intro h
    have h' := h
    rw [generate.eq_def] at h
    by_cases hs : endsWith ".bms".toList file = true
    · rw [hs] at h
      simp only [Bool.not_true, Bool.false_eq_true, if_false] at h
      cases hl : Gen.languageByName language with
      | none =>
        rw [hl] at h
        simp only [Run.exit, Ending.exit.injEq] at h
        cases h
      | some l =>
        rw [hl] at h
        simp only at h
        obtain ⟨src, h1, h⟩ := step_zero (load_fails w file) h
        obtain ⟨ts, h2, h⟩ := step_zero (tokenize_fails src file) h
        obtain ⟨⟨nodes, root⟩, h3, h⟩ := step_zero (parse_fails ts src file) h
        obtain ⟨ds, h4, h⟩ := step_zero (analyze_fails w nodes root src file) h
        obtain ⟨ds', rs, s, hb, hr, ha, rfl⟩ := analyze_iff.1 h4
        have hv := verified_iff.2 ⟨ts, nodes, root, rs, tokenize_iff.1 h2, parse_iff.1 h3, hb, hr, ha⟩
        obtain ⟨code, hc⟩ := showCode_zero.1 h
        exact ⟨l, src, ds', s, code, suffix_iff.1 hs, rfl, (load_iff.1 h1).1, (load_iff.1 h1).2, hv, hc⟩
    · simp only [hs, Bool.not_false, if_true, Run.exit, Ending.exit.injEq] at h
      cases h
  · rintro ⟨l, src, ds, s, code, h1, hl, h2, h3, h4, h5⟩
    rw [key l src ds s h1 hl h2 h3 h4, h5]
    rfl
  · intro l src ds s h1 hl h2 h3 h4
    rw [key l src ds s h1 hl h2 h3 h4]
    refine ⟨fun code hc => ?_, fun e he => ?_⟩
    · rw [hc]
      simp [showCode, Run.exit, bytes]
    · rw [he]
      exact ⟨rfl, seen_red _⟩

/-- **C83: code and checks.** If code is shown for a file, then its program is accepted by `verify`. -/
theorem C83_sound {w : World} {program file language : List Char} {rest : List (List Char)}
    (h : (Cli.main w (program :: "generate".toList :: file :: language :: rest)).ending = .exit 0) :
    (Cli.main w (program :: "verify".toList :: file :: rest)).ending = .exit 0 ∧
    (Cli.main w (program :: "dump_tokens".toList :: file :: rest)).ending = .exit 0 := by
  obtain ⟨l, src, ds, s, code, h1, -, h2, h3, h4, -⟩ := (C83_generate w program file language rest).2.1.1 h
  refine ⟨(C83_verify w program file rest).2.1.2 ⟨h1, src, ds, s, h2, h3, h4⟩, ?_⟩
  obtain ⟨name, -, ht⟩ := C83_tokens
  obtain ⟨ts, nodes, root, rs, ht', -⟩ := verified_iff.1 h4
  exact (ht w program file rest).2.1.2 ⟨h1, src, ts, h2, h3, ht'⟩

/-- **C83, partial: accepted programs.** For programs that are accepted by `verify` and contain no generic
functions, no functions that refer to themselves and no constants with unknown values:
`generate` shows BMS code; and it shows code in C or C++ iff all widths have types there, and ends with status 1
and a message if not. -/
theorem C83_accepted_partial {w : World} {program file src : List Char} {rest : List (List Char)}
    {ds : List ADecl} {s : ASt} (h : Suffix ".bms" file) (hf : w.file file = .content src) (he : Enough w.fuel src)
    (hv : Verified w.fuel src ds s)
    (hp : PlainSignatures ds) (hs : NoSelfReference ds)
    (hk : ∀ k v, HasConst (ds.map (Ana.result s)) k (some v) → v.val ≠ none) :
    (∀ name ∈ ["bms", "BMS"],
      (Cli.main w (program :: "generate".toList :: file :: name.toList :: rest)).ending = .exit 0) ∧
    ∀ name l lang, (name, lang, l) ∈ [("c", Gen.Lang.c, GenC.Language.c), ("C", .c, .c), ("c++", .cpp, .cpp),
        ("C++", .cpp, .cpp), ("cpp", .cpp, .cpp), ("cxx", .cpp, .cpp)] →
      let r := Cli.main w (program :: "generate".toList :: file :: name.toList :: rest)
      (r.ending = .exit 0 ↔ ∀ d ∈ ds.map (Ana.result s), TypesD (Named l false) false d) ∧
      (r.ending = .exit 1 ∧ seen r.shown = "Error: failed to generate code.\n".toList ↔
        ¬ ∀ d ∈ ds.map (Ana.result s), TypesD (Named l false) false d) := by
  obtain ⟨h1, h2⟩ := C82_text_partial hv.accepted hp hs hk {}
  constructor
  · intro name hm
    have hl : Gen.languageByName name.toList = some .bms := by
      simp only [List.mem_cons, List.not_mem_nil, or_false] at hm
      rcases hm with rfl | rfl <;> decide
    obtain ⟨code, hc⟩ := h1
    exact (C83_generate w program file name.toList rest).2.1.2 ⟨.bms, src, ds, s, code, h, hl, hf, he, hv, hc⟩
  · intro name l lang hm
    have hl : Gen.languageByName name.toList = some lang ∧ (lang, l) ∈ [(Gen.Lang.c, GenC.Language.c), (.cpp, .cpp)] := by
      simp only [List.mem_cons, List.not_mem_nil, or_false, Prod.mk.injEq] at hm
      rcases hm with ⟨rfl, rfl, rfl⟩ | ⟨rfl, rfl, rfl⟩ | ⟨rfl, rfl, rfl⟩ | ⟨rfl, rfl, rfl⟩ | ⟨rfl, rfl, rfl⟩ |
        ⟨rfl, rfl, rfl⟩ <;> decide
    obtain ⟨hl, hm⟩ := hl
    obtain ⟨h3, h4⟩ := h2 l lang hm
    obtain ⟨-, h5, h6⟩ := C83_generate w program file name.toList rest
    have h7 := h6 lang src ds s h hl hf he hv
    have h8 : (Cli.main w (program :: "generate".toList :: file :: name.toList :: rest)).ending = .exit 0 ↔
        ∀ d ∈ ds.map (Ana.result s), TypesD (Named l false) false d := by
      rw [h5]
      constructor
      · rintro ⟨lang', src', ds', s', code, -, hl', hf', -, hv', hc⟩
        rw [hl] at hl'
        cases hl'
        rw [hf] at hf'
        cases hf'
        have := hv.accepted.symm.trans hv'.accepted
        cases this
        exact h3.1 ⟨code, hc⟩
      · intro ht
        obtain ⟨code, hc⟩ := h3.2 ht
        exact ⟨lang, src, ds, s, code, h, hl, hf, he, hv, hc⟩
    refine ⟨h8, fun ⟨h9, _⟩ ht => ?_, fun ht => h7.2 _ (h4.2 ht)⟩
    rw [h8.2 ht] at h9
    cases h9

namespace Cli

theorem toHtml_steps {w : World} {file src : List Char} {root : Option Bmd.Node} {s : Bmd.St}
    (out : Option (List Char)) (hs : Suffix ".bmd" file) (h1 : w.file file = .content src) (h2 : Enough w.fuel src)
    (h3 : Bmd.parse w.fuel src = .ok root s) :
    toHtml w file out = finish (match out with
      | none => .ok (convert w root src file .untouched fun h => .exit 0 (coloredPage h.out))
      | some o =>
        if !w.writable o then .ok (.exit 1 (cannotOpen o))
        else .ok (convert w root src file .begun fun h => ⟨[], .whole (bytes (simplePage h.out)), .exit 0⟩)) := by
  rw [toHtml, step_ok (load_iff.2 ⟨h1, h2⟩), if_neg (fun h => no_both (suffix_iff.1 h) hs),
    if_pos (suffix_iff.2 hs), step_ok (document_iff.2 ⟨s, h3⟩)]
  rfl

theorem toHtml_zero {w : World} {file : List Char} {out : Option (List Char)} (hs : Suffix ".bmd" file)
    (h : (toHtml w file out).ending = .exit 0) :
    ∃ src root s, w.file file = .content src ∧ Enough w.fuel src ∧ Bmd.parse w.fuel src = .ok root s := by
  rw [toHtml] at h
  obtain ⟨src, h1, h⟩ := step_zero (load_fails w file) h
  rw [if_neg (fun h => no_both (suffix_iff.1 h) hs), if_pos (suffix_iff.2 hs)] at h
  obtain ⟨root, h2, h⟩ := step_zero (document_fails w src file) h
  obtain ⟨s, h3⟩ := document_iff.1 h2
  exact ⟨src, root, s, (load_iff.1 h1).1, (load_iff.1 h1).2, h3⟩

theorem convert_zero {w : World} {root : Option Bmd.Node} {source file : List Char} {begun : Written}
    {page : HtmlWriter → Run} (h : (convert w root source file begun page).ending = .exit 0) :
    ∃ p, Bmd.docToHtml w.order pageOptions root = .ok p := by
  rw [convert.eq_def] at h
  split at h
  · exact ⟨_, by assumption⟩
  · exact absurd h (printed_one _)
  · cases h
  · cases h

end Cli

/-- The file is a document, and this is the text of its page. -/
def Cli.IsPage (w : World) (file text : List Char) : Prop :=
  ∃ src root s p, w.file file = .content src ∧ Enough w.fuel src ∧
    Bmd.parse w.fuel src = .ok root s ∧ Bmd.docToHtml w.order pageOptions root = .ok p ∧ text = p.text

/-- **C83: trees of documents.** `dump_ast` of a BMD file ends with status 0 iff the file can be read and parsed.
Then every node of the document is shown. -/
theorem C83_document_tree (w : World) (hw : Bmd.Walk w.order) (program file : List Char) (rest : List (List Char))
    (hs : Suffix ".bmd" file) :
    let r := Cli.main w (program :: "dump_ast".toList :: file :: rest)
    r.written = .untouched ∧
    (r.ending = .exit 0 ↔ ∃ src root s, w.file file = .content src ∧ Enough w.fuel src ∧
      Bmd.parse w.fuel src = .ok root s) ∧
    ∀ src root s, w.file file = .content src → Enough w.fuel src → Bmd.parse w.fuel src = .ok root s →
      Bmd.DocLines src 2 30 (Bmd.docItemsBlock 0 root) (seen r.shown) := by
  simp only [main_ast]
  have hn : ¬ Suffix ".bms" file := fun h => no_both h hs
  refine ⟨?_, ⟨fun h => ?_, ?_⟩, ?_⟩
  · rw [dumpAst]
    refine step_untouched (load_fails w file) fun src _ => ?_
    rw [if_neg (fun h => hn (suffix_iff.1 h)), if_pos (suffix_iff.2 hs)]
    exact step_untouched (document_fails w src file) fun root _ => printed_untouched _ _
  · rw [dumpAst] at h
    obtain ⟨src, h1, h⟩ := step_zero (load_fails w file) h
    rw [if_neg (fun h => hn (suffix_iff.1 h)), if_pos (suffix_iff.2 hs)] at h
    obtain ⟨root, h2, -⟩ := step_zero (document_fails w src file) h
    obtain ⟨s, h2⟩ := document_iff.1 h2
    exact ⟨src, root, s, (load_iff.1 h1).1, (load_iff.1 h1).2, h2⟩
  · rintro ⟨src, root, s, h1, h2, h3⟩
    obtain ⟨out, h4, -⟩ := C79_document hw h3 2 30 true
    rw [dumpAst_document hn hs h1 h2 h3, h4]
    rfl
  · intro src root s h1 h2 h3
    obtain ⟨out, h4, h5⟩ := C79_document hw h3 2 30 true
    rw [dumpAst_document hn hs h1 h2 h3, h4]
    exact h5

/-- **C83: kinds of files.** Tokens, checks and code are only for files with the suffix `.bms`, whatever is in them;
this is also what a BMD file is told, although the help says that its tokens are printed. Trees and pages of other
files than `.bms` and `.bmd` that can be read are refused with the name of the file. -/
theorem C83_suffix (w : World) (program file : List Char) (rest : List (List Char)) (hs : ¬ Suffix ".bms" file) :
    (∀ command ∈ ["dump_tokens", "verify"],
      let r := Cli.main w (program :: command.toList :: file :: rest)
      r.written = .untouched ∧ r.ending = .exit 1 ∧
      seen r.shown = "Error: file must have '.bms' suffix\n".toList) ∧
    (∀ language, let r := Cli.main w (program :: "generate".toList :: file :: language :: rest)
      r.written = .untouched ∧ r.ending = .exit 1 ∧
      seen r.shown = "Error: file must have '.bms' suffix.\n".toList) ∧
    (¬ Suffix ".bmd" file → ∀ src, w.file file = .content src → Enough w.fuel src →
      ∀ command ∈ ["dump_ast", "html"],
        let r := Cli.main w (program :: command.toList :: file :: rest)
        r.written = .untouched ∧ r.ending = .exit 1 ∧
        seen r.shown = "Error: unrecognized file suffix for: ".toList ++ file ++ ['\n']) := by
  have hf : endsWith ".bms".toList file = false := by
    cases h : endsWith ".bms".toList file with
    | false => rfl
    | true => exact absurd (suffix_iff.1 h) hs
  have red : ∀ x : List Char, seen [ansiRed, .text x] = x := fun x => by simp [seen, ansiRed]
  have red3 : ∀ x y z : List Char, seen [ansiRed, .text x, .text y, .text z] = x ++ y ++ z :=
    fun x y z => by simp [seen, ansiRed]
  refine ⟨fun command hc => ?_, fun language => ?_, fun hd src h1 h2 command hc => ?_⟩
  · rcases List.mem_cons.1 hc with rfl | hc
    · simp only [main_tokens]
      rw [dumpTokens, hf]
      exact ⟨rfl, rfl, red _⟩
    · rw [List.mem_singleton.1 hc]
      simp only [main_verify]
      rw [verify, hf]
      exact ⟨rfl, rfl, red _⟩
  · simp only [main_generate]
    rw [generate.eq_def, hf]
    exact ⟨rfl, rfl, red _⟩
  · have hg : ¬ endsWith ".bmd".toList file = true := fun h => hd (suffix_iff.1 h)
    have hh : ¬ endsWith ".bms".toList file = true := fun h => hs (suffix_iff.1 h)
    rcases List.mem_cons.1 hc with rfl | hc
    · simp only [main_ast]
      rw [dumpAst, step_ok (load_iff.2 ⟨h1, h2⟩), if_neg hh, if_neg hg]
      exact ⟨rfl, rfl, red3 _ _ _⟩
    · rw [List.mem_singleton.1 hc]
      simp only [main_html]
      rw [toHtml, step_ok (load_iff.2 ⟨h1, h2⟩), if_neg hh, if_neg hg]
      exact ⟨rfl, rfl, red3 _ _ _⟩

/-- **C83: pages.** `html` of a BMD file ends with status 0 iff the file can be read and parsed and the document can
be converted, and, if a file for the output is given, this can be opened. The text of the page is shown if no file
is given. Otherwise it is what the file contains in the end, and nothing is shown. -/
theorem C83_html (w : World) (program file : List Char) (hs : Suffix ".bmd" file) :
    (let r := Cli.main w [program, "html".toList, file];
      r.written = .untouched ∧ (r.ending = .exit 0 ↔ ∃ text, IsPage w file text) ∧
      ∀ text, IsPage w file text → seen r.shown = text) ∧
    ∀ out rest, let r := Cli.main w (program :: "html".toList :: file :: out :: rest)
      (r.ending = .exit 0 ↔ w.writable out = true ∧ ∃ text, IsPage w file text) ∧
      (w.writable out = false → r.written = .untouched) ∧
      ∀ text, w.writable out = true → IsPage w file text → r.written = .whole text ∧ r.shown = [] := by
  have key1 : ∀ text, IsPage w file text → ∃ shown, toHtml w file none = .exit 0 shown ∧ seen shown = text := by
    rintro text ⟨src, root, s, p, h1, h2, h3, h4, rfl⟩
    rw [toHtml_steps none hs h1 h2 h3]
    refine ⟨coloredPage p.out, ?_, (C77_page p.out).1⟩
    simp only [Cli.finish]
    rw [convert.eq_def, h4]
  have key2 : ∀ text out, w.writable out = true → IsPage w file text →
      toHtml w file (some out) = ⟨[], .whole text, .exit 0⟩ := by
    rintro text out hw ⟨src, root, s, p, h1, h2, h3, h4, rfl⟩
    rw [toHtml_steps (some out) hs h1 h2 h3]
    simp only [hw, Cli.finish, Bool.not_true, Bool.false_eq_true, if_false]
    rw [convert.eq_def, h4]
    simp only [(C77_page p.out).2.1]
    rfl
  refine ⟨?_, fun out rest => ?_⟩
  · simp only [main_html]
    refine ⟨?_, ⟨fun h => ?_, ?_⟩, ?_⟩
    · rw [toHtml]
      refine step_untouched (load_fails w file) fun src _ => ?_
      rw [if_neg (fun h => no_both (suffix_iff.1 h) hs), if_pos (suffix_iff.2 hs)]
      refine step_untouched (document_fails w src file) fun root _ => ?_
      show (convert _ _ _ _ _ _).written = _
      rw [convert.eq_def]
      split <;> rfl
    · obtain ⟨src, root, s, h1, h2, h3⟩ := toHtml_zero hs h
      rw [List.head?_nil, toHtml_steps none hs h1 h2 h3] at h
      obtain ⟨p, h4⟩ := convert_zero h
      exact ⟨_, src, root, s, p, h1, h2, h3, h4, rfl⟩
    · rintro ⟨text, h⟩
      obtain ⟨shown, h1, -⟩ := key1 text h
      rw [List.head?_nil, h1]
      rfl
    · intro text h
      obtain ⟨shown, h1, h2⟩ := key1 text h
      rw [List.head?_nil, h1]
      exact h2
  · simp only [main_html, List.head?_cons]
    refine ⟨⟨fun h => ?_, ?_⟩, fun hw => ?_, ?_⟩
    · obtain ⟨src, root, s, h1, h2, h3⟩ := toHtml_zero hs h
      rw [toHtml_steps (some out) hs h1 h2 h3] at h
      cases hw : w.writable out with
      | false =>
        simp only [hw, Bool.not_false, if_true, Cli.finish, Run.exit, Ending.exit.injEq] at h
        cases h
      | true =>
        simp only [hw, Bool.not_true, Bool.false_eq_true, if_false, Cli.finish] at h
        obtain ⟨p, h4⟩ := convert_zero h
        exact ⟨rfl, _, src, root, s, p, h1, h2, h3, h4, rfl⟩
    · rintro ⟨hw, text, h⟩
      rw [key2 text out hw h]
    · rw [toHtml]
      refine step_untouched (load_fails w file) fun src _ => ?_
      rw [if_neg (fun h => no_both (suffix_iff.1 h) hs), if_pos (suffix_iff.2 hs)]
      refine step_untouched (document_fails w src file) fun root _ => ?_
      simp only [hw, Bool.not_false, if_true]
      rfl
    · intro text hw h
      rw [key2 text out hw h]
      exact ⟨rfl, rfl⟩

/-- **C83: the output file.** A document that can be parsed and not converted leaves the output file empty. A BMS file
is not converted, and the status is 0 nevertheless. -/
theorem C83_html_violation (w : World) (program file out src : List Char) (rest : List (List Char))
    (h1 : w.file file = .content src) (h2 : Enough w.fuel src) :
    (∀ root s e, Suffix ".bmd" file → w.writable out = true → Bmd.parse w.fuel src = .ok root s →
      Bmd.docToHtml w.order pageOptions root = .err e →
      (Cli.main w (program :: "html".toList :: file :: out :: rest)).written = .begun) ∧
    (Suffix ".bms" file → ∀ rest', let r := Cli.main w (program :: "html".toList :: file :: rest')
      r.ending = .exit 0 ∧ r.written = .untouched ∧
      seen r.shown = "Converting BMS files to HTML is not supported yet\n".toList) := by
  constructor
  · intro root s e hs hw h3 h4
    rw [main_html, List.head?_cons, toHtml_steps (some out) hs h1 h2 h3]
    simp only [hw, Bool.not_true, Bool.false_eq_true, if_false, Cli.finish]
    rw [convert.eq_def, h4]
  · intro hs rest'
    simp only [main_html]
    rw [toHtml, step_ok (load_iff.2 ⟨h1, h2⟩), if_pos (suffix_iff.2 hs)]
    refine ⟨rfl, rfl, ?_⟩
    have : ∀ a : List Char, seen [.text a] = a := by simp [seen]
    exact this _

namespace Cli

theorem printed_status {ε : Type} {n k : Nat} {r : Outcome ε Out} (h : (Run.printed n r).ending = .exit k) : k = n := by
  cases r <;> simp [Run.printed, Run.exit, Run.internal, Run.ub, Run.unfinished] at h
  exact h.symm

/-- The status is 0 or 1, and if it is not 0, then no page was completed. -/
def Normal (r : Run) : Prop :=
  (∀ n, r.ending = .exit n → n = 0 ∨ n = 1) ∧ (r.ending ≠ .exit 0 → ∀ text, r.written ≠ .whole text)

theorem normal_exit {n : Nat} (out : Out) (h : n = 0 ∨ n = 1) : Normal (.exit n out) :=
  ⟨fun k hk => by cases hk; exact h, fun _ _ h => by cases h⟩

theorem normal_printed {ε : Type} {n : Nat} (r : Outcome ε Out) (h : n = 0 ∨ n = 1) : Normal (.printed n r) :=
  ⟨fun k hk => printed_status hk ▸ h, fun _ _ h => by rw [printed_untouched] at h; cases h⟩

theorem normal_internal : Normal .internal := ⟨fun _ h => (by cases h), fun _ _ h => (by cases h)⟩
theorem normal_ub : Normal .ub := ⟨fun _ h => (by cases h), fun _ _ h => (by cases h)⟩
theorem normal_unfinished : Normal .unfinished := ⟨fun _ h => (by cases h), fun _ _ h => (by cases h)⟩

theorem normal_step {α : Type} {s : Step α} {f : α → Step Run} (hs : ∀ r, s = .error r → Normal r)
    (hf : ∀ a, Normal (finish (f a))) : Normal (finish (s >>= f)) := by
  cases s with
  | ok a => exact hf a
  | error r => exact hs r rfl

theorem load_normal (w : World) (file : List Char) : ∀ r, loadFile w file = .error r → Normal r := by
  intro r h
  unfold loadFile at h
  split at h
  · cases h; exact normal_exit _ (.inr rfl)
  · cases h; exact normal_internal
  · split at h
    · cases h
    · cases h; exact normal_unfinished

theorem tokenize_normal (source file : List Char) : ∀ r, tokenizeFile source file = .error r → Normal r := by
  intro r h
  unfold tokenizeFile at h
  split at h <;> cases h
  · exact normal_printed _ (.inr rfl)
  · exact normal_internal
  · exact normal_ub
  · exact normal_unfinished

theorem document_normal (w : World) (source file : List Char) :
    ∀ r, parseDocument w source file = .error r → Normal r := by
  intro r h
  unfold parseDocument at h
  split at h <;> cases h
  · exact normal_printed _ (.inr rfl)
  · exact normal_internal
  · exact normal_ub
  · exact normal_unfinished

theorem parse_normal (ts : List Token) (source file : List Char) :
    ∀ r, parseTokenized ts source file = .error r → Normal r := by
  intro r h
  unfold parseTokenized at h
  split at h <;> cases h
  · exact normal_printed _ (.inr rfl)
  · exact normal_internal
  · exact normal_unfinished

theorem analyze_normal (w : World) (nodes : List Parse.Node) (root : Nat) (source file : List Char) :
    ∀ r, analyzeParsed w nodes root source file = .error r → Normal r := by
  intro r h
  unfold analyzeParsed at h
  split at h
  · split at h
    · split at h <;> cases h
      · exact normal_printed _ (.inr rfl)
      · exact normal_internal
      · exact normal_ub
      · exact normal_unfinished
    all_goals cases h
    · exact normal_printed _ (.inr rfl)
    · exact normal_unfinished
    · exact normal_internal
    · exact normal_ub
  all_goals cases h
  · exact normal_unfinished
  · exact normal_internal
  · exact normal_ub

theorem showCode_normal (r : Outcome GenC.GenError (List Char)) : Normal (showCode r) := by
  cases r
  · exact normal_exit _ (.inl rfl)
  · exact normal_exit _ (.inr rfl)
  · exact normal_internal
  · exact normal_ub

theorem convert_normal {w : World} {root : Option Bmd.Node} {source file : List Char} {begun : Written}
    {page : HtmlWriter → Run} (hb : ∀ text, begun ≠ .whole text) (hp : ∀ p, Normal (page p)) :
    Normal (convert w root source file begun page) := by
  rw [convert.eq_def]
  split
  · exact hp _
  · exact ⟨fun k hk => .inr (printed_status hk), fun _ => hb⟩
  · exact ⟨fun k hk => (by cases hk), fun _ => hb⟩
  · exact ⟨fun k hk => (by cases hk), fun _ => hb⟩

theorem toHtml_normal (w : World) (file : List Char) (out : Option (List Char)) : Normal (toHtml w file out) := by
  refine normal_step (load_normal w file) fun src => ?_
  split
  · exact normal_exit _ (.inl rfl)
  · split
    · refine normal_step (document_normal w src file) fun root => ?_
      cases out with
      | none => exact convert_normal (fun _ h => by cases h) fun p => normal_exit _ (.inl rfl)
      | some o =>
        simp only
        split
        · exact normal_exit _ (.inr rfl)
        · exact convert_normal (fun _ h => by cases h) fun p =>
            ⟨fun k hk => by cases hk; exact .inl rfl, fun h => absurd rfl h⟩
    · exact normal_exit _ (.inr rfl)

theorem dumpAst_normal (w : World) (file : List Char) : Normal (dumpAst w file) := by
  refine normal_step (load_normal w file) fun src => ?_
  split
  · exact normal_step (tokenize_normal src file) fun ts => normal_step (parse_normal ts src file) fun p =>
      normal_printed _ (.inl rfl)
  · split
    · exact normal_step (document_normal w src file) fun root => normal_printed _ (.inl rfl)
    · exact normal_exit _ (.inr rfl)

end Cli

/-- **C83: the status.** It is always 0 or 1. If it is 1, or if there is no status, then no output file contains a
page. -/
theorem C83_status (w : World) (args : List (List Char)) :
    (∀ n, (Cli.main w args).ending = .exit n → n = 0 ∨ n = 1) ∧
    ((Cli.main w args).ending ≠ .exit 0 → ∀ text, (Cli.main w args).written ≠ .whole text) := by
  show Normal _
  match args with
  | [] => exact normal_exit _ (.inr rfl)
  | [_] => exact normal_exit _ (.inr rfl)
  | [_, _] => exact normal_exit _ (.inr rfl)
  | program :: name :: file :: rest =>
    rw [Cli.main, Cli.command.eq_def]
    split
    · rw [dumpTokens]
      split
      · exact normal_exit _ (.inr rfl)
      · exact normal_step (load_normal w file) fun src => normal_step (tokenize_normal src file) fun ts =>
          normal_printed _ (.inl rfl)
    split
    · exact dumpAst_normal w file
    split
    · rw [verify]
      split
      · exact normal_exit _ (.inr rfl)
      · exact normal_step (load_normal w file) fun src => normal_step (tokenize_normal src file) fun ts =>
          normal_step (parse_normal ts src file) fun p => normal_step (analyze_normal w _ _ src file) fun _ =>
            normal_exit _ (.inl rfl)
    split
    · split
      · exact normal_exit _ (.inr rfl)
      · rw [generate.eq_def]
        split
        · exact normal_exit _ (.inr rfl)
        · split
          · exact normal_exit _ (.inr rfl)
          · exact normal_step (load_normal w file) fun src => normal_step (tokenize_normal src file) fun ts =>
              normal_step (parse_normal ts src file) fun p => normal_step (analyze_normal w _ _ src file) fun _ =>
                showCode_normal _
    split
    · exact toHtml_normal w file _
    · exact normal_exit _ (.inr rfl)

namespace Cli

theorem reads_steps {w : World} {args : List (List Char)} {file : List Char} (h : ReadsFile args file) :
    ∃ f : List Char → Step Run, Cli.main w args = finish (loadFile w file >>= f) := by
  cases h with
  | tokens program rest hs =>
    rw [main_tokens, dumpTokens, suffix_iff.2 hs]
    simp only [Bool.not_true, Bool.false_eq_true, if_false]
    exact ⟨_, rfl⟩
  | tree program file rest => exact ⟨_, by rw [main_ast, dumpAst]⟩
  | check program rest hs =>
    rw [main_verify, verify, suffix_iff.2 hs]
    simp only [Bool.not_true, Bool.false_eq_true, if_false]
    exact ⟨_, rfl⟩
  | code program rest hs hl =>
    rw [main_generate, generate.eq_def, suffix_iff.2 hs]
    simp only [Bool.not_true, Bool.false_eq_true, if_false, hl]
    exact ⟨_, rfl⟩
  | page program file rest => exact ⟨_, by rw [main_html, toHtml]⟩

theorem looks_tokens {w : World} {args : List (List Char)} {file src : List Char} {d : Depth} (h : LooksAt d args file)
    (hs : Suffix ".bms" file) (h1 : w.file file = .content src) (h2 : Enough w.fuel src) :
    ∃ f : List Token → Step Run, Cli.main w args = finish (tokenizeFile src file >>= f) := by
  cases h with
  | tokens program file rest =>
    rw [main_tokens, dumpTokens, suffix_iff.2 hs]
    simp only [Bool.not_true, Bool.false_eq_true, if_false]
    rw [step_ok (load_iff.2 ⟨h1, h2⟩)]
    exact ⟨_, rfl⟩
  | tree program file rest =>
    rw [main_ast, dumpAst, step_ok (load_iff.2 ⟨h1, h2⟩), if_pos (suffix_iff.2 hs)]
    exact ⟨_, rfl⟩
  | check program file rest =>
    rw [main_verify, verify, suffix_iff.2 hs]
    simp only [Bool.not_true, Bool.false_eq_true, if_false]
    rw [step_ok (load_iff.2 ⟨h1, h2⟩)]
    exact ⟨_, rfl⟩
  | code program file rest hl =>
    rw [main_generate, generate.eq_def, suffix_iff.2 hs]
    simp only [Bool.not_true, Bool.false_eq_true, if_false, hl]
    rw [step_ok (load_iff.2 ⟨h1, h2⟩)]
    exact ⟨_, rfl⟩

theorem looks_tree {w : World} {args : List (List Char)} {file src : List Char} {d : Depth} (h : LooksAt d args file)
    (hd : d ≠ .tokens) (hs : Suffix ".bms" file) (h1 : w.file file = .content src) (h2 : Enough w.fuel src)
    {ts : List Token} (h3 : tokenize src = some (ts, .ok ())) :
    ∃ f : List Parse.Node × Nat → Step Run, Cli.main w args = finish (parseTokenized ts src file >>= f) := by
  cases h with
  | tokens program file rest => exact absurd rfl hd
  | tree program file rest =>
    rw [main_ast, dumpAst, step_ok (load_iff.2 ⟨h1, h2⟩), if_pos (suffix_iff.2 hs), step_ok (tokenize_iff.2 h3)]
    exact ⟨_, rfl⟩
  | check program file rest =>
    rw [main_verify, verify, suffix_iff.2 hs]
    simp only [Bool.not_true, Bool.false_eq_true, if_false]
    rw [step_ok (load_iff.2 ⟨h1, h2⟩), step_ok (tokenize_iff.2 h3)]
    exact ⟨_, rfl⟩
  | code program file rest hl =>
    rw [main_generate, generate.eq_def, suffix_iff.2 hs]
    simp only [Bool.not_true, Bool.false_eq_true, if_false, hl]
    rw [step_ok (load_iff.2 ⟨h1, h2⟩), step_ok (tokenize_iff.2 h3)]
    exact ⟨_, rfl⟩

theorem looks_checks {w : World} {args : List (List Char)} {file src : List Char} (h : LooksAt .checks args file)
    (hs : Suffix ".bms" file) {ts : List Token} {nodes : List Parse.Node} {root : Nat}
    (hp : Parsed w file src ts nodes root) :
    ∃ f : List ADecl → Step Run, Cli.main w args = finish (analyzeParsed w nodes root src file >>= f) := by
  cases h with
  | check program file rest =>
    rw [main_verify, verify_steps hs hp]
    exact ⟨_, rfl⟩
  | code program file rest hl =>
    rw [main_generate, generate_steps hs hl hp]
    exact ⟨_, rfl⟩

theorem looks_document {w : World} {args : List (List Char)} {file src : List Char} (h : LooksAtDocument args file)
    (hs : Suffix ".bmd" file) (h1 : w.file file = .content src) (h2 : Enough w.fuel src) :
    ∃ f : Option Bmd.Node → Step Run, Cli.main w args = finish (parseDocument w src file >>= f) := by
  cases h with
  | tree program file rest =>
    rw [main_ast, dumpAst, step_ok (load_iff.2 ⟨h1, h2⟩), if_neg (fun h => no_both (suffix_iff.1 h) hs),
      if_pos (suffix_iff.2 hs)]
    exact ⟨_, rfl⟩
  | page program file rest =>
    rw [main_html, toHtml, step_ok (load_iff.2 ⟨h1, h2⟩), if_neg (fun h => no_both (suffix_iff.1 h) hs),
      if_pos (suffix_iff.2 hs)]
    exact ⟨_, rfl⟩

theorem step_error {α : Type} {s : Step α} {f : α → Step Run} {r : Run} (h : s = .error r) :
    finish (s >>= f) = r := by
  rw [h]; rfl

theorem seen_cannot (file : List Char) : seen (cannotOpen file) = file ++ ":: Failed to open file.\n".toList := by
  have h : ∀ a b c d e f g h : List Char, c ++ e ++ (f ++ g) = h →
      seen [.ansi a, .text b, .text c, .ansi d, .text e, .text f, .text g] = b ++ h := by
    intro a b c d e f g h hh
    rw [← hh]
    simp [seen]
  exact h _ _ _ _ _ _ _ _ (by decide)

end Cli

/-- **C83: files that cannot be read.** A file that cannot be opened is reported with its name, and the status is 1.
If reading fails, then there is an exception instead. -/
theorem C83_file {w : World} {args : List (List Char)} {file : List Char} (h : ReadsFile args file) :
    let r := Cli.main w args
    (w.file file = .missing → r.ending = .exit 1 ∧ r.written = .untouched ∧
      seen r.shown = file ++ ":: Failed to open file.\n".toList) ∧
    (w.file file = .unreadable → r.ending = .internal ∧ r.written = .untouched) := by
  obtain ⟨f, hf⟩ := reads_steps (w := w) h
  simp only [hf]
  constructor <;> intro hm
  · rw [step_error (r := .exit 1 (cannotOpen file)) (by rw [loadFile, hm])]
    exact ⟨rfl, rfl, seen_cannot file⟩
  · rw [step_error (r := .internal) (by rw [loadFile, hm])]
    exact ⟨rfl, rfl⟩

/-- **C83, partial: errors in programs.** Every command that looks at a program far enough to find an error in it ends
with status 1 and reports the error at its place: errors of the tokenizer, errors of the parser, and errors of
analysis. C73, C74 and C81 say what is missing; for errors of analysis, what is assumed about the choice of the
call that makes the error is in `FailsAt`. -/
theorem C83_program_errors_partial :
    ∃ (message : TokenizeErrorCode → List Char) (name : TokenType → List Char) (rule : Parse.GrammarRule → List Char)
      (words : Report.Words),
      (∀ a b, (a ≠ .unterminated_string ∧ a ≠ .no_digits_following_integer_prefix) →
        (b ≠ .unterminated_string ∧ b ≠ .no_digits_following_integer_prefix) → message a = message b → a = b) ∧
      (∀ a b, name a = name b → a = b) ∧ (∀ a b, rule a = rule b → a = b) ∧ words.Distinct ∧
      ∀ (w : World) (args : List (List Char)) (file src : List Char) (ts : List Token) (d : Depth), LooksAt d args file →
        Suffix ".bms" file → w.file file = .content src → Enough w.fuel src →
        let r := Cli.main w args
        (∀ e, tokenize src = some (ts, .err e) → e.code ≠ .unterminated_string →
          e.code ≠ .no_digits_following_integer_prefix →
          r.ending = .exit 1 ∧ Report.ErrorAt src file e.pos (message e.code) (seen r.shown)) ∧
        (∀ e, d ≠ .tokens → tokenize src = some (ts, .ok ()) → Parse.parse src ts = .err e → e.token ∈ ts →
          r.ending = .exit 1 ∧ ∃ before line after offset, LineAt src before line after e.token.pos.start offset ∧
            offset < line.length ∧
            seen r.shown = reportNote file (e.token.pos.line + 1) (e.token.pos.column + 1)
              ("unexpected token ".toList ++ name e.token.type ++ " while matching '".toList ++ rule e.rule ++
                "'".toList)
              ("expected ".toList ++ alternatives (e.expected.map name)) line e.token.pos.column) ∧
        ∀ nodes root ds rs e h, d = .checks → tokenize src = some (ts, .ok ()) →
          Parse.parse src ts = .ok nodes root → Build.program nodes root = .ok ds → Annot.resolve nodes root = .ok rs →
          Ana.program w.fuel ds (nodes.length + 1) = .err e → e.fail = Build.key h →
          Report.FailsAt nodes e.code h (w.site nodes (.check e)).error → Report.Reportable (w.site nodes (.check e)) →
          r.ending = .exit 1 ∧ ∃ n t first rest, nodes[h]? = some n ∧ t ∈ ts ∧ IntroducedBy src nodes n t ∧
            seen r.shown = first ++ rest ∧ Report.ErrorAt src file t.pos (words.message (Report.codeOf e.code)) first := by
  obtain ⟨message, hm, h73⟩ := C73_report_partial
  obtain ⟨name, rule, hn, hr, -, h74⟩ := C74_report_partial
  obtain ⟨words, hw, h81⟩ := C81_text_partial
  refine ⟨message, name, rule, words, hm, hn, hr, hw, ?_⟩
  intro w args file src ts d hl hs h1 h2
  refine ⟨?_, ?_, ?_⟩
  · intro e ht hc1 hc2
    obtain ⟨f, hf⟩ := looks_tokens (w := w) hl hs h1 h2
    obtain ⟨before, line, after, offset, out, hline, ho, hp, hx⟩ := h73 file src ts e true ht hc1 hc2
    simp only [hf]
    rw [step_error (r := .exit 1 out) (by rw [tokenizeFile.eq_def, ht]; simp only [hp]; rfl)]
    exact ⟨rfl, before, line, after, offset, hline, ho, hx⟩
  · intro e hd ht hp hmem
    obtain ⟨f, hf⟩ := looks_tree (w := w) hl hd hs h1 h2 ht
    obtain ⟨-, -, -, before, line, after, offset, out, hline, ho, hp', hx⟩ := h74 file src ts e true ht hp hmem
    simp only [hf]
    rw [step_error (r := .exit 1 out) (by rw [parseTokenized.eq_def, hp]; simp only [hp']; rfl)]
    exact ⟨rfl, before, line, after, offset, hline, ho, hx⟩
  · intro nodes root ds rs e h hd ht hp hb hr ha hk hf hrep
    subst hd
    obtain ⟨f, hff⟩ := looks_checks (w := w) hl hs ⟨h1, h2, ht, hp⟩
    obtain ⟨n, t, out, first, rest, hn, ht', hi, -, hpr, hx, hat⟩ := h81 file true ht hp hf hrep
    simp only [hff]
    rw [step_error (r := .exit 1 out) (by
      rw [analyzeParsed.eq_def]; simp only [hb, hr, ha, hpr]; rfl)]
    exact ⟨rfl, n, t, first, rest, hn, ht', hi, hx, hat⟩

/-- **C83, partial: errors in documents.** Every command that looks at a document ends with status 1 and reports the
error at its place if it cannot be parsed, and `html` does so if it cannot be converted. C75 and C76 say what is
missing. -/
theorem C83_document_errors_partial :
    ∃ (message : Bmd.Code → List Char) (name : Bmd.Rule → List Char) (conversion : Bmd.DocCode → List Char),
      (∀ a b, message a = message b → a = b) ∧ (∀ a b, name a = name b → a = b) ∧
      (∀ a b, conversion a = conversion b → a = b) ∧
      ∀ (w : World) (args : List (List Char)) (file src : List Char), LooksAtDocument args file →
        Suffix ".bmd" file → w.file file = .content src → Enough w.fuel src →
        let r := Cli.main w args
        (∀ code rule q c, Bmd.parse w.fuel src = .err code rule q → src[q.start]? = some c → c ≠ '\n' →
          r.ending = .exit 1 ∧ r.written = .untouched ∧
          ∃ before line after offset, LineAt src before line after q.start offset ∧
            line[offset]? = some c ∧
            seen r.shown = report file (before.count '\n' + 1) (columnAfter (line.take offset) + 1)
              (if code = .unexpected_character then
                "unexpected character '".toList ++ c :: "' while matching '".toList ++ name rule ++ "'".toList
              else message code) line (columnAfter (line.take offset))) ∧
        ∀ program rest root s e, args = program :: "html".toList :: file :: rest →
          (∀ out ∈ rest, w.writable out = true) →
          Bmd.parse w.fuel src = .ok root s → Bmd.docToHtml w.order pageOptions root = .err e →
          e.code ≠ .writer_misuse → e.code ≠ .code_tokenization_failure →
          r.ending = .exit 1 ∧ Report.ErrorAt src file e.pos (conversion e.code) (seen r.shown) := by
  obtain ⟨message, name, hm, hn, h75⟩ := C75_report_partial
  obtain ⟨conversion, hc, h76⟩ := C76_report_partial
  refine ⟨message, name, conversion, hm, hn, hc, ?_⟩
  intro w args file src hl hs h1 h2
  refine ⟨?_, ?_⟩
  · intro code rule q c hp hq hne
    obtain ⟨f, hf⟩ := looks_document (w := w) hl hs h1 h2
    obtain ⟨before, line, after, offset, out, hline, ho, hpr, hx, -⟩ := h75 file src w.fuel code rule q c true hp hq hne
    simp only [hf]
    rw [step_error (r := .exit 1 out) (by rw [parseDocument.eq_def, hp]; simp only [hpr]; rfl)]
    exact ⟨rfl, rfl, before, line, after, offset, hline, ho, hx⟩
  · rintro program rest root s e rfl hwr hp hd he1 he2
    obtain ⟨out, line, hpr, hx, hat, hne⟩ := h76 w.order pageOptions file src w.fuel root s e true hp hd he1
    obtain ⟨before, after, offset, hline, ho, -⟩ := hat (hne he2)
    simp only [main_html, toHtml_steps rest.head? hs h1 h2 hp]
    cases rest with
    | nil =>
      simp only [List.head?_nil, Cli.finish]
      rw [convert.eq_def, hd]
      simp only [hpr]
      exact ⟨rfl, before, line, after, offset, hline, ho, hx⟩
    | cons o rest =>
      simp only [List.head?_cons, hwr o (List.mem_cons_self ..), Bool.not_true, Bool.false_eq_true, if_false, Cli.finish]
      rw [convert.eq_def, hd]
      simp only [hpr]
      exact ⟨rfl, before, line, after, offset, hline, ho, hx⟩

/-- **C83, violated: colours.** The messages about file names and languages switch the terminal to red and never
back: what the terminal shows afterwards is red, too. -/
theorem C83_colour_violation (w : World) (program file : List Char) (rest : List (List Char))
    (h : ¬ Suffix ".bms" file) :
    let r := Cli.main w (program :: "verify".toList :: file :: rest)
    r.ending = .exit 1 ∧ (Terminal.sendAll Terminal.fresh (bytes r.shown)).colour = "[31".toList ∧
    Terminal.fresh.colour = [] := by
  simp only [main_verify, verify]
  rw [if_pos (by simpa using fun h' => h (suffix_iff.1 h'))]
  exact ⟨rfl, by decide +kernel, rfl⟩

/-! ## Samples -/

namespace Cli

/-- A world with a few files. -/
def sampleWorld : World where
  file f :=
    if f = "a.bms".toList then
      .content "const w = 32; function f() -> Uint(w) { let x: Uint(w) = 5; return x * w; }".toList
    else if f = "b.bms".toList then .content "const x = 1 + ;".toList
    else if f = "c.bms".toList then .content "const x: Bool = 1;".toList
    else if f = "d.bmd".toList then .content "\\h1{a} b".toList
    else if f = "e.bmd".toList then .content "\\b{a\\nope{}}".toList
    else if f = "f.bmd".toList then .content "\\meta{\\title{a}\\title{b}}".toList
    else if f = "g.bms".toList then .content "const x = $;".toList
    else if f = "h.bms".toList then .unreadable
    else .missing
  writable f := f = "out.html".toList
  order := id
  site _ _ := .constMismatch ⟨⟨0, 0, 0⟩, "x".toList⟩ ⟨.literal, ⟨0, 16, 16⟩, []⟩
  fuel := 60

/-- What is seen in a run, and how it ends. -/
def sampleRun (args : List String) : List Char × Written × Ending :=
  let r := Cli.main sampleWorld (args.map String.toList)
  (seen r.shown, r.written, r.ending)

end Cli

/-- A program for which every command succeeds. -/
theorem C83_sample_accepted :
    Suffix ".bms" "a.bms".toList ∧
    (sampleRun ["p", "dump_tokens", "a.bms"]).2 = (.untouched, .exit 0) ∧
    (sampleRun ["p", "dump_ast", "a.bms"]).2 = (.untouched, .exit 0) ∧
    sampleRun ["p", "verify", "a.bms"] = ("All checks passed.\n".toList, .untouched, .exit 0) ∧
    sampleRun ["p", "generate", "a.bms", "c"] =
      ("uint32_t f(void) {\n    uint32_t x = 5;\n    return x * 32;\n}\n".toList, .untouched, .exit 0) ∧
    (sampleRun ["p", "generate", "a.bms", "bms"]).2 = (.untouched, .exit 0) ∧
    (sampleRun ["p", "generate", "a.bms", "rust"]).2 = (.untouched, .internal) ∧
    (sampleRun ["p", "generate", "a.bms", "pascal"]).2 = (.untouched, .exit 1) := by
  refine ⟨⟨['a'], by decide⟩, by decide +kernel, by decide +kernel, by decide +kernel, by decide +kernel,
    by decide +kernel, by decide +kernel, by decide +kernel⟩

/-- Programs with errors of the three kinds, and files that cannot be read. -/
theorem C83_sample_errors :
    sampleRun ["p", "verify", "g.bms"] = ("g.bms:1:11: error: Illegal character encountered.\n    1 | const x = $;\n      |           ^\n".toList, .untouched, .exit 1) ∧
    sampleRun ["p", "verify", "b.bms"] = ("b.bms:1:15: error: unexpected token ';' while matching 'primary_expression'\nb.bms:1:15: note: expected one of: binary literal, octal literal, decimal literal, hexadecimal literal, identifier, or '('\n    1 | const x = 1 + ;\n      |               ^\n".toList, .untouched, .exit 1) ∧
    sampleRun ["p", "verify", "c.bms"] = ("c.bms:1:1: error: Incompatible types for operation or conversion.\n    1 | const x: Bool = 1;\n      | ^\nc.bms:1:17: note: Caused by:\n    1 | const x: Bool = 1;\n      |                 ^\n".toList, .untouched, .exit 1) ∧
    sampleRun ["p", "verify", "h.bms"] = ([], .untouched, .internal) ∧
    sampleRun ["p", "verify", "i.bms"] = ("i.bms:: Failed to open file.\n".toList, .untouched, .exit 1) := by
  refine ⟨by decide +kernel, by decide +kernel, by decide +kernel, by decide +kernel, by decide +kernel⟩

/-- Documents: a page, an error that the parser finds, and one that leaves the output file empty. -/
theorem C83_sample_documents :
    (sampleRun ["p", "html", "d.bmd"]).2 = (.untouched, .exit 0) ∧
    sampleRun ["p", "html", "d.bmd", "out.html"] = ([], .whole (sampleRun ["p", "html", "d.bmd"]).1, .exit 0) ∧
    (sampleRun ["p", "html", "d.bmd", "none/out.html"]).2 = (.untouched, .exit 1) ∧
    sampleRun ["p", "html", "e.bmd", "out.html"] = ("e.bmd:1:6: error: Invalid directive.\n    1 | \\b{a\\nope{}}\n      |      ^\n".toList, .untouched, .exit 1) ∧
    (sampleRun ["p", "html", "f.bmd", "out.html"]).2 = (.begun, .exit 1) ∧
    (sampleRun ["p", "dump_ast", "d.bmd"]).2 = (.untouched, .exit 0) ∧
    (sampleRun ["p", "dump_tokens", "d.bmd"]).2 = (.untouched, .exit 1) := by
  refine ⟨by decide +kernel, by decide +kernel, by decide +kernel, by decide +kernel, by decide +kernel, by decide +kernel, by decide +kernel⟩

end Bms
