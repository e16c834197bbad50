import Verif.CommandLine
import Verif.Runs
import Verif.Props.ScannerText
import Verif.Props.ParserTotal
import Verif.Props.Fs

/-!
# C49: the command line

* `C49_file`, `C49_dir`: what `--file` and `--dir` print is decided by the scanner run on the *names* of the files.  No error of the
  parser is ever printed.
* `C49_file_names`, `C49_dir_names`: for names that do not look like a script, that is for all usual ones, the report is success, for
  whatever the files contain.
* `C49_violated_always`: so the claim fails for every file with an error and a usual name.
* `C49_violated`, in `Queries.lean`, is a concrete case.
-/

namespace PhpLs.CommandLine

open Backend

/-- Specification: the text cannot be split into tokens. -/
def Unscannable (U : Unicode) (t : Text) : Prop := ∃ e s, Scanner.scan U t = .err e s

/-- Specification: a name that contains no opening tag and no heredoc, and does not end in `<`. -/
def Usual (t : Text) : Prop := ¬ c!"<?" <:+: t ∧ ¬ c!"<<<" <:+: t ∧ t.getLast? ≠ some '<'

theorem usual_of_no_angle {t : Text} (h : '<' ∉ t) : Usual t := by
  refine ⟨fun hi => h (hi.subset (by decide)), fun hi => h (hi.subset (by decide)), fun hl => h (List.mem_of_getLast? hl)⟩

theorem sourceToAst_none {h : Host} {t : Text} (hp : sourceToAst h t = .ok none) : Unscannable h.U t := by
  unfold sourceToAst at hp
  split at hp
  · rename_i s _
    split at hp
    · cases hp
    · rename_i he; exact absurd he (Parser.C14_never_error _ _ _ _ _)
    · cases hp
    · cases hp
  · rename_i e s hs; exact ⟨e, s, hs⟩
  · cases hp
  · cases hp

theorem sourceToAst_unscannable {h : Host} {t : Text} (ht : Unscannable h.U t) : sourceToAst h t = .ok none := by
  obtain ⟨e, s, hs⟩ := ht
  unfold sourceToAst
  rw [hs]

theorem sourceToAst_usual (h : Host) {t : Text} (ht : Usual t) : ∃ x, sourceToAst h t = .ok (some x) := by
  obtain ⟨s, hs, hn⟩ := Scanner.C05_no_tag_no_tokens_partial h.U t ⟨ht.1, ht.2.1, ht.2.2⟩
  unfold sourceToAst
  rw [hs]
  dsimp only
  rw [hn]
  exact ⟨_, rfl⟩

/-- **C49, exact for `--file`**: an error is printed exactly if the name of the file cannot be split into tokens; the disk does not
matter, and errors of the parser are never printed. -/
theorem C49_file (h : Host) (disk : Text → Option Text) (args : Args) (file : Text) (hf : args.file = some file) :
    main h disk args = .ok (.printed [.error]) ↔ Unscannable h.U file := by
  unfold main
  rw [hf]
  dsimp only
  constructor
  · intro he
    unfold checkFile at he
    cases hp : sourceToAst h file with
    | ok p =>
      cases p with
      | none => exact sourceToAst_none hp
      | some x => rw [hp] at he; cases he
    | panic => rw [hp] at he; cases he
    | deep => rw [hp] at he; cases he
  · intro hu
    unfold checkFile
    rw [sourceToAst_unscannable hu]
    rfl

/-- **C49 for `--file` and usual names**: success is reported, for every content of the file. -/
theorem C49_file_names (h : Host) (disk : Text → Option Text) (args : Args) (file : Text) (hf : args.file = some file)
    (hu : Usual file) : main h disk args = .ok (.printed [.parsedOk]) := by
  obtain ⟨x, hx⟩ := sourceToAst_usual h hu
  unfold main
  rw [hf]
  dsimp only
  unfold checkFile
  rw [hx]
  rfl

open Classical in
theorem checkDir_spec (h : Host) : ∀ (files : List Text) (l : List Backend.Report), checkDir h files = .ok l →
    l = (files.filter fun f => Unscannable h.U f).map fun _ => .error
  | [], l, he => by
    cases he
    rfl
  | file :: rest, l, he => by
    unfold checkDir at he
    obtain ⟨p, hp, he⟩ := Out.bind_eq_ok he
    obtain ⟨l', hl, he⟩ := Out.bind_eq_ok he
    have ih := checkDir_spec h rest l' hl
    cases p with
    | none =>
      cases he
      rw [List.filter_cons_of_pos (by simpa using sourceToAst_none hp), ih]
      rfl
    | some x =>
      cases he
      have hno : ¬ Unscannable h.U file := fun hu => by
        rw [sourceToAst_unscannable hu] at hp; cases hp
      rw [List.filter_cons_of_neg (by simpa using hno), ih]

/-- What may stand in front of the names of folders and files: the folder as it is written, and exactly one slash behind it, unless
it is empty. -/
def Front (dir front : Text) : Prop :=
  (front = dir ∧ (dir = [] ∨ ∃ d, dir = d ++ ['/'])) ∨ (front = dir ++ ['/'] ∧ dir ≠ [] ∧ ∀ d, dir ≠ d ++ ['/'])

private theorem push_front (dir name : Text) : ∃ front, Front dir front ∧ push dir name = front ++ name := by
  unfold push
  by_cases hd : dir = [] ∨ dir.getLast? = some '/'
  · rw [if_pos hd]
    refine ⟨dir, .inl ⟨rfl, hd.imp id fun h => ?_⟩, rfl⟩
    obtain ⟨d, hd⟩ := List.getLast?_eq_some_iff.1 h
    exact ⟨d, hd⟩
  · rw [if_neg hd]
    refine ⟨dir ++ ['/'], .inr ⟨rfl, fun h => hd (.inl h), fun d h => hd (.inr (by rw [h]; simp))⟩, by simp⟩

private theorem push_all : ∀ (segs : List Text) (name dir : Text), (∀ n ∈ name :: segs, n ≠ [] ∧ '/' ∉ n) →
    ∃ front, Front dir front ∧ (name :: segs).foldl push dir = front ++ List.intercalate ['/'] (name :: segs)
  | [], name, dir, _ => by
    obtain ⟨front, h1, h2⟩ := push_front dir name
    exact ⟨front, h1, by simpa [List.intercalate] using h2⟩
  | seg :: segs, name, dir, hn => by
    obtain ⟨front, h1, h2⟩ := push_front dir name
    obtain ⟨front', h3, h4⟩ := push_all segs seg (push dir name) fun n h => hn n (.tail _ h)
    obtain ⟨hne, hns⟩ := hn name (.head _)
    refine ⟨front, h1, ?_⟩
    rw [List.foldl_cons, h4]
    rcases h3 with ⟨_, h3⟩ | ⟨h3, _⟩
    · exfalso
      rcases h3 with h3 | ⟨d, h3⟩
      · rw [h2] at h3
        exact hne (List.append_eq_nil_iff.1 h3).2
      · rw [h2] at h3
        have := congrArg List.getLast? h3
        rw [List.getLast?_append] at this
        obtain ⟨x, hx⟩ := Option.isSome_iff_exists.1 (by simpa using hne : name.getLast?.isSome = true)
        rw [hx] at this
        simp at this
        exact hns (this ▸ List.mem_of_getLast? hx)
    · rw [h3, h2]
      simp [List.intercalate]

private theorem below_path {path : Fs.Path} {es : List Fs.Entry} {f : Fs.Path} {steps : List Fs.Path} (h : Fs.Below path es f steps) :
    ∃ n rest, f = path ++ n :: rest := by
  induction h with
  | file _ => exact ⟨_, [], rfl⟩
  | dir _ _ ih =>
    obtain ⟨n, rest, e⟩ := ih
    exact ⟨_, n :: rest, by rw [e, List.append_assoc]; rfl⟩

/-- **C49, the files of `--dir`**: if the folder can be read, these are the files of C51, by the name of the folder as it is written,
a slash, and the names of the folders below and of the file with a slash between them. -/
theorem C49_listed (dir : Text) (path : Fs.Path) (entries : List Fs.Entry) (ignore : List Fs.Path) (hs : Fs.Sound entries)
    (hn : ∀ names, Fs.Wanted path ignore entries (path ++ names) → ∀ n ∈ names, n ≠ [] ∧ '/' ∉ n) (f : Text) :
    f ∈ listed dir path entries ignore ↔ ∃ names front, Fs.Wanted path ignore entries (path ++ names) ∧ Front dir front ∧
      f = front ++ List.intercalate ['/'] names := by
  have hw : ∀ p, Fs.Wanted path ignore entries p → ∃ n rest, p = path ++ n :: rest := by
    rintro p ⟨steps, _, _, hb, _⟩
    exact below_path hb
  unfold listed
  rw [List.mem_map]
  constructor
  · rintro ⟨p, hp, rfl⟩
    have hp := Fs.C51_nothing_else path ignore entries p hp
    obtain ⟨n, rest, rfl⟩ := hw p hp
    obtain ⟨front, h1, h2⟩ := push_all rest n dir (hn _ hp)
    exact ⟨n :: rest, front, hp, h1, by rw [List.drop_left, h2]⟩
  · rintro ⟨names, front, hp, h1, rfl⟩
    refine ⟨path ++ names, Fs.C51_everything path ignore entries hs _ hp, ?_⟩
    obtain ⟨n, rest, e⟩ := hw _ hp
    have e := List.append_cancel_left e
    subst e
    obtain ⟨front', h2, h3⟩ := push_all rest n dir (hn _ hp)
    rw [List.drop_left, h3]
    have : front' = front := by
      rcases h1 with ⟨a1, b1⟩ | ⟨a1, b1, c1⟩ <;> rcases h2 with ⟨a2, b2⟩ | ⟨a2, b2, c2⟩
      · rw [a1, a2]
      · exact (b1.elim b2 fun ⟨d, e⟩ => c2 d e).elim
      · exact (b2.elim b1 fun ⟨d, e⟩ => c1 d e).elim
      · rw [a1, a2]
    rw [this]

open Classical in
/-- **C49, exact for `--dir`**: one error is printed for each listed file whose *name* cannot be split into tokens, and nothing else. -/
theorem C49_dir (h : Host) (disk : Text → Option Text) (args : Args) (hf : args.file = none) (dir : Text) (path : Fs.Path)
    (entries : List Fs.Entry) (hd : args.dir = some (dir, path, entries)) (r : Run) (hr : main h disk args = .ok r) :
    r = .printed (((listed dir path entries args.ignorePatterns).filter fun f => Unscannable h.U f).map fun _ => .error) := by
  unfold main at hr
  rw [hf, hd] at hr
  dsimp only at hr
  cases hc : checkDir h (listed dir path entries args.ignorePatterns) with
  | panic => rw [hc] at hr; cases hr
  | deep => rw [hc] at hr; cases hr
  | ok l =>
    rw [hc] at hr
    cases hr
    rw [checkDir_spec h _ _ hc]

theorem checkDir_usual (h : Host) : ∀ (l : List Text), (∀ f ∈ l, Usual f) → checkDir h l = .ok []
  | [], _ => rfl
  | file :: rest, hu => by
    obtain ⟨x, hx⟩ := sourceToAst_usual h (hu file (.head _))
    unfold checkDir
    rw [hx, checkDir_usual h rest fun f hf => hu f (.tail _ hf)]
    rfl

/-- **C49 for `--dir` and usual names**: nothing is printed, for every content of the files.  The command line then does not check
anything. -/
theorem C49_dir_names (h : Host) (disk : Text → Option Text) (args : Args) (hf : args.file = none) (dir : Text) (path : Fs.Path)
    (entries : List Fs.Entry) (hd : args.dir = some (dir, path, entries))
    (hu : ∀ f ∈ listed dir path entries args.ignorePatterns, Usual f) : main h disk args = .ok (.printed []) := by
  unfold main
  rw [hf, hd]
  dsimp only
  rw [checkDir_usual h _ hu]
  rfl

/-- Specification: the text cannot be split into tokens, or the parser reports an error. -/
def Erroneous (h : Host) (t : Text) : Prop :=
  sourceToAst h t = .ok none ∨ ∃ nodes range errors, sourceToAst h t = .ok (some (nodes, range, errors)) ∧ errors ≠ []

/-- Specification: the claim, for one file. -/
def Reports (h : Host) (disk : Text → Option Text) (args : Args) (file : Text) : Prop :=
  ∀ content, disk file = some content → (main h disk args = .ok (.printed [.error]) ↔ Erroneous h content)

/-- **C49 is violated** by every file that has an error and a usual name. -/
theorem C49_violated_always (h : Host) (disk : Text → Option Text) (args : Args) (file content : Text)
    (hf : args.file = some file) (hu : Usual file) (hd : disk file = some content) :
    Reports h disk args file ↔ ¬ Erroneous h content := by
  unfold Reports
  rw [C49_file_names h disk args file hf hu]
  constructor
  · intro hn he
    cases (hn content hd).2 he
  · intro hn c hc
    cases hd.symm.trans hc
    exact ⟨(fun he => nomatch he), fun he => absurd he hn⟩

/-! ## The hypotheses are met -/

/-- A folder with a correct file, a wrong file and another file; one folder is ignored. -/
def folder : List Fs.Entry :=
  [.file c!"a.php", .dir c!"src" [.file c!"b.php", .file c!"c.txt"], .dir c!"vendor" [.file c!"d.php"]]

/-- The names that are listed, all of them usual. -/
example : listed c!"./app" [c!"app"] folder [[c!"vendor"]] = [c!"./app/a.php", c!"./app/src/b.php"] ∧
    ∀ f ∈ listed c!"./app" [c!"app"] folder [[c!"vendor"]], Usual f := by
  have e : listed c!"./app" [c!"app"] folder [[c!"vendor"]] = [c!"./app/a.php", c!"./app/src/b.php"] := by
    simp [listed, folder, Fs.reindex, Fs.endsWith, Fs.extension, push, List.takeWhile, List.dropWhile]
    decide +kernel
  refine ⟨e, fun f hf => usual_of_no_angle ?_⟩
  rw [e] at hf
  revert f
  decide +kernel

/-- The hypotheses of `C49_listed` hold for this folder. -/
example : Fs.Sound folder ∧ ∀ names, Fs.Wanted [c!"app"] [[c!"vendor"]] folder ([c!"app"] ++ names) →
    ∀ n ∈ names, n ≠ [] ∧ '/' ∉ n := by
  have hs : Fs.Sound folder := .file (.dir (.file (.file .nil)) (.dir (.file .nil) .nil))
  refine ⟨hs, fun names hw => ?_⟩
  have hm := Fs.C51_everything _ _ _ hs _ hw
  have e : Fs.reindex [c!"app"] [[c!"vendor"]] folder = [[c!"app", c!"a.php"], [c!"app", c!"src", c!"b.php"]] := by
    simp [folder, Fs.reindex, Fs.endsWith, Fs.extension, List.takeWhile, List.dropWhile]
    decide +kernel
  rw [e] at hm
  rcases hm with _ | ⟨_, _ | ⟨_, h⟩⟩
  · decide
  · decide
  · cases h

/-- A file with a usual name and an error. -/
example : Usual c!"/tmp/a.php" ∧ Erroneous plainHost c!"<?php ) " := by
  refine ⟨usual_of_no_angle (by decide), ?_⟩
  have e : (match sourceToAst plainHost c!"<?php ) " with | .ok (some x) => x.2.2.length | _ => 0) = 1 := by decide +kernel
  split at e
  · rename_i x hx
    exact .inr ⟨_, _, _, hx, fun h0 => by rw [h0] at e; cases e⟩
  · cases e

/-- A name that cannot be split into tokens. -/
example : Unscannable Unicode.ascii ['<', '?', 'p', 'h', 'p', ' ', '\x01'] := ⟨_, _, rfl⟩

end PhpLs.CommandLine
