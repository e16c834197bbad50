import Verif.FormatterShows
import Verif.FormatterCount
import Verif.Runs
import Verif.Props.ParserTrivia
import Verif.Props.ScannerInv

/-!
# Formatting (C48)

The claim, that formatting an error-free document keeps all its code and comments, replaces exactly the whole document and never
crashes, is true in its second part only.  Proved: what the answer is and which range it replaces; which tokens of the syntax tree
the new text shows and which it loses, for every document; that comments never have an influence on the new text; a list of
statements that crash the formatter in every document.  Not proved: that the new text is parsed to the same tree where nothing is
lost; the exact set of documents that crash the formatter.
-/

namespace PhpLs.Formatter

open PhpLs.Parser (strip TriviaOk)
open PhpLs.Scanner (endCol endLine)

/-- The tree of a document without errors. -/
def Parsed (h : Host) (source : Text) (ast : List Node) : Prop :=
  ∃ s p, Scanner.scan h.U source = .ok s ∧ Parser.ast h.U h.fuel s.tokens = .ok ast p ∧ p.errors = []

theorem formatting_some {h : Host} {st : Backend} {path : Text} {r : LspRange} {t : Text}
    (e : Backend.formatting h st path = .ok (some (r, t))) :
    ∃ source s ast p t', Dict.get? st.latest path = some source ∧ Scanner.scan h.U source = .ok s ∧
      Parser.ast h.U h.fuel s.tokens = .ok ast p ∧ p.errors = [] ∧
      r = getRange (NodeRange.ofPair (Scanner.documentRange s)) ∧ formatFile h.U 4 ast 0 0 = some t' ∧ t = c!"<?php\n" ++ t' := by
  unfold Backend.formatting at e
  cases hl : Dict.get? st.latest path with
  | none => rw [hl] at e; cases e
  | some source =>
    rw [hl] at e
    simp only at e
    cases hs : Scanner.scan h.U source with
    | err => rw [hs] at e; cases e
    | panic => rw [hs] at e; cases e
    | outOfFuel => rw [hs] at e; cases e
    | ok s =>
      rw [hs] at e
      simp only at e
      cases ha : Parser.ast h.U h.fuel s.tokens with
      | err => rw [ha] at e; cases e
      | panic => rw [ha] at e; cases e
      | diverge => rw [ha] at e; cases e
      | ok ast p =>
        rw [ha] at e
        simp only at e
        by_cases hp : p.errors.isEmpty
        · simp only [hp, Bool.not_true, Bool.false_eq_true, if_false] at e
          cases hf : formatFile h.U 4 ast 0 0 with
          | none => rw [hf] at e; cases e
          | some t' =>
            rw [hf] at e
            cases e
            exact ⟨source, s, ast, p, t', rfl, hs, ha, List.isEmpty_iff.1 hp, rfl, hf, rfl⟩
        · simp only [hp] at e
          cases e

/-- **C48 (the edit).** Formatting answers with one edit, and only for a document that is open and has no errors.  The edit replaces
the whole document, from its beginning to its end, and the new text starts with `<?php`. -/
theorem C48_whole_document {h : Host} {st : Backend} {path : Text} {r : LspRange} {t : Text}
    (e : Backend.formatting h st path = .ok (some (r, t))) :
    ∃ source ast, Dict.get? st.latest path = some source ∧ Parsed h source ast ∧
      r = ⟨⟨0, 0⟩, ⟨endLine source, endCol source⟩⟩ ∧ ∃ t', t = c!"<?php\n" ++ t' := by
  obtain ⟨source, s, ast, p, t', h1, h2, h3, h4, h5, -, h7⟩ := formatting_some e
  refine ⟨source, ast, h1, ⟨s, p, h2, h3, h4⟩, ?_, t', h7⟩
  rw [h5, Scanner.C02_document_range h.U source s h2]
  rfl

/-- **C48 (no edit).** A document that is not open or has syntax errors is left alone. -/
theorem C48_left_alone (h : Host) (st : Backend) (path : Text)
    (hn : Dict.get? st.latest path = none ∨ ∃ source s ast p, Dict.get? st.latest path = some source ∧
      Scanner.scan h.U source = .ok s ∧ Parser.ast h.U h.fuel s.tokens = .ok ast p ∧ p.errors ≠ []) :
    Backend.formatting h st path = .ok none := by
  unfold Backend.formatting
  rcases hn with hn | ⟨source, s, ast, p, h1, h2, h3, h4⟩
  · rw [hn]
  · rw [h1]
    simp only [h2, h3]
    cases hp : p.errors with
    | nil => exact absurd hp h4
    | cons _ _ => rfl

/-- **C48 (what is kept).** For every document: the new text shows the tokens of the tree that are to be kept, each at a place of
its own and in the order of the program text; every token of the tree is either among them or among those that are lost. -/
theorem C48_kept_partial {h : Host} {st : Backend} {path : Text} {r : LspRange} {t : Text}
    (e : Backend.formatting h st path = .ok (some (r, t))) :
    ∃ source ast, Dict.get? st.latest path = some source ∧ Parsed h source ast ∧
      Shows h.U (keptL true ast) t ∧ (Node.toksL ast).Perm (keptL true ast ++ lostL true ast) := by
  obtain ⟨source, s, ast, p, t', h1, h2, h3, h4, -, h6, h7⟩ := formatting_some e
  refine ⟨source, ast, h1, ⟨s, p, h2, h3, h4⟩, ?_, ?_⟩
  · unfold formatFile at h6
    cases hl : list h.U 4 ast 0 0 0 with
    | none => rw [hl] at h6; cases h6
    | some x =>
      rw [hl] at h6
      cases h6
      have := ((list_shows ast 0 0 0 x hl).trimEnd).append (.nil c!"\n")
      rw [List.append_nil] at this
      rw [h7]
      exact this.prepend _
  · refine List.perm_iff_count.2 fun k => ?_
    rw [List.count_append]
    exact count_list true ast k

/-- **C48 (nothing lost).** Where nothing is lost, the new text shows every token of the tree. -/
theorem C48_all_kept {h : Host} {st : Backend} {path : Text} {r : LspRange} {t : Text}
    (e : Backend.formatting h st path = .ok (some (r, t))) :
    ∃ source ast, Dict.get? st.latest path = some source ∧ Parsed h source ast ∧
      (lostL true ast = [] → ∃ ks, ks.Perm (Node.toksL ast) ∧ Shows h.U ks t) := by
  obtain ⟨source, ast, h1, h2, h3, h4⟩ := C48_kept_partial e
  refine ⟨source, ast, h1, h2, fun hl => ⟨_, ?_, h3⟩⟩
  rw [hl, List.append_nil] at h4
  exact h4.symm

/-- **C48 (line comments).** What stands in line comments never has an influence on the new text: two documents with the same tokens
at the same places, but for line comments and line breaks, get the same new text.  So no line comment survives. -/
theorem C48_comments_lost {h : Host} {st st' : Backend} {path : Text} {source source' : Text} {s s' : Scanner.St} {a b : List Token}
    {last : Token} (h1 : Dict.get? st.latest path = some source) (h1' : Dict.get? st'.latest path = some source')
    (h2 : Scanner.scan h.U source = .ok s) (h2' : Scanner.scan h.U source' = .ok s') (h3 : s.tokens = a ++ [last])
    (h3' : s'.tokens = b ++ [last]) (hs : strip (a ++ [last]) = strip (b ++ [last])) {r : LspRange} {t : Text}
    (e : Backend.formatting h st path = .ok (some (r, t))) :
    ∃ r', Backend.formatting h st' path = .ok (some (r', t)) := by
  obtain ⟨source₁, s₁, ast, p, t', g1, g2, g3, g4, -, g6, g7⟩ := formatting_some e
  rw [h1] at g1
  cases g1
  rw [h2] at g2
  cases g2
  have ha := Parser.triviaOk_of_scan h.U _ _ h2
  have hb := Parser.triviaOk_of_scan h.U _ _ h2'
  rw [h3] at g3 ha
  rw [h3'] at hb
  obtain ⟨p', k1, k2⟩ := Parser.C16_trivia_transparent h.U h.fuel a b last hs ha hb ast p g3
  unfold Backend.formatting
  rw [h1']
  simp only [h2', h3', k1, k2, g4, List.isEmpty_nil, Bool.not_true, Bool.false_eq_true, if_false, g6]
  exact ⟨_, by rw [g7]⟩

/-! ### Crashes -/

/-- Statements for which the formatter is not implemented. -/
inductive Unprintable : Node → Prop
  | block (oc statements cc) : Unprintable (.block oc statements cc)
  | trait (token name body docComment) : Unprintable (.traitStatement token name body docComment)
  | throw (token expression) : Unprintable (.throwStatement token expression)
  | unset (token op vars cp) : Unprintable (.unsetStatement token op vars cp)
  | die (token op expr cp) : Unprintable (.dieStatement token op expr cp)
  | declare (a b c d e f) : Unprintable (.declareStatement a b c d e f)
  | define (a b c d e f) : Unprintable (.defineStatement a b c d e f)
  | goto (token label) : Unprintable (.gotoStatement token label)
  | label (label colon) : Unprintable (.labelStatement label colon)
  | emptyScript : Unprintable .emptyScript

theorem stmt_unprintable {U : Unicode} {indent line col : Nat} {n : Node} (hn : Unprintable n) : stmt U indent n line col = none := by
  cases hn <;> simp only [stmt]

theorem cat_none {ps : List (Option Text)} (h : none ∈ ps) : cat ps = none := by
  induction ps with
  | nil => exact nomatch h
  | cons p r ih =>
    rcases List.mem_cons.1 h with rfl | h
    · rfl
    · unfold cat
      rw [ih h]
      cases p <;> rfl

theorem list_unprintable {U : Unicode} {indent line col : Nat} {n : Node} (hn : stmt U indent n line col = none) :
    ∀ (l : List Node) (prev : Nat), n ∈ l → list U indent l prev line col = none
  | m :: r, prev, hm => by
    simp only [list]
    cases m.range with
    | none => rfl
    | some range =>
      refine cat_none ?_
      rcases List.mem_cons.1 hm with rfl | hm
      · rw [hn]; simp
      · rw [list_unprintable hn r range.endLine hm]; simp

/-- **C48 (crashes).** A document without errors that contains such a statement at its top level crashes the formatter, whatever
else it contains. -/
theorem C48_crashes {h : Host} {st : Backend} {path source : Text} {ast : List Node} {n : Node}
    (h1 : Dict.get? st.latest path = some source) (h2 : Parsed h source ast) (hm : n ∈ ast) (hn : Unprintable n) :
    Backend.formatting h st path = .panic := by
  obtain ⟨s, p, h2, h3, h4⟩ := h2
  unfold Backend.formatting
  rw [h1]
  simp only [h2, h3, h4, List.isEmpty_nil, Bool.not_true, Bool.false_eq_true, if_false]
  have : formatFile h.U 4 ast 0 0 = none := by
    unfold formatFile
    rw [list_unprintable (stmt_unprintable hn) ast 0 hm]
    rfl
  rw [this]

/-- **C48 (crashes).** So does a text that the scanner rejects. -/
theorem C48_crashes_scan {h : Host} {st : Backend} {path source : Text} {m : Scanner.ScanError} {s : Scanner.St}
    (h1 : Dict.get? st.latest path = some source) (h2 : Scanner.scan h.U source = .err m s) :
    Backend.formatting h st path = .panic := by
  unfold Backend.formatting
  rw [h1]
  simp only [h2]

/-! ### Concrete documents -/

/-- The formatted text of a document: the inner `none` is a crash. -/
def formatted (source : Text) : Option (Option Text) :=
  match Backend.formatting plainHost { Backend.empty with latest := [(c!"a", source)] } c!"a" with
  | .ok (some (_, t)) => some (some t)
  | .ok none => none
  | _ => some none

/-- A document of which nothing is lost, and its new text. -/
def goodSource : Text := c!"<?php class A extends B { public function f(int $b, C $c = null): int { foreach ($x as $y => $z) { $this->g($z)[1]; } } }"

private theorem good_formatted : formatted goodSource = some (some
    c!"<?php\nclass A extends B\n{\n    public function f(int $b, C $c = null ): int\n    {\n        foreach ($x as $y => $z) {\n            $this->g($z)[1];\n        }\n    }\n}\n") := by
  decide +kernel

private theorem good_lost : lostL true (treeOf goodSource) = [] := by decide +kernel

private theorem good_kept : (keptL true (treeOf goodSource)).length = 39 := by decide +kernel

/-- The hypotheses of `C48_kept_partial` and `C48_all_kept` are met: 39 tokens are kept, in the order of the text, and none is
lost. -/
example : (∃ t, formatted goodSource = some (some t)) ∧ lostL true (treeOf goodSource) = [] ∧
    (keptL true (treeOf goodSource)).length = 39 := ⟨⟨_, good_formatted⟩, good_lost, good_kept⟩

/-- **C48 is violated.** A line comment is lost; so are a comment in front of a parameter and the documentation of a class. -/
theorem C48_violated_comments :
    formatted c!"<?php echo 1; // hi\n" = some (some c!"<?php\necho 1;\n") ∧
      formatted c!"<?php function f(/* b */ $c) {}" = some (some c!"<?php\nfunction f($c)\n{\n}\n") ∧
      formatted c!"<?php /** d */ class A {}" = some (some c!"<?php\nclass A\n{\n}\n") := by
  refine ⟨?_, ?_, ?_⟩ <;> decide +kernel

/-- **C48 is violated.** Text outside of the script is lost. -/
theorem C48_violated_html :
    formatted c!"html <?php echo 1;" = some (some c!"<?php\necho 1;\n") ∧
      formatted c!"<?php echo 1; ?> text" = some (some c!"<?php\necho 1;\n?>\n") := by
  refine ⟨?_, ?_⟩ <;> decide +kernel

/-- **C48 is violated.** Code is lost or becomes another code: the level of `break`, the word `use` of a closure (and what it
captures becomes something else), the type of a property, the reference of a function, the empty place in a list. -/
theorem C48_violated_code :
    formatted c!"<?php while ($a) { break 2; }" = some (some c!"<?php\nwhile ($a) {\n    break;}\n") ∧
      formatted c!"<?php $f = function () use ($b) {};" = some (some c!"<?php\n$f = function ()($b) {\n};\n") ∧
      formatted c!"<?php class A { private int $a; }" = some (some c!"<?php\nclass A\n{\n    private $a;\n}\n") ∧
      formatted c!"<?php function &f() {}" = some (some c!"<?php\nfunction f()\n{\n}\n") ∧
      formatted c!"<?php list($a, , $b) = $c;" = some (some c!"<?php\nlist($a, $b) = $c;\n") := by
  refine ⟨?_, ?_, ?_, ?_, ?_⟩ <;> decide +kernel

/-- **C48 is violated.** The new text is not even valid: `static fn` is glued together, `use` is doubled, the list of traits is cut
in two, the semicolon of `global` is missing, a here document with quotes becomes a string with quotes in it. -/
theorem C48_violated_syntax :
    formatted c!"<?php $f = static fn($a) => $a;" = some (some c!"<?php\n$f = staticfn ($a) => $a;\n") ∧
      formatted c!"<?php use function a;" = some (some c!"<?php\nuse function use a;\n") ∧
      formatted c!"<?php class A { use B, C; }" = some (some c!"<?php\nclass A\n{\n    use B;\nC;\n}\n") ∧
      formatted c!"<?php function f() { global $a; $b = 1; }" =
        some (some c!"<?php\nfunction f()\n{\nglobal $a    $b = 1;\n}\n") ∧
      formatted c!"<?php $a = <<<EOT\n\"y\"\nEOT;\n" = some (some c!"<?php\n$a = \"\n\"y\"\n\";\n") := by
  refine ⟨?_, ?_, ?_, ?_, ?_⟩ <;> decide +kernel

/-- **C48 is violated.** Simple documents without errors crash the formatter: a trait, an exception, a body without braces,
`else if`, `match`, an empty script; and a text that the scanner rejects. -/
theorem C48_violated_crash :
    formatted c!"<?php trait A {}" = some none ∧ formatted c!"<?php throw $e;" = some none ∧
      formatted c!"<?php if ($a) echo 1;" = some none ∧
      formatted c!"<?php if ($a) { } else if ($b) { }" = some none ∧
      formatted c!"<?php $a = match($b) { 1 => 2 };" = some none ∧ formatted c!"<?php" = some none ∧
      formatted c!"<?php $a = <<<'x" = some none := by
  refine ⟨?_, ?_, ?_, ?_, ?_, ?_, ?_⟩ <;> decide +kernel

/-- The hypotheses of `C48_comments_lost` are met by two texts with different comments. -/
example : (match Scanner.scan Unicode.ascii c!"<?php echo 1; //x\n", Scanner.scan Unicode.ascii c!"<?php echo 1; # yy\n" with
    | .ok s, .ok s' => decide (strip s.tokens = strip s'.tokens ∧ s.tokens ≠ s'.tokens ∧ s.tokens.getLast? = s'.tokens.getLast?)
    | _, _ => false) = true := by
  decide +kernel

/-- The hypotheses of `C48_crashes` are met. -/
example : (treeOf c!"<?php echo 1; { echo 2; }").map (fun n => match n with | .block .. => true | _ => false) = [false, true] := by
  decide +kernel

end PhpLs.Formatter
