import Verif.ScannerSim

/-!
# Scanner properties about whole texts: C04 (carriage returns), C05 (text outside of the tags), C12 (heredoc)
-/

namespace PhpLs.Scanner

open PhpLs

/-! ## C04: carriage returns -/

/-- What a caller of the scanner can see: the tokens and the document range, or the error. -/
inductive Seen where
  | tokens (ts : List Token) (range : ColLine × ColLine)
  | error (e : ScanError)
  | crash
deriving DecidableEq

def seen : Outcome → Seen
  | .ok s => .tokens s.tokens (documentRange s)
  | .err e _ => .error e
  | _ => .crash

/-- The text with CRLF line endings. -/
def crlf (t : Text) : Text := t.flatMap (fun c => if c = '\n' then ['\r', '\n'] else [c])

theorem cr_crlf (t : Text) : Cr True t (crlf t) := by
  induction t with
  | nil => exact .nil
  | cons c t ih =>
    unfold crlf at ih ⊢
    rw [List.flatMap_cons]
    split
    · rename_i h; subst h; exact .ins trivial ih
    · exact .cons c ih

theorem posRel_eq : PosRel Eq := ⟨fun l c l' c' h => by cases h; rfl, fun l c l' c' h => by cases h; rfl⟩

theorem seen_of_outSim {f : Prop} {o o' : Outcome} (h : OutSim Eq f o o') : seen o = seen o' := by
  cases o <;> cases o'
  case ok.ok s s' =>
    have hp := h.pos
    simp only [Prod.mk.injEq] at hp
    simp only [seen, St.tokens, documentRange, h.toks.eq, hp.1, hp.2]
  case err.err e _ e' _ =>
    cases e <;> cases e' <;> simp_all [OutSim, seen]
  all_goals first
    | rfl
    | (simp [OutSim] at h; done)
    | (rename_i e _ ; cases e <;> simp [OutSim] at h)

/-- **C04, partial: texts without `<<<`.**  Inserting carriage returns before any choice of line feeds changes neither the
tokens and their positions, nor the document range, nor the error. -/
theorem C04_carriage_returns_partial (U : Unicode) (t t' : Text) (h : Cr True t t') (hn : ¬ c!"<<<" <:+: t) :
    seen (scan U t') = seen (scan U t) := by
  have hs : Sim Eq True (new t) (new t') := ⟨rfl, h, rfl, rfl, .nil⟩
  have := seen_of_outSim (sim_loop U posRel_eq (max t.length t'.length + 1) hs (Or.inr hn))
  rw [C01_fuel_irrelevant U t _ (by omega), C01_fuel_irrelevant U t' _ (by omega)] at this
  exact this.symm

/-- **C04, partial.** A file saved with CRLF line endings scans like the same file saved with LF line endings. -/
theorem C04_crlf_partial (U : Unicode) (t : Text) (hn : ¬ c!"<<<" <:+: t) : seen (scan U (crlf t)) = seen (scan U t) :=
  C04_carriage_returns_partial U t _ (cr_crlf t) hn

/-- The hypothesis is met by a text with comments, strings and line breaks, and the scan is not trivial. -/
example : ¬ c!"<<<" <:+: c!"<?php // a\n$b = 'c\nd';\n" ∧
    ∃ ts r, seen (scan Unicode.ascii (crlf c!"<?php // a\n$b = 'c\nd';\n")) = .tokens ts r ∧ ts.length = 10 :=
  ⟨by decide, _, _, rfl, rfl⟩

/-- **C04 is violated by heredocs**: with CRLF line endings the terminator is never found. -/
theorem C04_violation_heredoc :
    (∃ ts r, seen (scan Unicode.ascii c!"<?php $a = <<<A\nb\nA;\n") = .tokens ts r) ∧
      seen (scan Unicode.ascii (crlf c!"<?php $a = <<<A\nb\nA;\n")) = .error .unterminatedHeredoc :=
  ⟨⟨_, _, rfl⟩, rfl⟩

/-! ## C05: text outside of the tags -/

theorem loop_mark (U : Unicode) (n : Nat) (s : St) (a b : Nat) :
    loop U n { s with sLine := a, sCol := b } = loop U n s := by
  cases n with
  | zero => rfl
  | succ n => unfold loop step; rfl

theorem loop_cr (U : Unicode) (n : Nat) (s : St) (r : Text) (h : s.chars = '\r' :: r) :
    loop U n s = loop U n { s with chars := r } := by
  cases n with
  | zero => rfl
  | succ n =>
    unfold loop step
    rw [advance_cr s.mark r h]
    rfl

/-- The state behind a text that is read outside of the script: only the position moves. -/
def skipTo (s : St) (w x : Text) : St :=
  { s with
    line := (posAfter (s.line, s.col) w).1
    col := (posAfter (s.line, s.col) w).2
    chars := x }

theorem skipTo_cons (s : St) (c : Char) (w x y : Text) : skipTo (skipTo s [c] y) w x = skipTo s (c :: w) x := by
  have : c :: w = [c] ++ w := rfl
  unfold skipTo
  rw [this, posAfter_append]

theorem skipTo_nil (s : St) (x : Text) : skipTo s [] x = { s with chars := x } := by
  simp [skipTo, posAfter, endLine, endCol]

theorem readOne_out (s : St) (c : Char) (r : Text) (hc : s.ctx = .outScript) (h : c ≠ '\r') :
    readOne s c r = skipTo s [c] r := by
  unfold readOne skipTo
  split
  · rename_i hn; subst hn
    simp [St.push, hc, posAfter, endLine, endCol]
  · rename_i hn
    have e1 : endLine [c] = 0 := by simp [endLine, hn]
    have e2 : endCol [c] = 1 := by simp [endCol, h, hn]
    simp [posAfter, e1, e2]

theorem adv_out (s : St) (c : Char) (r : Text) (hs : s.chars = c :: r) (hc : s.ctx = .outScript) (h : c ≠ '\r') :
    s.adv = skipTo s [c] r := by rw [adv_cons s c r hs h, readOne_out s c r hc h]

theorem push_out (s : St) (t : TT) (hc : s.ctx = .outScript) : s.push t = s := by
  unfold St.push; rw [if_pos (by simp [hc])]

theorem step_out_lt (U : Unicode) (s : St) (x : Text) (hs : s.chars = '<' :: x) (hc : s.ctx = .outScript) :
    step U s = scanSmaller U (skipTo s.mark ['<'] x) := by
  unfold step
  rw [advance_cons s.mark '<' x hs (by decide), readOne_out s.mark '<' x hc (by decide)]
  dsimp only
  rw [if_neg (by simp)]
  simp [scanChar]

theorem step_out_ne (U : Unicode) (s : St) (c : Char) (x : Text) (hs : s.chars = c :: x) (hc : s.ctx = .outScript)
    (h : c ≠ '<') (hr : c ≠ '\r') : step U s = .cont (skipTo s.mark [c] x) := by
  unfold step
  rw [advance_cons s.mark c x hs hr, readOne_out s.mark c x hc hr]
  dsimp only
  rw [if_pos]
  exact ⟨hc, h⟩

/-- HTML text: no opening tag, no `<<<`, and no `<` at its end. -/
structure Html (h : Text) : Prop where
  noTag : ¬ c!"<?" <:+: h
  noHeredoc : ¬ c!"<<<" <:+: h
  noEnd : h.getLast? ≠ some '<'

theorem Html.tail {c : Char} {h : Text} (hh : Html (c :: h)) : Html h := by
  refine ⟨fun hi => hh.noTag (hi.trans (List.suffix_cons c h).isInfix),
    fun hi => hh.noHeredoc (hi.trans (List.suffix_cons c h).isInfix), fun hl => hh.noEnd ?_⟩
  rw [List.getLast?_cons, hl]; rfl

theorem peek_skipTo (s : St) (w x : Text) : (skipTo s w x).peek = x.head? := by cases x <;> rfl

theorem push_skipTo (s : St) (w x : Text) (t : TT) (hc : s.ctx = .outScript) : (skipTo s w x).push t = skipTo s w x :=
  push_out (skipTo s w x) t hc

theorem adv_skipTo (s : St) (w : Text) (c : Char) (x : Text) (hc : s.ctx = .outScript) (h : c ≠ '\r') :
    (skipTo s w (c :: x)).adv = skipTo s (w ++ [c]) x := by
  rw [adv_out (skipTo s w (c :: x)) c x rfl hc h]
  unfold skipTo
  rw [posAfter_append]

/-- **C05.** From any state outside of the script, HTML text is skipped: no token is added, only the position moves, and the
scan goes on behind it. -/
theorem C05_run (U : Unicode) (k : Nat) (h rest : Text) (hk : h.length ≤ k) (s : St) (n : Nat) (hs : s.chars = h ++ rest)
    (hc : s.ctx = .outScript) (hh : Html h) (hr : rest = [] ∨ ∃ r, rest = '<' :: r) (hn : s.chars.length < n) :
    loop U n s = loop U n (skipTo s h rest) := by
  induction k generalizing h s with
  | zero =>
    have : h = [] := List.eq_nil_of_length_eq_zero (by omega)
    subst this
    rw [skipTo_nil, ← show s.chars = rest from hs]
  | succ k ih =>
    have hrest : rest.head? ≠ some '>' ∧ rest.head? ≠ some '=' := by rcases hr with rfl | ⟨r, rfl⟩ <;> simp
    -- one turn that skips the text `w`
    have turn : ∀ (w h' : Text) (s1 : St), h = w ++ h' → w ≠ [] → s1 = skipTo s.mark w (h' ++ rest) → Html h' →
        step U s = .cont s1 → loop U n s = loop U n (skipTo s h rest) := by
      intro w h' s1 hw hw0 hs1 hh' e
      have hlw : 0 < w.length := by cases w <;> simp_all
      obtain ⟨m, rfl⟩ : ∃ m, n = m + 1 := ⟨n - 1, by omega⟩
      have hl : loop U (m + 1) s = loop U m s1 := by
        conv => lhs; unfold loop
        rw [e]
      have hlt := step_cont_chars_lt U e
      have hfu : loop U m s1 = loop U (m + 1) s1 := loop_fuel U _ _ _ (by omega) (by omega)
      have hch : s1.chars = h' ++ rest := by rw [hs1]; rfl
      rw [hl, hfu, ih h' (by rw [hw] at hk; simp at hk; omega) s1 hch (by rw [hs1]; exact hc) hh' (by omega), hs1, hw]
      have : skipTo (skipTo s.mark w (h' ++ rest)) h' rest = { skipTo s (w ++ h') rest with sLine := s.line, sCol := s.col } := by
        unfold skipTo
        rw [posAfter_append]
        rfl
      rw [this, loop_mark]
    cases h with
    | nil => rw [skipTo_nil, ← show s.chars = rest from hs]
    | cons c r =>
      by_cases hcr : c = '\r'
      · subst hcr
        rw [loop_cr U n s (r ++ rest) hs, ih r (by simpa using hk) { s with chars := r ++ rest } rfl hc hh.tail
          (by rw [hs] at hn; simp at hn ⊢; omega)]
        congr 1
        have : '\r' :: r = ['\r'] ++ r := rfl
        unfold skipTo
        rw [this, posAfter_append]
        simp [posAfter, endLine, endCol]
      · by_cases hlt : c = '<'
        · subst hlt
          have e := step_out_lt U s (r ++ rest) hs hc
          cases r with
          | nil => exact absurd rfl hh.noEnd
          | cons d r' =>
            have hd1 : d ≠ '?' := by
              rintro rfl; exact hh.noTag ⟨[], r', rfl⟩
            by_cases hd2 : d = '<'
            · subst hd2
              cases r' with
              | nil => exact absurd rfl hh.noEnd
              | cons g r2 =>
                have hg1 : g ≠ '<' := by rintro rfl; exact hh.noHeredoc ⟨[], r2, rfl⟩
                have hadv : (skipTo s.mark ['<'] ('<' :: g :: r2 ++ rest)).adv = skipTo s.mark ['<', '<'] (g :: r2 ++ rest) :=
                    adv_skipTo s.mark _ _ _ hc (by decide)
                by_cases hg2 : g = '='
                · subst hg2
                  have hadv2 : (skipTo s.mark ['<', '<'] ('=' :: r2 ++ rest)).adv = skipTo s.mark ['<', '<', '='] (r2 ++ rest) :=
                    adv_skipTo s.mark _ _ _ hc (by decide)
                  refine turn ['<', '<', '='] r2 _ rfl (by simp) rfl hh.tail.tail.tail ?_
                  rw [e]
                  unfold scanSmaller
                  have p1 : (skipTo s.mark ['<'] ('<' :: '=' :: r2 ++ rest)).peek = some '<' := rfl
                  have p2 : (skipTo s.mark ['<', '<'] ('=' :: r2 ++ rest)).peek = some '=' := rfl
                  simp only [p1, hadv, p2, hadv2]
                  rw [push_skipTo s.mark _ _ _ hc]
                · refine turn ['<', '<'] (g :: r2) _ rfl (by simp) rfl hh.tail.tail ?_
                  rw [e]
                  unfold scanSmaller
                  have p1 : (skipTo s.mark ['<'] ('<' :: g :: r2 ++ rest)).peek = some '<' := rfl
                  have p2 : (skipTo s.mark ['<', '<'] (g :: r2 ++ rest)).peek = some g := rfl
                  simp only [p1, hadv, p2]
                  split
                  · rename_i hp; exact absurd (Option.some.inj hp) hg1
                  · rename_i hp; exact absurd (Option.some.inj hp) hg2
                  · rw [push_skipTo s.mark _ _ _ hc]
            · by_cases hd3 : d = '='
              · subst hd3
                have hadv : (skipTo s.mark ['<'] ('=' :: r' ++ rest)).adv = skipTo s.mark ['<', '='] (r' ++ rest) :=
                    adv_skipTo s.mark _ _ _ hc (by decide)
                have p1 : (skipTo s.mark ['<'] ('=' :: r' ++ rest)).peek = some '=' := rfl
                by_cases hgt : ∃ r2, r' = '>' :: r2
                · obtain ⟨r2, rfl⟩ := hgt
                  have hadv2 : (skipTo s.mark ['<', '='] ('>' :: r2 ++ rest)).adv = skipTo s.mark ['<', '=', '>'] (r2 ++ rest) :=
                    adv_skipTo s.mark _ _ _ hc (by decide)
                  have p2 : (skipTo s.mark ['<', '='] ('>' :: r2 ++ rest)).peek = some '>' := rfl
                  refine turn ['<', '=', '>'] r2 _ rfl (by simp) rfl hh.tail.tail.tail ?_
                  rw [e]
                  unfold scanSmaller
                  simp only [p1, hadv, p2, hadv2]
                  rw [push_skipTo s.mark _ _ _ hc]
                · have p2 : (skipTo s.mark ['<', '='] (r' ++ rest)).peek ≠ some '>' := by
                    rw [peek_skipTo]
                    cases r' with
                    | nil => exact hrest.1
                    | cons g r2 => intro hg; cases hg; exact hgt ⟨r2, rfl⟩
                  refine turn ['<', '='] r' _ rfl (by simp) rfl hh.tail.tail ?_
                  rw [e]
                  unfold scanSmaller
                  simp only [p1, hadv]
                  rw [push_skipTo s.mark _ _ _ hc]
              · by_cases hd4 : d = '>'
                · subst hd4
                  have hadv : (skipTo s.mark ['<'] ('>' :: r' ++ rest)).adv = skipTo s.mark ['<', '>'] (r' ++ rest) :=
                    adv_skipTo s.mark _ _ _ hc (by decide)
                  have p1 : (skipTo s.mark ['<'] ('>' :: r' ++ rest)).peek = some '>' := rfl
                  refine turn ['<', '>'] r' _ rfl (by simp) rfl hh.tail.tail ?_
                  rw [e]
                  unfold scanSmaller
                  simp only [p1, hadv]
                  rw [push_skipTo s.mark _ _ _ hc]
                · refine turn ['<'] (d :: r') _ rfl (by simp) rfl hh.tail ?_
                  rw [e]
                  unfold scanSmaller
                  have p1 : (skipTo s.mark ['<'] (d :: r' ++ rest)).peek = some d := rfl
                  simp only [p1]
                  split
                  · rename_i hp; exact absurd (Option.some.inj hp) hd2
                  · rename_i hp; exact absurd (Option.some.inj hp) hd1
                  · rename_i hp; exact absurd (Option.some.inj hp) hd3
                  · rename_i hp; exact absurd (Option.some.inj hp) hd4
                  · rw [push_skipTo s.mark _ _ _ hc]
        · exact turn [c] r _ rfl (by simp) rfl hh.tail (step_out_ne U s c (r ++ rest) hs hc hlt hcr)

/-- The position `p` of a text when that text comes behind the position `o`. -/
def shiftPos (o p : Nat × Nat) : Nat × Nat := if p.1 = 0 then (o.1, o.2 + p.2) else (o.1 + p.1, p.2)

/-- The token at the shifted position. -/
def shiftTok (o : Nat × Nat) (k : Token) : Token :=
  { k with
    line := (shiftPos o (k.line, k.col)).1
    col := (shiftPos o (k.line, k.col)).2 }

theorem posRel_shift (o : Nat × Nat) : PosRel (fun p q => q = shiftPos o p) := by
  constructor
  · intro l c l' c' h
    unfold shiftPos at h ⊢
    dsimp only at h ⊢
    split at h <;> (cases h; rename_i hh; simp [hh])
    omega
  · intro l c l' c' h
    unfold shiftPos at h ⊢
    dsimp only at h ⊢
    split at h <;> cases h <;> simp [*]
    omega

theorem toksRel_shift {o : Nat × Nat} {a b : List Token} (h : ToksRel (fun p q => q = shiftPos o p) a b) :
    b = a.map (shiftTok o) := by
  induction h with
  | nil => rfl
  | cons k _ ih =>
    rename_i x y _ _ _
    obtain ⟨h1, h2, h3, h4⟩ := k
    rw [List.map_cons, ← ih]
    congr 1
    cases x; cases y
    simp only [shiftTok]
    simp_all
    constructor
    · rw [← h4]
    · rw [← h4]

/-- **C05, partial: HTML without `<<<` and not ending in `<`.**  Text before an opening tag adds no tokens: the tokens of
`h ++ rest` are exactly the tokens of `rest`, at positions shifted by the extent of `h`. -/
theorem C05_html_ignored_partial (U : Unicode) (h rest : Text) (hh : Html h) (hr : rest = [] ∨ ∃ r, rest = '<' :: r)
    (s : St) (hs : scan U rest = .ok s) :
    ∃ s', scan U (h ++ rest) = .ok s' ∧ s'.tokens = s.tokens.map (shiftTok (endPos h)) := by
  have h1 := C05_run U h.length h rest (Nat.le_refl _) (new (h ++ rest)) ((h ++ rest).length + 1) rfl rfl hh hr (by simp [new])
  rw [← loop_mark U _ (skipTo (new (h ++ rest)) h rest) (endPos h).1 (endPos h).2] at h1
  have hsim : Sim (fun p q => q = shiftPos (endPos h) p) False (new rest)
      { skipTo (new (h ++ rest)) h rest with
        sLine := (endPos h).1
        sCol := (endPos h).2 } := by
    refine ⟨rfl, Cr.refl _ _, ?_, rfl, .nil⟩
    show ((posAfter (0, 0) h).1, (posAfter (0, 0) h).2) = _
    rw [posAfter_origin]; rfl
  have h2 := sim_loop U (posRel_shift (endPos h)) ((h ++ rest).length + 1) hsim (Or.inl id)
  rw [← h1, C01_fuel_irrelevant U rest _ (by simp; omega), hs] at h2
  change OutSim _ _ (.ok s) (scan U (h ++ rest)) at h2
  cases hsc : scan U (h ++ rest) with
  | ok s' =>
    rw [hsc] at h2
    exact ⟨s', rfl, by unfold St.tokens; rw [toksRel_shift h2.toks, List.map_reverse]⟩
  | _ => rw [hsc] at h2; exact absurd h2 (by simp [OutSim])

/-- The number, the kinds and the labels of the tokens do not depend on the HTML text. -/
theorem C05_tokens_independent_partial (U : Unicode) (h1 h2 rest : Text) (hh1 : Html h1) (hh2 : Html h2)
    (hr : rest = [] ∨ ∃ r, rest = '<' :: r) (s : St) (hs : scan U rest = .ok s) :
    ∃ s1 s2, scan U (h1 ++ rest) = .ok s1 ∧ scan U (h2 ++ rest) = .ok s2 ∧ s1.tokens.length = s2.tokens.length ∧
      s1.tokens.map (fun k => (k.t, k.label)) = s2.tokens.map (fun k => (k.t, k.label)) := by
  obtain ⟨s1, e1, t1⟩ := C05_html_ignored_partial U h1 rest hh1 hr s hs
  obtain ⟨s2, e2, t2⟩ := C05_html_ignored_partial U h2 rest hh2 hr s hs
  refine ⟨s1, s2, e1, e2, by simp [t1, t2], ?_⟩
  rw [t1, t2, List.map_map, List.map_map]
  rfl

/-- A text without opening tag has no tokens at all. -/
theorem C05_no_tag_no_tokens_partial (U : Unicode) (h : Text) (hh : Html h) :
    ∃ s, scan U h = .ok s ∧ s.tokens = [] := by
  obtain ⟨s, e, t⟩ := C05_html_ignored_partial U h [] hh (Or.inl rfl) _ rfl
  rw [List.append_nil] at e
  exact ⟨s, e, t⟩

/-- The hypotheses are met by real markup with comparison-like characters. -/
example : Html c!"<!DOCTYPE html>\r\n<p a<=b c<>d << e>\n'" ∧
    ∃ s, scan Unicode.ascii c!"<?php $a;" = .ok s ∧ s.tokens.length = 4 :=
  ⟨⟨by decide, by decide, by decide⟩, _, rfl, rfl⟩

/-- **C05 is violated** by `<<<` in the markup, which produces heredoc tokens, and by a `<` directly before the tag, which
hides the tag. -/
theorem C05_violation :
    (∃ s, scan Unicode.ascii c!"<<<A\nA\n" = .ok s ∧ s.tokens.length = 3) ∧
      (∃ s, scan Unicode.ascii c!"<<?php $a;" = .ok s ∧ s.tokens = []) :=
  ⟨⟨_, rfl, rfl⟩, ⟨_, rfl, rfl⟩⟩

/-- The opening tag is only recognised in lower case. -/
theorem C05_violation_upper_case_tag : ∃ s, scan Unicode.ascii c!"<?PHP $a;" = .ok s ∧ s.tokens = [] := ⟨_, rfl, rfl⟩

/-! ## C12: heredocs -/

/-- A body line that does not look like the terminator: its first character behind the blanks differs from the first
character of the marker. -/
structure BodyLine (m : Text) (l : Text) : Prop where
  noNl : '\n' ∉ l
  noCr : '\r' ∉ l
  differs : ∀ c, (l.dropWhile (fun c => c = ' ' || c = '\t')).head? = some c → m.head? ≠ some c

/-- The text of the lines, each ended by a line feed. -/
def joinLines (ls : List Text) : Text := ls.flatMap (fun l => l ++ ['\n'])

/-- How the lines of a body are read, and what becomes the label: a line that does not look like the terminator is kept.  If a line
begins, behind blanks, with a proper part of the marker, the first character of it is doubled and the character behind the part is
lost.  If this character is the line feed, the next line is a part of this one, even if it is the terminator. -/
inductive Reads (m : Text) : List Text → Text → Prop where
  | nil : Reads m [] []
  | plain {l t : Text} {ls : List Text} (h : BodyLine m l) (hr : Reads m ls t) : Reads m (l :: ls) (l ++ '\n' :: t)
  | bent {b p q r t : Text} {c d e : Char} {ls : List Text} (hb : ∀ x ∈ b, x = ' ' ∨ x = '\t') (hm : m = c :: p ++ e :: q) (hd : d ≠ e)
      (hn : '\n' ∉ d :: r ∧ '\r' ∉ d :: r) (hr : Reads m ls t) :
      Reads m ((b ++ c :: p ++ d :: r) :: ls) (b ++ c :: c :: p ++ r ++ '\n' :: t)
  | joined {b p q l t : Text} {c e : Char} {ls : List Text} (hb : ∀ x ∈ b, x = ' ' ∨ x = '\t') (hm : m = c :: p ++ e :: q)
      (hn : '\n' ∉ l ∧ '\r' ∉ l) (hr : Reads m ls t) :
      Reads m ((b ++ c :: p) :: l :: ls) (b ++ c :: c :: p ++ l ++ '\n' :: t)

theorem Reads.plains {m : Text} : ∀ {ls : List Text}, (∀ l ∈ ls, BodyLine m l) → Reads m ls (joinLines ls)
  | [], _ => .nil
  | l :: ls, h => by
    have := Reads.plain (h l (by simp)) (Reads.plains (m := m) (ls := ls) fun k hk => h k (by simp [hk]))
    have e : joinLines (l :: ls) = l ++ '\n' :: joinLines ls := by simp [joinLines]
    rw [e]
    exact this

theorem readText_set (s : St) (a b x y : Text) :
    ({ readText ({ readText s a with chars := x } : St) b with chars := y } : St) = { readText s (a ++ b) with chars := y } := by
  rw [readText_chars, ← readText_append]

/-- The rest of a line that cannot be the terminator any more. -/
theorem hereDoc_restOfLine (m l x : Text) (hl : '\n' ∉ l ∧ '\r' ∉ l) (n : Nat) (hd pre : Text) (s : St)
    (hs : s.chars = l ++ '\n' :: x) (hc : s.ctx = .inScript) :
    hereDocLoop m (n + l.length + 1) hd pre false s =
      hereDocLoop m n (hd ++ (pre ++ l ++ ['\n'])) [] true { readText s (l ++ ['\n']) with chars := x } := by
  induction l generalizing pre s with
  | nil =>
    have hp : s.peek = some '\n' := by unfold St.peek; rw [hs]; rfl
    conv => lhs; unfold hereDocLoop
    simp only [hp, if_true]
    rw [adv_text s '\n' x hs (by decide) hc]
    simp
  | cons c l ih =>
    have hp : s.peek = some c := by unfold St.peek; rw [hs]; rfl
    have h1 : c ≠ '\n' := fun h => hl.1 (by simp [h])
    have h2 : c ≠ '\r' := fun h => hl.2 (by simp [h])
    rw [show n + (c :: l).length + 1 = (n + l.length + 1) + 1 by simp; omega]
    conv => lhs; unfold hereDocLoop
    simp only [hp, h1, if_false, true_or, if_true]
    rw [adv_text s c (l ++ '\n' :: x) hs h2 hc,
      ih ⟨fun h => hl.1 (by simp [h]), fun h => hl.2 (by simp [h])⟩ (pre ++ [c]) _ rfl (by simp [(readText_fields s [c]).1, hc]),
      readText_set]
    simp

/-- Leading blanks of a line. -/
theorem hereDoc_blanks (m b x : Text) (hb : ∀ c ∈ b, c = ' ' ∨ c = '\t') (n : Nat) (hd pre : Text) (s : St)
    (hs : s.chars = b ++ x) (hc : s.ctx = .inScript) :
    hereDocLoop m (n + b.length) hd pre true s =
      hereDocLoop m n hd (pre ++ b) true { readText s b with chars := x } := by
  induction b generalizing pre s with
  | nil => simp only [List.length_nil, Nat.add_zero, List.append_nil, readText]; rw [← show s.chars = x from hs]
  | cons c b ih =>
    have hp : s.peek = some c := by unfold St.peek; rw [hs]; rfl
    have hcb := hb c (by simp)
    have h1 : c ≠ '\n' := by rcases hcb with rfl | rfl <;> decide
    have h2 : c ≠ '\r' := by rcases hcb with rfl | rfl <;> decide
    rw [show n + (c :: b).length = (n + b.length) + 1 by simp; omega]
    conv => lhs; unfold hereDocLoop
    simp only [hp, h1, if_false, reduceCtorEq, false_or, hcb, if_true]
    rw [adv_text s c (b ++ x) hs h2 hc, ih (fun d hd => hb d (by simp [hd])) (pre ++ [c]) _ rfl
      (by simp [(readText_fields s [c]).1, hc]), readText_set]
    simp

/-- One body line. -/
theorem hereDoc_line (m l x : Text) (hm : m ≠ []) (hl : BodyLine m l) (n : Nat) (hd : Text) (s : St)
    (hs : s.chars = l ++ '\n' :: x) (hc : s.ctx = .inScript) :
    hereDocLoop m (n + (l.length + 1)) hd [] true s =
      hereDocLoop m n (hd ++ (l ++ ['\n'])) [] true { readText s (l ++ ['\n']) with chars := x } := by
  obtain ⟨b, r, hbr, hb, hr⟩ : ∃ b r, l = b ++ r ∧ (∀ c ∈ b, c = ' ' ∨ c = '\t') ∧
      r = l.dropWhile (fun c => c = ' ' || c = '\t') := by
    refine ⟨l.takeWhile (fun c => c = ' ' || c = '\t'), _, (List.takeWhile_append_dropWhile ..).symm, ?_, rfl⟩
    intro c hc
    have := List.all_eq_true.mp (List.all_takeWhile (p := fun c => decide (c = ' ') || decide (c = '\t')) (l := l)) c hc
    simpa using this
  have hdiff := hl.differs
  rw [← hr] at hdiff
  have hn1 := hl.noNl
  have hn2 := hl.noCr
  have hhead : ∀ d r', r = d :: r' → d ≠ ' ' ∧ d ≠ '\t' := by
    intro d r' e
    rw [hr] at e
    have := List.head?_dropWhile_not (p := fun c => decide (c = ' ') || decide (c = '\t')) (l := l)
    rw [e] at this
    simpa using this
  clear hr
  subst hbr
  have hfuel : n + ((b ++ r).length + 1) = (n + r.length + 1) + b.length := by simp; omega
  rw [hfuel, hereDoc_blanks m b (r ++ '\n' :: x) hb (n + r.length + 1) hd [] s (by rw [hs]; simp) hc]
  have hc' : ({ readText s b with chars := r ++ '\n' :: x } : St).ctx = .inScript := by simp [(readText_fields s b).1, hc]
  cases r with
  | nil =>
    conv => lhs; unfold hereDocLoop
    have hp : ({ readText s b with chars := [] ++ '\n' :: x } : St).peek = some '\n' := rfl
    simp only [hp, if_true]
    rw [adv_text _ '\n' x rfl (by decide) hc', readText_set]
    simp
  | cons d r =>
    have hd1 : d ≠ '\n' := fun h => hn1 (by simp [h])
    have hd2 : d ≠ '\r' := fun h => hn2 (by simp [h])
    obtain ⟨hd3, hd4⟩ := hhead d r rfl
    have hd5 : m.head? ≠ some d := hdiff d rfl
    rw [show n + (d :: r).length + 1 = (n + r.length + 1) + 1 by simp; omega]
    conv => lhs; unfold hereDocLoop
    have hp : ({ readText s b with chars := d :: r ++ '\n' :: x } : St).peek = some d := rfl
    have hmm : matchMarker m { readText s b with chars := d :: r ++ '\n' :: x } =
        ([], false, { readText s (b ++ [d]) with chars := r ++ '\n' :: x }) := by
      cases m with
      | nil => exact absurd rfl hm
      | cons m0 ms =>
        unfold matchMarker
        rw [advance_text _ d (r ++ '\n' :: x) rfl hd2 hc', readText_set]
        dsimp only
        rw [if_neg]
        rintro rfl
        exact hd5 rfl
    simp only [hp, hd1, hd3, hd4, if_false, reduceCtorEq, or_self, hmm]
    rw [hereDoc_restOfLine m r x ⟨fun h => hn1 (by simp [h]), fun h => hn2 (by simp [h])⟩ n hd _ _ rfl
      (by simp [(readText_fields s (b ++ [d])).1, hc]), readText_set]
    simp

/-- The marker does not match: the character that differs is consumed. -/
theorem matchMarker_fails {p q : Text} {e d : Char} (x : Text) (hm : '\r' ∉ p) (hd : d ≠ e) (hr : d ≠ '\r') (s : St)
    (hs : s.chars = p ++ d :: x) (hc : s.ctx = .inScript) :
    matchMarker (p ++ e :: q) s = (p, false, { readText s (p ++ [d]) with chars := x }) := by
  induction p generalizing s with
  | nil =>
    change matchMarker (e :: q) s = _
    unfold matchMarker
    rw [advance_text s d x hs hr hc]
    dsimp only
    rw [if_neg hd]
    rfl
  | cons c p ih =>
    change matchMarker (c :: (p ++ e :: q)) s = _
    unfold matchMarker
    rw [advance_text s c (p ++ d :: x) hs (fun h => hm (by simp [h])) hc]
    dsimp only
    rw [if_pos rfl, ih (fun h => hm (by simp [h])) _ rfl (by simp [(readText_fields s [c]).1, hc])]
    dsimp only
    rw [readText_set]
    rfl

/-- A line that begins with a proper part of the marker, followed by `d` and the rest of a line. -/
theorem hereDoc_bent {b p q r : Text} {c d e : Char} (x : Text) (hb : ∀ y ∈ b, y = ' ' ∨ y = '\t') (hd : d ≠ e) (hdr : d ≠ '\r')
    (hp : ∀ y ∈ c :: p, y ≠ '\n' ∧ y ≠ '\r' ∧ y ≠ ' ' ∧ y ≠ '\t') (hn : '\n' ∉ r ∧ '\r' ∉ r) (n : Nat) (hd0 : Text) (s : St)
    (hs : s.chars = b ++ c :: p ++ d :: r ++ '\n' :: x) (hc : s.ctx = .inScript) :
    hereDocLoop (c :: p ++ e :: q) (n + r.length + 1 + 1 + b.length) hd0 [] true s =
      hereDocLoop (c :: p ++ e :: q) n (hd0 ++ (b ++ c :: c :: p ++ r ++ ['\n'])) [] true
        { readText s (b ++ c :: p ++ d :: r ++ ['\n']) with chars := x } := by
  rw [hereDoc_blanks _ b (c :: p ++ d :: r ++ '\n' :: x) hb (n + r.length + 1 + 1) hd0 [] s (by rw [hs]; simp) hc]
  conv => lhs; unfold hereDocLoop
  have hpk : ({ readText s b with chars := c :: p ++ d :: r ++ '\n' :: x } : St).peek = some c := rfl
  obtain ⟨h1, h2, h3, h4⟩ := hp c (by simp)
  have hmm := matchMarker_fails (p := c :: p) (q := q) (e := e) (d := d) (r ++ '\n' :: x) (fun h => (hp _ h).2.1 rfl) hd hdr
    { readText s b with chars := c :: p ++ d :: r ++ '\n' :: x } (by simp) ((readText_fields s b).1.trans hc)
  rw [readText_set] at hmm
  simp only [hpk, h1, h3, h4, if_false, reduceCtorEq, or_self, hmm]
  rw [hereDoc_restOfLine _ r x hn n hd0 _ _ rfl (Eq.trans (by simp) ((readText_fields s (b ++ c :: (p ++ [d]))).1.trans hc)), readText_set]
  simp

theorem hereDoc_lines {m : Text} {ls : List Text} {t : Text} (h : Reads m ls t) (x : Text)
    (hm : m ≠ []) (hm1 : ∀ y ∈ m, y ≠ '\n' ∧ y ≠ '\r' ∧ y ≠ ' ' ∧ y ≠ '\t') (n : Nat) (hd : Text) (s : St)
    (hs : s.chars = joinLines ls ++ x) (hc : s.ctx = .inScript) :
    ∃ n', n ≤ n' ∧ hereDocLoop m (n + (joinLines ls).length) hd [] true s =
      hereDocLoop m n' (hd ++ t) [] true { readText s (joinLines ls) with chars := x } := by
  induction h generalizing hd s n with
  | nil =>
    refine ⟨n, Nat.le_refl n, ?_⟩
    simp only [joinLines, List.flatMap_nil, List.length_nil, Nat.add_zero, List.append_nil, readText]
    rw [← show s.chars = x from hs]
  | @plain l t ls hl hr ih =>
    have hj : joinLines (l :: ls) = (l ++ ['\n']) ++ joinLines ls := rfl
    obtain ⟨n', h1, h2⟩ := ih n (hd ++ (l ++ ['\n'])) { readText s (l ++ ['\n']) with chars := joinLines ls ++ x } rfl
      (by simp [(readText_fields s (l ++ ['\n'])).1, hc])
    refine ⟨n', h1, ?_⟩
    rw [hj, show n + ((l ++ ['\n']) ++ joinLines ls).length = (n + (joinLines ls).length) + (l.length + 1) by simp; omega,
      hereDoc_line m l (joinLines ls ++ x) hm hl _ hd s (by rw [hs, hj]; simp) hc, h2, readText_set]
    simp
  | @bent b p q r t c d e ls hb hme hd' hn hr ih =>
    have hj : joinLines ((b ++ c :: p ++ d :: r) :: ls) = (b ++ c :: p ++ d :: r ++ ['\n']) ++ joinLines ls := rfl
    subst hme
    obtain ⟨n', h1, h2⟩ := ih (n + p.length + 1) (hd ++ (b ++ c :: c :: p ++ r ++ ['\n']))
      { readText s (b ++ c :: p ++ d :: r ++ ['\n']) with chars := joinLines ls ++ x } rfl
      ((readText_fields s (b ++ c :: p ++ d :: r ++ ['\n'])).1.trans hc)
    refine ⟨n', by omega, ?_⟩
    rw [hj, show n + ((b ++ c :: p ++ d :: r ++ ['\n']) ++ joinLines ls).length =
        (n + p.length + 1 + (joinLines ls).length) + r.length + 1 + 1 + b.length by simp; omega,
      hereDoc_bent (joinLines ls ++ x) hb hd' (fun h => hn.2 (by simp [h])) (fun y hy => hm1 y (List.mem_append_left _ hy))
        ⟨fun h => hn.1 (by simp [h]), fun h => hn.2 (by simp [h])⟩ _ hd s (by rw [hs, hj]; simp) hc, h2, readText_set]
    simp
  | @joined b p q l t c e ls hb hme hn hr ih =>
    have hj : joinLines ((b ++ c :: p) :: l :: ls) = (b ++ c :: p ++ '\n' :: l ++ ['\n']) ++ joinLines ls := by
      simp [joinLines]
    subst hme
    obtain ⟨n', h1, h2⟩ := ih (n + p.length + 1) (hd ++ (b ++ c :: c :: p ++ l ++ ['\n']))
      { readText s (b ++ c :: p ++ '\n' :: l ++ ['\n']) with chars := joinLines ls ++ x } rfl
      ((readText_fields s (b ++ c :: p ++ '\n' :: l ++ ['\n'])).1.trans hc)
    refine ⟨n', by omega, ?_⟩
    rw [hj, show n + ((b ++ c :: p ++ '\n' :: l ++ ['\n']) ++ joinLines ls).length =
        (n + p.length + 1 + (joinLines ls).length) + l.length + 1 + 1 + b.length by simp; omega,
      hereDoc_bent (joinLines ls ++ x) hb (fun h => (hm1 e (by simp)).1 h.symm) (by decide)
        (fun y hy => hm1 y (List.mem_append_left _ hy)) hn _ hd s (by rw [hs, hj]; simp) hc, h2, readText_set]
    simp

theorem matchMarker_ok (m x : Text) (hm : '\r' ∉ m) (s : St) (hs : s.chars = m ++ x) (hc : s.ctx = .inScript) :
    matchMarker m s = (m, true, { readText s m with chars := x }) := by
  induction m generalizing s with
  | nil => unfold matchMarker; rw [readText, ← show s.chars = x from hs]
  | cons c m ih =>
    unfold matchMarker
    rw [advance_text s c (m ++ x) hs (fun h => hm (by simp [h])) hc]
    dsimp only
    rw [if_pos rfl, ih (fun h => hm (by simp [h])) _ rfl (by simp [(readText_fields s [c]).1, hc])]
    dsimp only
    rw [readText_set]
    rfl

/-- The ways to write a marker: bare, in double quotes, in single quotes. -/
def markerForms (m : Text) : List Text := [m, '"' :: m ++ ['"'], '\'' :: m ++ ['\'']]

theorem wordChar_ne (U : Unicode) {c : Char} (h : isIdChar U c = true) :
    c ≠ '\n' ∧ c ≠ '\r' ∧ c ≠ ' ' ∧ c ≠ '\t' ∧ c ≠ '"' ∧ c ≠ '\'' ∧ c ≠ '\\' := by
  have key : ∀ d : Char, d.toNat < 128 → asciiWord d = false → c ≠ d := by
    rintro d h1 h2 rfl
    rw [isIdChar_ascii U c h1, h2] at h; cases h
  exact ⟨key _ (by decide) (by decide), key _ (by decide) (by decide), key _ (by decide) (by decide), key _ (by decide) (by decide),
    key _ (by decide) (by decide), key _ (by decide) (by decide), key _ (by decide) (by decide)⟩

theorem readText_plain (s : St) (w : Text) (h : ∀ c ∈ w, c ≠ '\n' ∧ c ≠ '\r') :
    readText s w = { s with col := s.col + w.length } := by
  induction w generalizing s with
  | nil => rfl
  | cons c w ih =>
    obtain ⟨h1, h2⟩ := h c (by simp)
    simp only [readText, h1, h2, if_false]
    rw [ih _ (fun d hd => h d (by simp [hd]))]
    simp only [List.length_cons]
    congr 1
    omega

theorem body_word (U : Unicode) (q : Char) (m : Text) (hm : ∀ c ∈ m, isIdChar U c = true)
    (hq : q = '"' ∨ q = '\'') : Body q (noCr m) := by
  induction m with
  | nil => exact .nil
  | cons c m ih =>
    obtain ⟨_, h2, _, _, h5, h6, h7⟩ := wordChar_ne U (hm c (by simp))
    have : noCr (c :: m) = c :: noCr m := by simp [noCr, h2]
    rw [this]
    refine .plain ?_ h7 (ih fun d hd => hm d (by simp [hd]))
    rcases hq with rfl | rfl
    · exact h5
    · exact h6

theorem noCr_word (U : Unicode) (m : Text) (hm : ∀ c ∈ m, isIdChar U c = true) : noCr m = m := by
  unfold noCr
  rw [List.filter_eq_self]
  intro c hc
  simpa using (wordChar_ne U (hm c hc)).2.1

/-- The marker is read, in each way to write it. -/
theorem hereDocMarker_ok (U : Unicode) (m w x : Text) (hw : w ∈ markerForms m) (hm : ∀ c ∈ m, isIdChar U c = true) (hm0 : m ≠ [])
    (s : St) (hs : s.chars = w ++ '\n' :: x) (hc : s.ctx = .inScript) :
    hereDocMarker U s = (m, { readText s w with chars := '\n' :: x }) := by
  have quoted : ∀ q, (q = '"' ∨ q = '\'') → s.chars = q :: m ++ [q] ++ '\n' :: x →
      collectUntilEscaped q s.adv = (m, { readText s (q :: m ++ [q]) with chars := '\n' :: x }) := by
    intro q hq hs
    have hq1 : q ≠ '\\' ∧ q ≠ '\r' := by rcases hq with rfl | rfl <;> decide
    have ha := adv_text s q (m ++ q :: '\n' :: x) (by rw [hs]; simp) hq1.2 hc
    rw [ha]
    unfold collectUntilEscaped
    rw [collectUntil_body q hq1.1 hq1.2 m ('\n' :: x) _ false _ rfl (by simp [(readText_fields s [q]).1, hc]) (by simp)
      (Or.inl ⟨rfl, body_word U q m hm hq⟩), noCr_word U m hm, readText_set]
    rfl
  unfold hereDocMarker
  simp only [markerForms, List.mem_cons, List.not_mem_nil, or_false] at hw
  rcases hw with rfl | rfl | rfl
  · cases w with
    | nil => exact absurd rfl hm0
    | cons c w =>
      have hp : s.peek = some c := by unfold St.peek; rw [hs]; rfl
      obtain ⟨_, _, _, _, h5, h6, _⟩ := wordChar_ne U (hm c (by simp))
      have hplain : ∀ d ∈ c :: w, d ≠ '\n' ∧ d ≠ '\r' := fun d hd => ⟨(wordChar_ne U (hm d hd)).1, (wordChar_ne U (hm d hd)).2.1⟩
      have hrun := collectWhile_run (isIdChar U) (c :: w) ('\n' :: x) s hs
        (fun d hd => ⟨hm d hd, hplain d hd⟩) (by rintro d r e; cases e; exact (idChar_breaks U).1)
      rw [hp]
      split
      · rename_i h; cases h; exact absurd rfl h5
      · rename_i h; cases h; exact absurd rfl h6
      · rw [hrun, readText_plain s _ hplain]
  · have hp : s.peek = some '"' := by unfold St.peek; rw [hs]; rfl
    rw [hp]
    exact quoted '"' (Or.inl rfl) hs
  · have hp : s.peek = some '\'' := by unfold St.peek; rw [hs]; rfl
    rw [hp]
    exact quoted '\'' (Or.inr rfl) hs

/-- **C12**, exactly what is read, for LF line endings and at least one character behind the terminator: the lines are read as
`Reads` says, the three tokens are produced and the text behind the terminator is scanned as code.  The content begins with the
line feed of the opening line. -/
theorem C12_heredoc (U : Unicode) (m w b0 b x t : Text) (ls : List Text) (hw : w ∈ markerForms m)
    (hm : ∀ c ∈ m, isIdChar U c = true) (hm0 : m ≠ []) (hb0 : ∀ c ∈ b0, c = ' ') (hb : ∀ c ∈ b, c = ' ' ∨ c = '\t')
    (hl : Reads m ls t) (hx : x ≠ []) (s : St) (hc : s.ctx = .inScript)
    (hs : s.chars = c!"<<<" ++ b0 ++ w ++ ['\n'] ++ joinLines ls ++ b ++ m ++ x) :
    ∃ s' k, step U s = .cont s' ∧ s'.chars = x ∧ s'.ctx = .inScript ∧
      (s'.line, s'.col) = posAfter (s.line, s.col) (c!"<<<" ++ b0 ++ w ++ ['\n'] ++ joinLines ls ++ b ++ m) ∧
      s'.toks = Token.named .hereDocEnd s.line s.col (k + 1) m ::
        Token.named .encapsedAndWhitespaceString s.line s.col k ('\n' :: t) ::
        breaks s.line s.col ((joinLines ls).count '\n' + 1) (Token.named .hereDocStart s.line s.col s.toks.length m :: s.toks) ∧
      k = s.toks.length + (joinLines ls).count '\n' + 2 := by
  have hbody : s.chars = '<' :: '<' :: '<' :: (b0 ++ (w ++ '\n' :: (joinLines ls ++ (b ++ (m ++ x))))) := by rw [hs]; simp
  generalize hbx : joinLines ls ++ (b ++ (m ++ x)) = body at hbody
  rw [step_script U s '<' _ hbody (by decide) (by decide) hc]
  obtain ⟨s1, hs1⟩ : ∃ s1 : St, s1 = { s with sLine := s.line, sCol := s.col, col := s.col + 3, chars := b0 ++ (w ++ '\n' :: body) } :=
    ⟨_, rfl⟩
  have hsc : scanChar U '<' { s with sLine := s.line, sCol := s.col, col := s.col + 1, chars := '<' :: '<' :: (b0 ++ (w ++ '\n' :: body)) } =
      match tokenizeHereDoc U s1 with
      | .ok s => .cont s
      | .error e => .err e s1 := by
    have h1 : ∀ st, scanChar U '<' st = scanSmaller U st := fun st => by simp [scanChar]
    rw [h1, hs1]
    unfold scanSmaller
    simp only [peek_mk, List.head?_cons, adv_mk _ _ _ _ _ _ '<' _ (by decide) (by decide)]
    rfl
  rw [hsc]
  have hctx1 : s1.ctx = .inScript := by rw [hs1]; exact hc
  -- the blanks
  have hblank := collectWhile_run (fun c => decide (c = ' ')) b0 (w ++ '\n' :: body) s1 (by rw [hs1])
    (fun c hc => by rw [hb0 c hc]; decide) (by
      intro c r e
      have : c ≠ ' ' := by
        rintro rfl
        simp only [markerForms, List.mem_cons, List.not_mem_nil, or_false] at hw
        rcases hw with rfl | rfl | rfl
        · cases w with
          | nil => exact hm0 rfl
          | cons d w => cases e; exact (wordChar_ne U (hm ' ' (by simp))).2.2.1 rfl
        · cases e
        · cases e
      simpa using this)
  have hread : ({ s1 with col := s1.col + b0.length, chars := w ++ '\n' :: body } : St) =
      { readText s1 b0 with chars := w ++ '\n' :: body } := by
    rw [readText_plain s1 b0 (fun c hc => by rw [hb0 c hc]; decide)]
  rw [hread] at hblank
  have hskip : skipBlanks s1 = { readText s1 b0 with chars := w ++ '\n' :: body } := by unfold skipBlanks; rw [hblank]
  have hmark := hereDocMarker_ok U m w body hw hm hm0 (skipBlanks s1) (by rw [hskip])
    (by rw [hskip]; simp [(readText_fields s1 b0).1, hctx1])
  rw [hskip, readText_set] at hmark
  -- the state in front of the body
  have hf := readText_fields s1 (b0 ++ w)
  generalize hs2 : ({ readText s1 (b0 ++ w) with chars := '\n' :: body } : St).pushNamed .hereDocStart m = s2
  have hctx2 : s2.ctx = .inScript := by rw [← hs2]; simp [St.pushNamed, hf.1, hctx1]
  have hch2 : s2.chars = [] ++ '\n' :: body := by rw [← hs2]; rfl
  have hmc : ∀ y ∈ m, y ≠ '\n' ∧ y ≠ '\r' ∧ y ≠ ' ' ∧ y ≠ '\t' := by
    intro y hy
    obtain ⟨h1, h2, h3, h4, _⟩ := wordChar_ne U (hm y hy)
    exact ⟨h1, h2, h3, h4⟩
  have hloop : ∀ n, hereDocLoop m (n + 1 + b.length + (joinLines ls).length + 1) [] [] false s2 =
      ('\n' :: t, m, { readText s2 (['\n'] ++ joinLines ls ++ b ++ m) with chars := x }) := by
    intro n
    have e1 := hereDoc_restOfLine m [] body (by simp) (n + 1 + b.length + (joinLines ls).length) [] [] s2 hch2 hctx2
    simp only [List.length_nil, Nat.add_zero, List.nil_append] at e1
    obtain ⟨n', hn', e2⟩ := hereDoc_lines hl (b ++ (m ++ x)) hm0 hmc (n + 1 + b.length) ['\n'] { readText s2 ['\n'] with chars := body }
      hbx.symm (by simp [(readText_fields s2 ['\n']).1, hctx2])
    obtain ⟨k, rfl⟩ : ∃ k, n' = k + 1 + b.length := ⟨n' - 1 - b.length, by omega⟩
    rw [e1, e2, readText_set,
      hereDoc_blanks m b (m ++ x) hb (k + 1) _ _
        { readText s2 (['\n'] ++ joinLines ls) with chars := b ++ (m ++ x) } rfl ((readText_fields s2 (['\n'] ++ joinLines ls)).1.trans hctx2), readText_set]
    unfold hereDocLoop
    cases m with
    | nil => exact absurd rfl hm0
    | cons m0 ms =>
      have hp : ({ readText s2 (['\n'] ++ joinLines ls ++ b) with chars := m0 :: ms ++ x } : St).peek = some m0 := rfl
      obtain ⟨h1, h2, h3, h4⟩ := hmc m0 (by simp)
      have hmm := matchMarker_ok (m0 :: ms) x (fun h => (wordChar_ne U (hm _ h)).2.1 rfl)
        { readText s2 (['\n'] ++ joinLines ls ++ b) with chars := m0 :: ms ++ x } rfl
        ((readText_fields s2 (['\n'] ++ joinLines ls ++ b)).1.trans hctx2)
      rw [readText_set] at hmm
      simp only [hp, h1, h3, h4, if_false, reduceCtorEq, or_self, hmm]
      simp
  obtain ⟨n, hn⟩ : ∃ n, s2.chars.length + 1 = n + 1 + b.length + (joinLines ls).length + 1 := by
    refine ⟨m.length + x.length, ?_⟩
    rw [hch2, ← hbx]; simp; omega
  have htok : tokenizeHereDoc U s1 = .ok
      ((({ readText s2 (['\n'] ++ joinLines ls ++ b ++ m) with chars := x } : St).pushNamed .encapsedAndWhitespaceString
        ('\n' :: t)).pushNamed .hereDocEnd m) := by
    unfold tokenizeHereDoc
    rw [hskip]
    simp only [hmark, hs2, hn, hloop]
    cases x with
    | nil => exact absurd rfl hx
    | cons c x => rfl
  rw [htok]
  have hf2 := readText_fields s2 (['\n'] ++ joinLines ls ++ b ++ m)
  have hp2 := readText_pos s2 (['\n'] ++ joinLines ls ++ b ++ m)
  have hp1 := readText_pos s1 (b0 ++ w)
  have hcount : (['\n'] ++ joinLines ls ++ b ++ m).count '\n' = (joinLines ls).count '\n' + 1 := by
    have c1 : b.count '\n' = 0 := List.count_eq_zero.mpr (fun h => by rcases hb _ h with h | h <;> cases h)
    have c2 : m.count '\n' = 0 := List.count_eq_zero.mpr (fun h => (wordChar_ne U (hm _ h)).1 rfl)
    simp [c1, c2]
  have hcount0 : (b0 ++ w).count '\n' = 0 := by
    have c1 : b0.count '\n' = 0 := List.count_eq_zero.mpr (fun h => by cases hb0 _ h)
    have c2 : m.count '\n' = 0 := List.count_eq_zero.mpr (fun h => (wordChar_ne U (hm _ h)).1 rfl)
    simp only [markerForms, List.mem_cons, List.not_mem_nil, or_false] at hw
    rcases hw with rfl | rfl | rfl <;> simp [c1, c2]
  have hs2t : s2.toks = Token.named .hereDocStart s.line s.col s.toks.length m :: s.toks := by
    rw [← hs2]
    simp only [St.pushNamed]
    rw [hf.2.2.2, hf.2.1, hf.2.2.1, hcount0, hs1]
    rfl
  have hs2s : s2.sLine = s.line ∧ s2.sCol = s.col := by
    rw [← hs2]; simp only [St.pushNamed]; rw [hf.2.1, hf.2.2.1, hs1]; exact ⟨rfl, rfl⟩
  have htoks := hf2.2.2.2
  rw [hcount, hs2t, hs2s.1, hs2s.2] at htoks
  refine ⟨_, s.toks.length + (joinLines ls).count '\n' + 2, rfl, rfl, ?_, ?_, ?_, rfl⟩
  · show (readText s2 _).ctx = _
    rw [hf2.1, hctx2]
  · show ((readText s2 _).line, (readText s2 _).col) = _
    rw [hp2]
    have : (s2.line, s2.col) = ((readText s1 (b0 ++ w)).line, (readText s1 (b0 ++ w)).col) := by rw [← hs2]; rfl
    rw [this, hp1]
    have : (s1.line, s1.col) = posAfter (s.line, s.col) c!"<<<" := by
      rw [hs1]; simp [posAfter, endLine, endCol]
    rw [this, ← posAfter_append, ← posAfter_append]
    simp
  · simp only [St.pushNamed]
    rw [hf2.2.1, hf2.2.2.1, htoks, hs2s.1, hs2s.2]
    have hlen := breaks_length s.line s.col ((joinLines ls).count '\n' + 1)
      (Token.named .hereDocStart s.line s.col s.toks.length m :: s.toks)
    simp only [List.length_cons] at hlen
    simp only [List.length_cons, hlen]
    congr 2 <;> congr 1 <;> omega

/-- **C12, partial: bodies in which no line starts (behind blanks) with the first character of the marker, LF line endings,
and at least one character behind the terminator.**  The heredoc ends at the terminator line, the three tokens are produced
and the text behind the terminator is scanned as code.  The content begins with the line feed of the opening line. -/
theorem C12_heredoc_partial (U : Unicode) (m w b0 b x : Text) (ls : List Text) (hw : w ∈ markerForms m)
    (hm : ∀ c ∈ m, isIdChar U c = true) (hm0 : m ≠ []) (hb0 : ∀ c ∈ b0, c = ' ') (hb : ∀ c ∈ b, c = ' ' ∨ c = '\t')
    (hl : ∀ l ∈ ls, BodyLine m l) (hx : x ≠ []) (s : St) (hc : s.ctx = .inScript)
    (hs : s.chars = c!"<<<" ++ b0 ++ w ++ ['\n'] ++ joinLines ls ++ b ++ m ++ x) :
    ∃ s' k, step U s = .cont s' ∧ s'.chars = x ∧ s'.ctx = .inScript ∧
      (s'.line, s'.col) = posAfter (s.line, s.col) (c!"<<<" ++ b0 ++ w ++ ['\n'] ++ joinLines ls ++ b ++ m) ∧
      s'.toks = Token.named .hereDocEnd s.line s.col (k + 1) m ::
        Token.named .encapsedAndWhitespaceString s.line s.col k ('\n' :: joinLines ls) ::
        breaks s.line s.col ((joinLines ls).count '\n' + 1) (Token.named .hereDocStart s.line s.col s.toks.length m :: s.toks) ∧
      k = s.toks.length + (joinLines ls).count '\n' + 2 :=
  C12_heredoc U m w b0 b x _ ls hw hm hm0 hb0 hb (.plains hl) hx s hc hs

/-- The hypotheses are met: a body of three lines, an indented terminator, and code behind. -/
example : ∃ (s : St) (m w b0 b x : Text) (ls : List Text), w ∈ markerForms m ∧ (∀ c ∈ m, isIdChar Unicode.ascii c = true) ∧ m ≠ [] ∧ (∀ c ∈ b0, c = ' ') ∧
    (∀ c ∈ b, c = ' ' ∨ c = '\t') ∧ (∀ l ∈ ls, BodyLine m l) ∧ x ≠ [] ∧ s.ctx = .inScript ∧ ls.length = 3 ∧ b.length = 2 ∧
    s.chars = c!"<<<" ++ b0 ++ w ++ ['\n'] ++ joinLines ls ++ b ++ m ++ x :=
  ⟨{ new [] with ctx := .inScript, chars := c!"<<< 'EOF'\na\n\n  b EOF\n  EOF;\n" }, c!"EOF", c!"'EOF'", c!" ", c!"  ", c!";\n",
    [c!"a", c!"", c!"  b EOF"], by decide, by decide, by decide, by decide, by decide,
    by
      intro l hl
      simp only [List.mem_cons, List.not_mem_nil, or_false] at hl
      rcases hl with rfl | rfl | rfl
      · exact ⟨by decide, by decide, by intro c h; cases h; decide⟩
      · exact ⟨by decide, by decide, by intro c h; cases h⟩
      · exact ⟨by decide, by decide, by intro c h; cases h; decide⟩,
    by decide, rfl, rfl, rfl, rfl⟩

/-- The labels of the tokens of a scan. -/
def labels : Outcome → Option (List (TT × Option Text))
  | .ok s => some (s.tokens.filterMap fun k => if k.t = .linebreak then none else some (k.t, k.label))
  | _ => none

/-- **C12 is violated.**
(1) A body line that begins with the first characters of the marker loses its line feed and duplicates those characters, and
the terminator on the line after it is missed.
(2) A longer word that begins with the marker ends the heredoc.
(3) A terminator at the very end of the text is an error. -/
theorem C12_violation :
    labels (scan Unicode.ascii c!"<?php <<<EOF\nEO\nEOF;\nx\nEOF;\n") = some
      [(.scriptStartRegular, none), (.hereDocStart, some c!"EOF"),
       (.encapsedAndWhitespaceString, some c!"\nEEOEOF;\nx\n"), (.hereDocEnd, some c!"EOF"), (.semicolon, none), (.eof, none)] ∧
    labels (scan Unicode.ascii c!"<?php <<<EOF\nEOFX\nEOF;\n") = some
      [(.scriptStartRegular, none), (.hereDocStart, some c!"EOF"), (.encapsedAndWhitespaceString, some c!"\n"),
       (.hereDocEnd, some c!"EOF"), (.identifier, some c!"X"), (.identifier, some c!"EOF"), (.semicolon, none), (.eof, none)] ∧
    seen (scan Unicode.ascii c!"<?php <<<EOF\na\nEOF") = .error .unterminatedHeredoc :=
  ⟨rfl, rfl, rfl⟩

end PhpLs.Scanner
