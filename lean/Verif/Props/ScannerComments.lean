import Verif.Props.ScannerOps

/-!
# Scanner properties: comments (C09) and ends of tokens (C11)
-/

namespace PhpLs.Scanner

open PhpLs

/-! ## C09: block comments -/

theorem docComment_body (body rest : Text) (n : Nat) (s : St) (hs : s.chars = body ++ c!"*/" ++ rest)
    (hc : s.ctx = .inScript) (hn : s.chars.length < n) (hb : ¬ c!"*/" <:+: body ++ c!"*") :
    docCommentLoop n s = (noCr body, { readText s (body ++ c!"*/") with chars := rest }) := by
  induction body generalizing n s with
  | nil =>
    cases n with
    | zero => omega
    | succ n =>
      unfold docCommentLoop
      rw [advance_text s '*' ('/' :: rest) hs (by decide) hc]
      dsimp only
      rw [if_pos ⟨rfl, rfl⟩]
      rw [adv_text _ '/' rest rfl (by decide) (by simp [(readText_fields _ _).1, hc]), readText_chars, ← readText_append]
      rfl
  | cons d body ih =>
    have hb' : ¬ c!"*/" <:+: body ++ c!"*" := by
      intro h
      exact hb (h.trans (List.suffix_cons d _).isInfix)
    by_cases hd : d = '\r'
    · subst hd
      have hlen : s.chars.length = (body ++ c!"*/" ++ rest).length + 1 := by rw [hs]; rfl
      have hih := ih n { s with chars := body ++ c!"*/" ++ rest } rfl hc
        (by show (body ++ c!"*/" ++ rest).length < n; omega) hb'
      cases n with
      | zero => omega
      | succ n =>
        have heq : docCommentLoop (n + 1) s = docCommentLoop (n + 1) { s with chars := body ++ c!"*/" ++ rest } := by
          unfold docCommentLoop
          rw [advance_cr s (body ++ c!"*/" ++ rest) hs]
        rw [heq, hih, readText_chars]
        simp [noCr, readText]
    · cases n with
      | zero => omega
      | succ n =>
        unfold docCommentLoop
        rw [advance_text s d (body ++ c!"*/" ++ rest) hs hd hc]
        dsimp only
        have hnot : ¬ (d = '*' ∧ ({ readText s [d] with chars := body ++ c!"*/" ++ rest } : St).peek = some '/') := by
          rintro ⟨rfl, hp⟩
          cases body with
          | nil => cases hp
          | cons e body =>
            have he : e = '/' := by simpa [St.peek] using hp
            subst he
            exact hb ⟨[], body ++ c!"*", by simp⟩
        rw [if_neg hnot]
        have hlen : s.chars.length = (body ++ c!"*/" ++ rest).length + 1 := by rw [hs]; rfl
        rw [ih n { readText s [d] with chars := body ++ c!"*/" ++ rest } rfl (by simp [(readText_fields _ _).1, hc])
          (by show (body ++ c!"*/" ++ rest).length < n; omega) hb', readText_chars, ← readText_append]
        simp [noCr, hd]

/-- **C09.** A block comment ends at the first `*/`: it gives one comment token with the text in between (besides one
line break token per line), and the text behind it is scanned next, as code. -/
theorem C09_block_comment (U : Unicode) (body rest : Text) (hb : ¬ c!"*/" <:+: body ++ c!"*") (s : St)
    (hc : s.ctx = .inScript) (hs : s.chars = c!"/*" ++ body ++ c!"*/" ++ rest) :
    ∃ s', step U s = .cont s' ∧ s'.chars = rest ∧ s'.ctx = .inScript ∧
      (s'.line, s'.col) = posAfter (s.line, s.col) (c!"/*" ++ body ++ c!"*/") ∧
      s'.toks = Token.named .multilineComment s.line s.col (body.count '\n' + s.toks.length) (noCr body) ::
        breaks s.line s.col (body.count '\n') s.toks := by
  obtain ⟨col, line, sl, sc, ctx, toks, chars⟩ := s
  dsimp only at hc hs; subst hc hs
  rw [step_script U _ '/' ('*' :: body ++ c!"*/" ++ rest) (by simp) (by decide) (by decide) rfl, scanChar_scanSlash]
  unfold scanSlash
  simp only [List.cons_append, peek_mk, List.head?_cons]
  refine ⟨_, rfl, ?_⟩
  unfold collectDocComment
  rw [adv_text _ '*' (body ++ c!"*/" ++ rest) rfl (by decide) rfl]
  rw [docComment_body body rest _ _ rfl (by simp [(readText_fields _ _).1]) (by simp) hb]
  rw [readText_chars, ← readText_append]
  refine ⟨rfl, by simp [St.pushNamed, (readText_fields _ _).1], ?_, ?_⟩
  · simp only [St.pushNamed]
    rw [readText_pos]
    have : c!"/*" ++ body ++ c!"*/" = ['/'] ++ (['*'] ++ (body ++ c!"*/")) := by simp
    show _ = posAfter (line, col) (c!"/*" ++ body ++ c!"*/")
    rw [this, posAfter_append (line, col) ['/']]
    rfl
  · simp only [St.pushNamed]
    rw [(readText_fields _ _).2.1, (readText_fields _ _).2.2.1, (readText_fields _ _).2.2.2, breaks_length]
    simp [List.count_append]

example : ∃ s, Turn Unicode.ascii c!"<?php /* a **\n*/$x" s ∧ s.ctx = .inScript ∧
    s.chars = c!"/*" ++ c!" a **\n" ++ c!"*/" ++ c!"$x" ∧ ¬ c!"*/" <:+: c!" a **\n" ++ c!"*" :=
  ⟨_, .next (.next .first rfl) rfl, rfl, rfl, by decide⟩

/-! ## C09: line comments -/

theorem lineComment_eol (body rest : Text) (n : Nat) (cm : Text) (s : St) (hs : s.chars = body ++ rest)
    (hc : s.ctx = .inScript) (hn : s.chars.length < n)
    (hb : ¬ c!"?>" <:+: body) (hnl : ∀ c ∈ body, c ≠ '\n' ∧ c ≠ '\r')
    (hr : rest = [] ∨ ∃ c r, rest = c :: r ∧ (c = '\n' ∨ c = '\r')) :
    lineCommentLoop n cm s = some ({ readText s body with chars := rest }.pushNamed .lineComment (cm ++ body)) := by
  induction body generalizing n cm s with
  | nil =>
    cases n with
    | zero => omega
    | succ n =>
      have hs' : s.chars = rest := hs
      unfold lineCommentLoop
      rcases hr with rfl | ⟨c, r, rfl, hc'⟩
      · have : s.peek = none := by simp [St.peek, hs']
        rw [this]
        cases s; simp at hs'; subst hs'; simp [readText]
      · rw [peek_cons s c r hs']
        dsimp only
        rw [if_pos hc']
        cases s; simp at hs'; subst hs'; simp [readText]
  | cons d body ih =>
    have hd := hnl d (by simp)
    have hnl' : ∀ c ∈ body, c ≠ '\n' ∧ c ≠ '\r' := fun c hc => hnl c (by simp [hc])
    have hb' : ¬ c!"?>" <:+: body := fun h => hb (h.trans (List.suffix_cons d _).isInfix)
    have hlen : s.chars.length = (body ++ rest).length + 1 := by rw [hs]; rfl
    cases n with
    | zero => omega
    | succ n =>
      have key : lineCommentLoop n (cm ++ [d]) { readText s [d] with chars := body ++ rest } =
          some ({ readText s (d :: body) with chars := rest }.pushNamed .lineComment (cm ++ d :: body)) := by
        rw [ih n (cm ++ [d]) { readText s [d] with chars := body ++ rest } rfl (by simp [(readText_fields _ _).1, hc])
          (by show (body ++ rest).length < n; omega) hb' hnl', readText_chars, ← readText_append]
        simp
      unfold lineCommentLoop
      rw [peek_cons s d (body ++ rest) hs]
      dsimp only
      rw [if_neg (by simp [hd.1, hd.2])]
      by_cases hq : d = '?'
      · subst hq
        rw [if_pos rfl, adv_text s '?' (body ++ rest) hs (by decide) hc]
        have hnp : ¬ ({ readText s ['?'] with chars := body ++ rest } : St).peek = some '>' := by
          intro hp
          cases body with
          | nil =>
            rcases hr with rfl | ⟨c, r, rfl, hc'⟩
            · cases hp
            · have : c = '>' := by simpa [St.peek] using hp
              subst this; rcases hc' with h | h <;> cases h
          | cons e body =>
            have he : e = '>' := by simpa [St.peek] using hp
            subst he
            exact hb ⟨[], body, by simp⟩
        rw [if_neg hnp]
        exact key
      · rw [if_neg hq, advance_text s d (body ++ rest) hs hd.2 hc]
        exact key

theorem lineComment_tag (body rest : Text) (n : Nat) (cm : Text) (s : St) (hs : s.chars = body ++ c!"?>" ++ rest)
    (hc : s.ctx = .inScript) (hn : s.chars.length < n)
    (hb : ¬ c!"?>" <:+: body ++ c!"?") (hnl : ∀ c ∈ body, c ≠ '\n' ∧ c ≠ '\r') :
    lineCommentLoop n cm s =
      some { (({ readText s (body ++ c!"?>") with chars := rest }.pushNamed .lineComment (cm ++ body)).push .scriptEnd) with
        ctx := .outScript } := by
  induction body generalizing n cm s with
  | nil =>
    cases n with
    | zero => omega
    | succ n =>
      unfold lineCommentLoop
      rw [peek_cons s '?' ('>' :: rest) hs]
      dsimp only
      rw [if_neg (by decide), if_pos rfl, adv_text s '?' ('>' :: rest) hs (by decide) hc]
      rw [if_pos (by rfl), adv_text _ '>' rest rfl (by decide) (by simp [(readText_fields _ _).1, hc]), readText_chars,
        ← readText_append]
      simp
  | cons d body ih =>
    have hd := hnl d (by simp)
    have hnl' : ∀ c ∈ body, c ≠ '\n' ∧ c ≠ '\r' := fun c hc => hnl c (by simp [hc])
    have hb' : ¬ c!"?>" <:+: body ++ c!"?" := fun h => hb (h.trans (List.suffix_cons d _).isInfix)
    have hlen : s.chars.length = (body ++ c!"?>" ++ rest).length + 1 := by rw [hs]; rfl
    cases n with
    | zero => omega
    | succ n =>
      have key : lineCommentLoop n (cm ++ [d]) { readText s [d] with chars := body ++ c!"?>" ++ rest } =
          some { (({ readText s (d :: body ++ c!"?>") with chars := rest }.pushNamed .lineComment
            (cm ++ d :: body)).push .scriptEnd) with ctx := .outScript } := by
        rw [ih n (cm ++ [d]) { readText s [d] with chars := body ++ c!"?>" ++ rest } rfl
          (by simp [(readText_fields _ _).1, hc])
          (by show (body ++ c!"?>" ++ rest).length < n; omega) hb' hnl', readText_chars, ← readText_append]
        simp
      unfold lineCommentLoop
      rw [peek_cons s d (body ++ c!"?>" ++ rest) hs]
      dsimp only
      rw [if_neg (by simp [hd.1, hd.2])]
      by_cases hq : d = '?'
      · subst hq
        rw [if_pos rfl, adv_text s '?' (body ++ c!"?>" ++ rest) hs (by decide) hc]
        have hnp : ¬ ({ readText s ['?'] with chars := body ++ c!"?>" ++ rest } : St).peek = some '>' := by
          intro hp
          cases body with
          | nil => cases hp
          | cons e body =>
            have he : e = '>' := by simpa [St.peek] using hp
            subst he
            exact hb ⟨[], body ++ c!"?", by simp⟩
        rw [if_neg hnp]
        exact key
      · rw [if_neg hq, advance_text s d (body ++ c!"?>" ++ rest) hs hd.2 hc]
        exact key

/-- The state inside of the script after the two slashes of a line comment. -/
theorem step_slashes (U : Unicode) (s : St) (x : Text) (hc : s.ctx = .inScript) (hs : s.chars = c!"//" ++ x) (s' : St)
    (h : consumeLineComment { readText s.mark c!"//" with chars := x } = some s') : step U s = .cont s' := by
  obtain ⟨col, line, sl, sc, ctx, toks, chars⟩ := s
  dsimp only at hc hs; subst hc hs
  rw [step_script U _ '/' ('/' :: x) rfl (by decide) (by decide) rfl, scanChar_scanSlash]
  unfold scanSlash
  simp only [peek_mk, List.head?_cons]
  rw [adv_text _ '/' x rfl (by decide) rfl]
  have : ({ readText { col := col + 1, line := line, sLine := line, sCol := col, ctx := Ctx.inScript, toks := toks, chars := '/' :: x } ['/'] with chars := x } : St) =
    { readText (St.mk col line sl sc .inScript toks (c!"//" ++ x)).mark c!"//" with chars := x } := rfl
  rw [this, h]

/-- **C09.** A `//` comment without closing tag ends at the end of its line (or of the file): one comment token with
exactly its text, and the line end is what is scanned next. -/
theorem C09_line_comment (U : Unicode) (body rest : Text) (hb : ¬ c!"?>" <:+: body)
    (hnl : ∀ c ∈ body, c ≠ '\n' ∧ c ≠ '\r') (hr : rest = [] ∨ ∃ c r, rest = c :: r ∧ (c = '\n' ∨ c = '\r')) (s : St)
    (hc : s.ctx = .inScript) (hs : s.chars = c!"//" ++ body ++ rest) :
    ∃ s', step U s = .cont s' ∧ s'.chars = rest ∧ s'.ctx = .inScript ∧
      (s'.line, s'.col) = posAfter (s.line, s.col) (c!"//" ++ body) ∧
      s'.toks = Token.named .lineComment s.line s.col s.toks.length body :: s.toks := by
  have hcnt : body.count '\n' = 0 := by rw [List.count_eq_zero]; intro h; exact (hnl _ h).1 rfl
  refine ⟨_, step_slashes U s (body ++ rest) hc (by simpa using hs) _
    (lineComment_eol body rest _ [] _ rfl (by simpa [(readText_fields _ _).1, St.mark] using hc) (by simp) hb hnl hr),
    rfl, ?_, ?_, ?_⟩
  · rw [readText_chars]; simpa [St.pushNamed, (readText_fields _ _).1, St.mark] using hc
  · rw [readText_chars, ← readText_append]
    exact readText_pos s.mark _
  · rw [readText_chars, ← readText_append]
    simp only [St.pushNamed]
    rw [(readText_fields _ _).2.1, (readText_fields _ _).2.2.1, (readText_fields _ _).2.2.2, breaks_length]
    simp [hcnt, St.mark, breaks]

/-- **C09.** A `//` comment with a closing tag on its line ends at the closing tag: one comment token with the text before
the tag, then the closing tag, and the text behind the tag is outside of the script. -/
theorem C09_line_comment_tag (U : Unicode) (body rest : Text) (hb : ¬ c!"?>" <:+: body ++ c!"?")
    (hnl : ∀ c ∈ body, c ≠ '\n' ∧ c ≠ '\r') (s : St) (hc : s.ctx = .inScript)
    (hs : s.chars = c!"//" ++ body ++ c!"?>" ++ rest) :
    ∃ s', step U s = .cont s' ∧ s'.chars = rest ∧ s'.ctx = .outScript ∧
      (s'.line, s'.col) = posAfter (s.line, s.col) (c!"//" ++ body ++ c!"?>") ∧
      s'.toks = Token.new .scriptEnd s.line s.col (s.toks.length + 1) ::
        Token.named .lineComment s.line s.col s.toks.length body :: s.toks := by
  have hcnt : body.count '\n' = 0 := by rw [List.count_eq_zero]; intro h; exact (hnl _ h).1 rfl
  refine ⟨_, step_slashes U s (body ++ c!"?>" ++ rest) hc (by simpa using hs) _
    (lineComment_tag body rest _ [] _ rfl (by simpa [(readText_fields _ _).1, St.mark] using hc) (by simp) hb hnl),
    ?_, rfl, ?_, ?_⟩
  · rw [push_chars]; rfl
  · rw [readText_chars, ← readText_append]
    have := readText_pos s.mark (c!"//" ++ (body ++ c!"?>"))
    simp only [(push_pos ..).1, (push_pos ..).2, St.pushNamed]
    rw [this]
    simp [St.mark]
  · rw [readText_chars, ← readText_append]
    rw [push_inScript _ _ (by simpa [St.pushNamed, (readText_fields _ _).1, St.mark] using hc)]
    simp only [St.pushNamed]
    rw [(readText_fields _ _).2.1, (readText_fields _ _).2.2.1, (readText_fields _ _).2.2.2, breaks_length]
    simp [hcnt, St.mark, breaks]

example : ∃ s, Turn Unicode.ascii c!"<?php // what??> <b>" s ∧ s.ctx = .inScript ∧
    s.chars = c!"//" ++ c!" what?" ++ c!"?>" ++ c!" <b>" ∧ ¬ c!"?>" <:+: c!" what?" ++ c!"?" :=
  ⟨_, .next (.next .first rfl) rfl, rfl, rfl, by decide⟩

/-- **C09, violated.** A `#` comment reads the character behind the `#` unseen: an empty `#` comment swallows the end of
its line, so the next line of code is commented out; and `#?>` does not close the script. -/
theorem C09_violation_hash :
    (∃ s, scan Unicode.ascii c!"<?php #\n$a;" = .ok s ∧
      s.tokens.map (·.t) = [.scriptStartRegular, .linebreak, .lineComment, .eof]) ∧
    (∃ s, scan Unicode.ascii c!"<?php //\n$a;" = .ok s ∧
      s.tokens.map (·.t) = [.scriptStartRegular, .lineComment, .linebreak, .variable, .semicolon, .eof]) ∧
    (∃ s, scan Unicode.ascii c!"<?php #?>x" = .ok s ∧
      s.tokens.map (fun k => (k.t, k.label)) = [(.scriptStartRegular, none), (.lineComment, some c!">x"), (.eof, none)]) :=
  ⟨⟨_, rfl, by decide⟩, ⟨_, rfl, by decide⟩, ⟨_, rfl, by decide⟩⟩

/-- **C09 (`#` comments, partial).** A `#` comment whose first character is neither `[` nor a line end nor `?` ends at
the end of its line; its text lacks the first character.  Missing: the cases of `C09_violation_hash`. -/
theorem C09_hash_comment_partial (U : Unicode) (d : Char) (body rest : Text) (hb : ¬ c!"?>" <:+: body)
    (hd : d ≠ '[' ∧ d ≠ '\n' ∧ d ≠ '\r')
    (hnl : ∀ c ∈ body, c ≠ '\n' ∧ c ≠ '\r') (hr : rest = [] ∨ ∃ c r, rest = c :: r ∧ (c = '\n' ∨ c = '\r')) (s : St)
    (hc : s.ctx = .inScript) (hs : s.chars = '#' :: d :: body ++ rest) :
    ∃ s', step U s = .cont s' ∧ s'.chars = rest ∧ s'.ctx = .inScript ∧
      s'.toks = Token.named .lineComment s.line s.col s.toks.length body :: s.toks := by
  have hcnt : body.count '\n' = 0 := by rw [List.count_eq_zero]; intro h; exact (hnl _ h).1 rfl
  obtain ⟨col, line, sl, sc, ctx, toks, chars⟩ := s
  dsimp only at hc hs; subst hc hs
  rw [step_script U _ '#' (d :: body ++ rest) rfl (by decide) (by decide) rfl, scanChar_scanHash]
  unfold scanHash
  have hp : (St.mk (col + 1) line line col .inScript toks (d :: body ++ rest)).peek ≠ some '[' := by
    simp [St.peek, hd.1]
  have key := lineComment_eol body rest (body.length + rest.length + 1) []
    { readText (St.mk (col + 1) line line col .inScript toks (d :: body ++ rest)) [d] with chars := body ++ rest } rfl
      (by simp [(readText_fields _ _).1]) (by simp) hb hnl hr
  have hadv := adv_text (St.mk (col + 1) line line col .inScript toks (d :: body ++ rest)) d (body ++ rest) rfl hd.2.2 rfl
  split
  · rename_i h; exact absurd h hp
  · unfold consumeLineComment
    rw [hadv]
    simp only [List.length_append] at key ⊢
    rw [key]
    refine ⟨_, rfl, rfl, by rw [readText_chars]; simp [St.pushNamed, (readText_fields _ _).1], ?_⟩
    rw [readText_chars, ← readText_append]
    simp only [St.pushNamed]
    rw [(readText_fields _ _).2.1, (readText_fields _ _).2.2.1, (readText_fields _ _).2.2.2, breaks_length]
    have : ([d] ++ body).count '\n' = 0 := by simp [hcnt, hd.2.1]
    rw [this]
    simp [breaks]

example : ∃ s, Turn Unicode.ascii c!"<?php # note\n$a" s ∧ s.ctx = .inScript ∧ s.chars = '#' :: ' ' :: c!"note" ++ c!"\n$a" :=
  ⟨_, .next (.next .first rfl) rfl, rfl, rfl⟩

/-! ## C11: the end of a token -/

/-- All characters are ASCII. -/
def Ascii (t : Text) : Prop := ∀ c ∈ t, c.toNat < 128

theorem byteLen_ascii (t : Text) (h : Ascii t) : byteLen t = t.length := by
  induction t with
  | nil => rfl
  | cons c r ih =>
    have hc := h c (by simp)
    have := ih (fun d hd => h d (by simp [hd]))
    have hsz : c.utf8Size = 1 := by
      rw [Char.utf8Size_eq_one_iff]
      rw [UInt32.le_iff_toNat_le]
      have : c.val.toNat = c.toNat := rfl
      rw [this]
      show c.toNat ≤ 127
      omega
    unfold byteLen at *
    simp [hsz, this]; omega

theorem splitNl_ne_nil (t : Text) : splitNl t ≠ [] := by
  cases t with
  | nil => simp [splitNl]
  | cons c r => unfold splitNl; split <;> (try split) <;> simp

theorem splitNl_length (t : Text) : (splitNl t).length = endLine t + 1 := by
  induction t with
  | nil => rfl
  | cons c r ih =>
    unfold splitNl
    split
    · rename_i h; subst h; simp [ih, endLine]
    · rename_i h
      have he : endLine (c :: r) = endLine r := by simp [endLine, h]
      rw [he]
      split
      · rename_i h0; exact absurd h0 (splitNl_ne_nil r)
      · rename_i l ls h0; rw [h0] at ih; simpa using ih

/-- The part behind the last newline. -/
def lastLine (t : Text) : Text := (t.reverse.takeWhile (· ≠ '\n')).reverse

theorem lastLine_cons (c : Char) (r : Text) :
    lastLine (c :: r) = if endLine r = 0 ∧ c ≠ '\n' then c :: r else lastLine r := by
  unfold lastLine
  rw [List.reverse_cons, List.takeWhile_append]
  by_cases hr : endLine r = 0
  · have hnm : '\n' ∉ r := by simpa [endLine, List.count_eq_zero] using hr
    have hall : r.reverse.takeWhile (fun x => decide (x ≠ '\n')) = r.reverse := by
      have := List.takeWhile_append_of_pos (p := fun x => decide (x ≠ '\n')) (l₁ := r.reverse) (l₂ := []) (by
        intro d hd
        have hd' : d ∈ r := by simpa using hd
        simp; rintro rfl; exact hnm hd')
      simpa using this
    rw [hall]
    simp only [if_true, hr, true_and]
    by_cases hc : c = '\n'
    · simp [hc]
    · simp [hc]
  · rw [if_neg]
    · simp [hr]
    · intro hh
      apply hr
      have heq := (List.takeWhile_prefix (l := r.reverse) (p := fun c => decide (c ≠ '\n'))).eq_of_length hh
      rw [endLine, List.count_eq_zero]
      intro hm
      have := List.all_eq_true.mp (List.all_takeWhile (p := fun c => decide (c ≠ '\n')) (l := r.reverse)) '\n'
        (by rw [heq]; simpa using hm)
      simp at this

theorem splitNl_last (t : Text) : (splitNl t).getLast? = some (lastLine t) := by
  induction t with
  | nil => rfl
  | cons c r ih =>
    rw [lastLine_cons]
    unfold splitNl
    split
    · rename_i h; subst h
      simp only [ne_eq, not_true_eq_false, and_false, if_false]
      cases hs : splitNl r with
      | nil => exact absurd hs (splitNl_ne_nil r)
      | cons a b => rw [hs] at ih; simpa using ih
    · rename_i h
      have hl := splitNl_length r
      split
      · rename_i h0; exact absurd h0 (splitNl_ne_nil r)
      · rename_i l ls h0
        rw [h0] at ih hl
        by_cases hr : endLine r = 0
        · have : ls = [] := by
            rw [hr] at hl; simpa using hl
          subst this
          simp only [hr, h, ne_eq, not_false_iff, and_self, if_true]
          simp only [List.getLast?_singleton, Option.some.injEq] at ih ⊢
          have : lastLine r = r := by
            unfold lastLine
            have hnm : '\n' ∉ r := by simpa [endLine, List.count_eq_zero] using hr
            have hall : r.reverse.takeWhile (fun x => decide (x ≠ '\n')) = r.reverse := by
              have := List.takeWhile_append_of_pos (p := fun x => decide (x ≠ '\n')) (l₁ := r.reverse) (l₂ := []) (by
                intro d hd
                have hd' : d ∈ r := by simpa using hd
                simp; rintro rfl; exact hnm hd')
              simpa using this
            rw [hall, List.reverse_reverse]
          rw [ih, this]
        · simp only [hr, false_and, if_false]
          cases ls with
          | nil => simp at hl; omega
          | cons a b => simpa using ih

/-- **C11 (partial).** The end the code computes for a labelled token is the position behind its printed text: exactly
where reading this text from the start of the token ends.  Missing compared to the full property: texts with non-ASCII
characters (bytes are counted instead of characters), tokens whose printed text differs from their source text (see
`C11_violation_*`), and texts that end with a line feed. -/
theorem C11_end_is_behind_text_partial (k : Token) (w : Text) (l : Text) (hl : k.label = some l)
    (hd : k.display = some w) (ha : Ascii w) (hcr : '\r' ∉ w) (hlast : lastLine w ≠ []) :
    k.end = some (let p := posAfter (k.line, k.col) w; (p.2, p.1)) := by
  have hec : endCol w = (lastLine w).length := by
    unfold endCol lastLine
    rw [List.length_reverse, List.filter_eq_self.mpr]
    intro c hc
    have : c ∈ w := by
      have := (List.takeWhile_prefix (l := w.reverse) (p := fun c => decide (c ≠ '\n'))).subset hc
      simpa using this
    simp; rintro rfl; exact hcr this
  have hlines : (rustLines w).length = endLine w + 1 ∧ (rustLines w).getLast? = some (lastLine w) := by
    unfold rustLines
    dsimp only
    rw [splitNl_last]
    cases h0 : lastLine w with
    | nil => exact absurd h0 hlast
    | cons a b =>
      have := splitNl_length w
      constructor
      · simp [this]
      · simp
  have hal : Ascii (lastLine w) := by
    intro c hc
    refine ha c ?_
    have hc' : c ∈ w.reverse.takeWhile (fun c => decide (c ≠ '\n')) := by simpa [lastLine] using hc
    have := (List.takeWhile_prefix (l := w.reverse) (p := fun c => decide (c ≠ '\n'))).subset hc'
    simpa using this
  unfold Token.end
  rw [hd, hl]
  simp only [Option.isSome_some, if_true, Option.bind_eq_bind, Option.bind_some, hlines.1, hlines.2]
  unfold posAfter
  by_cases h0 : endLine w = 0
  · have hww : lastLine w = w := by
      cases hw : w with
      | nil => rfl
      | cons c r =>
        rw [lastLine_cons]
        rw [hw] at h0
        have hc : c ≠ '\n' := by rintro rfl; simp [endLine] at h0
        have hr : endLine r = 0 := by simpa [endLine, hc] using h0
        rw [if_pos ⟨hr, hc⟩]
    simp only [h0, if_true]
    rw [byteLen_ascii w ha, hec, hww]
  · have hne : ¬ (endLine w + 1 = 1) := by omega
    simp only [h0, hne, if_false]
    rw [byteLen_ascii _ hal, hec]
    simp

example : Token.display (Token.named .constantEncapsedString 3 7 0 c!"a\nbc") = some c!"'a\nbc'" ∧
    lastLine c!"'a\nbc'" ≠ [] ∧ posAfter (3, 7) c!"'a\nbc'" = (4, 3) := by decide

/-- **C11 (operators).** The end of each operator token is the position behind its source text. -/
theorem C11_operator_end (w : Text) (t : TT) (h : (w, t) ∈ opTable) (line col off : Nat) :
    (Token.new t line col off).end = some (col + w.length, line) := by
  have key : ∀ e ∈ opTable, e.2.display = some e.1 ∧ byteLen e.1 = e.1.length := by decide
  obtain ⟨h1, h2⟩ := key _ h
  unfold Token.end
  have hd : (Token.new t line col off).display = some w := h1
  rw [hd]
  simp only [Option.bind_eq_bind, Option.bind_some]
  have hl : (Token.new t line col off).label.isSome = false := rfl
  rw [hl]
  simp [h2, Token.new]

/-- The keywords whose printed form has another length than the source text. -/
def aliasedKeywords : List Text := [c!"boolean", c!"integer", c!"double", c!"and"]

/-- **C11 (keywords).** The end of a keyword token is the position behind the word, exactly for the keywords that are not
one of the four aliases. -/
theorem C11_keyword_end (w : Text) (t : TT) (h : (w, t) ∈ keywordTable) (line col off : Nat) :
    (Token.new t line col off).end = some (col + w.length, line) ↔ w ∉ aliasedKeywords := by
  have key : ∀ e ∈ keywordTable, ∃ d, e.2.display = some d ∧ (byteLen d = e.1.length ↔ e.1 ∉ aliasedKeywords) := by
    intro e he
    have : ∀ e ∈ keywordTable, (e.2.display.isSome = true) ∧
        (byteLen (e.2.display.getD []) = e.1.length ↔ e.1 ∉ aliasedKeywords) := by decide
    obtain ⟨h1, h2⟩ := this e he
    obtain ⟨d, hd⟩ := Option.isSome_iff_exists.mp h1
    exact ⟨d, hd, by rw [hd] at h2; exact h2⟩
  obtain ⟨d, h1, h2⟩ := key _ h
  rw [← h2]
  unfold Token.end
  have hd : (Token.new t line col off).display = some d := h1
  rw [hd]
  have hl : (Token.new t line col off).label.isSome = false := rfl
  simp only [Option.bind_eq_bind, Option.bind_some, hl]
  simp [Token.new]

/-- **C11, violated.** The end of a token is not where its source text ends: an aliased keyword, a decimal number
without leading digit, a cast with blanks, and a string with a non-ASCII character.  Each file consists of the opening
tag and the token, so that the token should end where the document ends. -/
theorem C11_violation_wrong_end :
    (∃ s, scan Unicode.ascii c!"<?= boolean" = .ok s ∧ documentRange s = ((0, 0), (11, 0)) ∧
      s.tokens.map (fun k => (k.t, k.end)) = [(.scriptStartEcho, some (3, 0)), (.typeBool, some (8, 0)), (.eof, some (11, 0))]) ∧
    (∃ s, scan Unicode.ascii c!"<?= .5" = .ok s ∧ documentRange s = ((0, 0), (6, 0)) ∧
      (s.tokens.map (fun k => (k.t, k.end)))[1]? = some (.decimalNumber, some (7, 0))) ∧
    (∃ s, scan Unicode.ascii c!"<?= ( int )" = .ok s ∧ documentRange s = ((0, 0), (11, 0)) ∧
      (s.tokens.map (fun k => (k.t, k.end)))[1]? = some (.intCast, some (9, 0))) ∧
    (∃ s, scan Unicode.ascii c!"<?= 'é'" = .ok s ∧ documentRange s = ((0, 0), (7, 0)) ∧
      (s.tokens.map (fun k => (k.t, k.end)))[1]? = some (.constantEncapsedString, some (8, 0))) :=
  ⟨⟨_, rfl, by decide, by decide⟩, ⟨_, rfl, by decide, by decide⟩, ⟨_, rfl, by decide, by decide⟩,
    ⟨_, rfl, by decide, by decide⟩⟩

end PhpLs.Scanner
