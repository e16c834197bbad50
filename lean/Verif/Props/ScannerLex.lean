import Verif.Props.ScannerInv

/-!
# Scanner properties about single lexemes: C06 (strings), C07 (words), C09 (comments)

All theorems speak about one turn of the scan loop from an arbitrary state `s` inside of the script whose remaining text
starts with the lexeme.  `C01_turns_compose` ties the turns to the whole scan.
-/

namespace PhpLs.Scanner

open PhpLs

/-! ## Turns of a scan -/

/-- `s` is the state before some turn of the scan of `t`. -/
inductive Turn (U : Unicode) (t : Text) : St → Prop where
  | first : Turn U t (new t)
  | next {s s' : St} : Turn U t s → step U s = .cont s' → Turn U t s'

/-- **C01.** The scan is the iteration of its turns: from each state before a turn, running on gives the outcome of the
whole scan. -/
theorem C01_turns_compose (U : Unicode) (t : Text) (s : St) (h : Turn U t s) (n : Nat) (hn : s.chars.length < n) :
    loop U n s = scan U t := by
  induction h generalizing n with
  | first => exact C01_fuel_irrelevant U t n (by simpa [new] using hn)
  | @next s s' _ e ih =>
    have h1 := ih (s.chars.length + 1 + n) (by omega)
    rw [← h1, show s.chars.length + 1 + n = (s.chars.length + n) + 1 by omega]
    conv => rhs; unfold loop
    rw [e]
    have := step_cont_chars_lt U e
    exact loop_fuel U _ _ _ hn (by omega)

/-! ## Specification helpers -/

/-- A text without its carriage returns. -/
def noCr (t : Text) : Text := t.filter (· ≠ '\r')

/-- `n` line break tokens at one position on top of a token list (newest first). -/
def breaks (line col : Nat) : Nat → List Token → List Token
  | 0, ts => ts
  | n + 1, ts => Token.new .linebreak line col (breaks line col n ts).length :: breaks line col n ts

theorem breaks_succ' (l c n : Nat) (ts : List Token) :
    breaks l c n (Token.new .linebreak l c ts.length :: ts) = breaks l c (n + 1) ts := by
  induction n with
  | zero => rfl
  | succ n ih => conv => lhs; unfold breaks
                 rw [ih]; rfl

theorem breaks_length (l c n : Nat) (ts : List Token) : (breaks l c n ts).length = n + ts.length := by
  induction n with
  | zero => simp [breaks]
  | succ n ih => simp [breaks, ih]; omega

/-- The position behind the text `w` when it starts at position `p`. -/
def posAfter (p : Nat × Nat) (w : Text) : Nat × Nat :=
  if endLine w = 0 then (p.1, p.2 + endCol w) else (p.1 + endLine w, endCol w)

theorem endLine_append (a b : Text) : endLine (a ++ b) = endLine a + endLine b := by simp [endLine]

theorem endCol_append_of_line (a b : Text) (h : endLine b ≠ 0) : endCol (a ++ b) = endCol b := by
  unfold endCol
  rw [List.reverse_append, List.takeWhile_append]
  split
  · rename_i hh
    exfalso
    apply h
    unfold endLine
    rw [List.count_eq_zero]
    intro hm
    have hall : ∀ c ∈ b.reverse, (decide (c ≠ '\n')) = true := by
      have hpre := List.takeWhile_prefix (l := b.reverse) (p := fun c => decide (c ≠ '\n'))
      have heq := hpre.eq_of_length hh
      intro c hc
      rw [← heq] at hc
      exact List.all_eq_true.mp (List.all_takeWhile (p := fun c => decide (c ≠ '\n')) (l := b.reverse)) c hc
    have := hall '\n' (by simpa using hm)
    simp at this
  · rfl

theorem endCol_append_of_noline (a b : Text) (h : endLine b = 0) : endCol (a ++ b) = endCol a + endCol b := by
  unfold endCol
  have hb : ∀ c ∈ b.reverse, (decide (c ≠ '\n')) = true := by
    intro c hc
    have : '\n' ∉ b := by rw [endLine, List.count_eq_zero] at h; exact h
    have hc' : c ∈ b := by simpa using hc
    simp; rintro rfl; exact this hc'
  rw [List.reverse_append, List.takeWhile_append_of_pos hb]
  have : b.reverse.takeWhile (fun c => decide (c ≠ '\n')) = b.reverse := by
    have := List.takeWhile_append_of_pos (l₂ := []) hb
    simpa using this
  rw [this]
  simp; omega

theorem posAfter_append (p : Nat × Nat) (a b : Text) : posAfter p (a ++ b) = posAfter (posAfter p a) b := by
  unfold posAfter
  rw [endLine_append]
  by_cases hb : endLine b = 0
  · by_cases ha : endLine a = 0
    · simp [ha, hb, endCol_append_of_noline a b hb]; omega
    · simp [ha, hb, endCol_append_of_noline a b hb]
  · by_cases ha : endLine a = 0
    · simp [ha, hb, endCol_append_of_line a b hb]
    · simp [ha, hb, endCol_append_of_line a b hb]; omega

theorem posAfter_origin (w : Text) : posAfter (0, 0) w = endPos w := by
  unfold posAfter endPos; split <;> simp_all

/-! ## Reading a piece of text inside of the script -/

theorem advance_cr (s : St) (r : Text) (h : s.chars = '\r' :: r) :
    s.advance = ({ s with chars := r } : St).advance := by
  rw [advance_eq, advance_eq, h]
  have : dropCr ('\r' :: r) = dropCr r := by simp [dropCr]
  rw [this]
  show _ = match dropCr r with
      | [] => (none, _)
      | c :: r' => (some c, _)
  cases dropCr r with
  | nil => rfl
  | cons c r' =>
    simp only [readOne, St.push]
    split
    · split <;> rfl
    · rfl

/-- The effect on the position and the tokens of reading the text `w` inside of the script. -/
def readText (s : St) : Text → St
  | [] => s
  | c :: w =>
    if c = '\r' then readText s w
    else if c = '\n' then
      readText { s with line := s.line + 1, col := 0,
                        toks := Token.new .linebreak s.sLine s.sCol s.toks.length :: s.toks } w
    else readText { s with col := s.col + 1 } w

theorem readText_append (s : St) (a b : Text) : readText s (a ++ b) = readText (readText s a) b := by
  induction a generalizing s with
  | nil => rfl
  | cons c r ih =>
    simp only [List.cons_append, readText]
    split
    · exact ih s
    · split <;> exact ih _

theorem readText_chars (s : St) (w x : Text) : readText { s with chars := x } w = { readText s w with chars := x } := by
  induction w generalizing s with
  | nil => rfl
  | cons c r ih =>
    simp only [readText]
    split
    · exact ih s
    · split
      · exact ih { s with line := s.line + 1, col := 0,
                          toks := Token.new .linebreak s.sLine s.sCol s.toks.length :: s.toks }
      · exact ih { s with col := s.col + 1 }

theorem readText_fields (s : St) (w : Text) :
    (readText s w).ctx = s.ctx ∧ (readText s w).sLine = s.sLine ∧ (readText s w).sCol = s.sCol ∧
      (readText s w).toks = breaks s.sLine s.sCol (w.count '\n') s.toks := by
  induction w generalizing s with
  | nil => exact ⟨rfl, rfl, rfl, rfl⟩
  | cons c r ih =>
    simp only [readText]
    split
    · rename_i h; subst h; simpa using ih s
    · split
      · rename_i h; subst h
        refine ⟨(ih _).1, (ih _).2.1, (ih _).2.2.1, ?_⟩
        rw [(ih _).2.2.2]
        simp only [List.count_cons_self]
        exact breaks_succ' _ _ _ _
      · rename_i h1 h2
        have := ih { s with col := s.col + 1 }
        rw [List.count_cons_of_ne (by simpa using h2)]
        exact this

theorem readText_pos (s : St) (w : Text) : ((readText s w).line, (readText s w).col) = posAfter (s.line, s.col) w := by
  induction w generalizing s with
  | nil => simp [readText, posAfter, endLine, endCol]
  | cons c r ih =>
    have hcons : c :: r = [c] ++ r := rfl
    rw [hcons, posAfter_append]
    simp only [List.cons_append, List.nil_append, readText]
    split
    · rename_i h; subst h; rw [ih]; simp [posAfter, endLine, endCol]
    · split
      · rename_i h; subst h; rw [ih]; simp [posAfter, endLine, endCol]
      · rename_i h1 h2
        rw [ih]
        have e1 : endLine [c] = 0 := by simp [endLine, h2]
        have e2 : endCol [c] = 1 := by simp [endCol, h1, h2]
        congr 1
        simp [posAfter, e1, e2]

theorem readOne_readText (s : St) (c : Char) (r : Text) (h : c ≠ '\r') (hc : s.ctx = .inScript) :
    readOne s c r = { readText s [c] with chars := r } := by
  unfold readOne
  simp only [readText, h, if_false]
  split
  · rw [push_inScript _ _ hc]
  · rfl

/-- Reading one character of a text `c :: r` that continues with `x`. -/
theorem advance_text (s : St) (c : Char) (x : Text) (hs : s.chars = c :: x) (h : c ≠ '\r') (hc : s.ctx = .inScript) :
    s.advance = (some c, { readText s [c] with chars := x }) := by
  rw [advance_cons s c x hs h, readOne_readText s c x h hc]

theorem adv_text (s : St) (c : Char) (x : Text) (hs : s.chars = c :: x) (h : c ≠ '\r') (hc : s.ctx = .inScript) :
    s.adv = { readText s [c] with chars := x } := by
  unfold St.adv; rw [advance_text s c x hs h hc]

/-! ## C06: string literals -/

/-- The text between the quotes `q` of a literal: plain characters other than the quote and the backslash, and
backslash-escaped characters. -/
inductive Body (q : Char) : Text → Prop where
  | nil : Body q []
  | plain {c : Char} {r : Text} : c ≠ q → c ≠ '\\' → Body q r → Body q (c :: r)
  | escaped {c : Char} {r : Text} : Body q r → Body q ('\\' :: c :: r)

theorem Body.inv {q d : Char} {x : Text} (h : Body q (d :: x)) :
    (d ≠ q ∧ d ≠ '\\' ∧ Body q x) ∨ (d = '\\' ∧ ∃ c r, x = c :: r ∧ Body q r) := by
  cases h with
  | plain h1 h2 h3 => exact Or.inl ⟨h1, h2, h3⟩
  | escaped h => exact Or.inr ⟨rfl, _, _, rfl, h⟩

theorem collectUntil_body (q : Char) (hq : q ≠ '\\') (hqr : q ≠ '\r') (body rest : Text) (n : Nat) (e : Bool) (s : St)
    (hs : s.chars = body ++ q :: rest) (hc : s.ctx = .inScript) (hn : s.chars.length < n)
    (hb : (e = false ∧ Body q (noCr body)) ∨ (e = true ∧ ∃ c r, noCr body = c :: r ∧ Body q r)) :
    collectUntilEscapedN q n e s = (noCr body, { readText s (body ++ [q]) with chars := rest }) := by
  induction body generalizing n e s with
  | nil =>
    rcases hb with ⟨rfl, _⟩ | ⟨_, c, r, h, _⟩
    · cases n with
      | zero => omega
      | succ n =>
        unfold collectUntilEscapedN
        rw [advance_text s q rest hs hqr hc]
        simp [hq, noCr]
    · simp [noCr] at h
  | cons d body ih =>
    by_cases hd : d = '\r'
    · subst hd
      have hs' : ({ s with chars := body ++ q :: rest } : St).chars = body ++ q :: rest := rfl
      have hlen : s.chars.length = (body ++ q :: rest).length + 1 := by rw [hs]; rfl
      have hih := ih n e { s with chars := body ++ q :: rest } hs' hc (by rw [hs']; omega) (by simpa [noCr] using hb)
      cases n with
      | zero => omega
      | succ n =>
        have heq : collectUntilEscapedN q (n + 1) e s =
            collectUntilEscapedN q (n + 1) e { s with chars := body ++ q :: rest } := by
          unfold collectUntilEscapedN
          rw [advance_cr s (body ++ q :: rest) hs]
        rw [heq, hih, readText_chars]
        simp [noCr, readText]
    · have hnc : noCr (d :: body) = d :: noCr body := by simp [noCr, hd]
      rw [hnc] at hb
      cases n with
      | zero => omega
      | succ n =>
        unfold collectUntilEscapedN
        rw [advance_text s d (body ++ q :: rest) hs hd hc]
        have hlen : s.chars.length = (body ++ q :: rest).length + 1 := by rw [hs]; rfl
        have key : ∀ e', ((e' = false ∧ Body q (noCr body)) ∨ (e' = true ∧ ∃ c r, noCr body = c :: r ∧ Body q r)) →
            collectUntilEscapedN q n e' { readText s [d] with chars := body ++ q :: rest } =
              (noCr body, { readText s (d :: body ++ [q]) with chars := rest }) := by
          intro e' he'
          rw [ih n e' { readText s [d] with chars := body ++ q :: rest } rfl (by simp [(readText_fields s [d]).1, hc])
            (by simp; simp at hlen; omega) he', readText_chars, ← readText_append]
          rfl
        by_cases hbs : d = '\\'
        · subst hbs
          simp only [if_true]
          rw [key (!e) ?_, hnc]
          rcases hb with ⟨rfl, hb⟩ | ⟨rfl, c, r, h, hb⟩
          · rcases hb.inv with ⟨_, h2, _⟩ | ⟨_, h⟩
            · exact absurd rfl h2
            · exact Or.inr ⟨rfl, h⟩
          · cases h; exact Or.inl ⟨rfl, hb⟩
        · simp only [hbs, if_false]
          have hnq : ¬ (d = q ∧ e = false) := by
            rintro ⟨rfl, rfl⟩
            rcases hb with ⟨_, hb⟩ | ⟨h, _⟩
            · rcases hb.inv with ⟨h1, _⟩ | ⟨h1, _⟩
              · exact h1 rfl
              · exact hbs h1
            · cases h
          rw [if_neg hnq]
          rw [key false ?_, hnc]
          left
          refine ⟨rfl, ?_⟩
          rcases hb with ⟨rfl, hb⟩ | ⟨rfl, c, r, h, hb⟩
          · rcases hb.inv with ⟨_, _, h1⟩ | ⟨h1, _⟩
            · exact h1
            · exact absurd h1 hbs
          · cases h; exact hb

/-- The three kinds of literals: quote and token type. -/
def quoteKinds : List (Char × TT) :=
  [('\'', .constantEncapsedString), ('"', .encapsedAndWhitespaceString), ('`', .shellEscape)]

theorem scanChar_quote (U : Unicode) (q : Char) (k : TT) (h : (q, k) ∈ quoteKinds) (s : St) :
    scanChar U q s = .cont (scanQuoted q k s) := by
  simp [quoteKinds] at h
  rcases h with ⟨rfl, rfl⟩ | ⟨rfl, rfl⟩ | ⟨rfl, rfl⟩ <;> simp [scanChar, isDigit]

/-- **C06.** A literal with quote `q` and a body in which each quote is escaped is scanned to exactly one token (besides
one line break token per line break in the body) whose text is the body with all escapes untouched (carriage returns are
dropped everywhere by the scanner), at the position of the opening quote; scanning goes on directly behind the closing
quote. -/
theorem C06_string_literal (U : Unicode) (q : Char) (k : TT) (hq : (q, k) ∈ quoteKinds) (body rest : Text)
    (hb : Body q (noCr body)) (s : St) (hc : s.ctx = .inScript) (hs : s.chars = q :: body ++ q :: rest) :
    ∃ s', step U s = .cont s' ∧ s'.chars = rest ∧ s'.ctx = .inScript ∧
      (s'.line, s'.col) = posAfter (s.line, s.col) (q :: body ++ [q]) ∧
      s'.toks = Token.named k s.line s.col (body.count '\n' + s.toks.length) (noCr body) ::
        breaks s.line s.col (body.count '\n') s.toks := by
  have hne : q ≠ '\r' ∧ q ≠ '\\' ∧ q ≠ '\n' := by
    simp [quoteKinds] at hq
    rcases hq with ⟨rfl, _⟩ | ⟨rfl, _⟩ | ⟨rfl, _⟩ <;> decide
  unfold step
  rw [advance_text s.mark q (body ++ q :: rest) (by simpa [St.mark] using hs) hne.1 (by simpa [St.mark] using hc)]
  dsimp only
  have hctx : (readText s.mark [q]).ctx = .inScript := by rw [(readText_fields _ _).1]; simpa [St.mark] using hc
  rw [if_neg (by simp [hctx]), scanChar_quote U q k hq]
  refine ⟨_, rfl, ?_⟩
  unfold scanQuoted collectUntilEscaped
  rw [collectUntil_body q hne.2.1 hne.1 body rest _ false _ rfl (by simpa using hctx) (by simp) (Or.inl ⟨rfl, hb⟩)]
  rw [readText_chars, ← readText_append]
  have hf := readText_fields s.mark ([q] ++ (body ++ [q]))
  have hcount : ([q] ++ (body ++ [q])).count '\n' = body.count '\n' := by
    have : ¬ q = '\n' := hne.2.2
    simp [List.count_append, this]
  rw [hcount] at hf
  refine ⟨rfl, hf.1.trans hc, readText_pos s.mark _, ?_⟩
  simp only [St.pushNamed]
  rw [hf.2.1, hf.2.2.1, hf.2.2.2, breaks_length]
  rfl

example : Body '\'' (noCr c!"it\\'s \"\\\\\"\r\n") ∧ ('\'', TT.constantEncapsedString) ∈ quoteKinds := by
  refine ⟨?_, by decide⟩
  show Body '\'' c!"it\\'s \"\\\\\"\n"
  repeat first
    | exact .nil
    | refine .plain (by decide) (by decide) ?_
    | refine .escaped ?_

example : ∃ s, Turn Unicode.ascii c!"<?= 'a\\'b';" s ∧ s.ctx = .inScript ∧
    s.chars = '\'' :: c!"a\\'b" ++ '\'' :: c!";" :=
  ⟨_, .next (.next .first rfl) rfl, rfl, rfl⟩

/-- **C06.** A literal that is never closed: the rest of the file becomes one token, and nothing is left to scan.
(There is no body for which the quote closes.) -/
theorem C06_unterminated (q : Char) (n : Nat) (e : Bool) (s : St) (hn : s.chars.length < n)
    (h : ∀ body rest, s.chars = body ++ q :: rest →
      ¬ ((e = false ∧ Body q (noCr body)) ∨ (e = true ∧ ∃ c r, noCr body = c :: r ∧ Body q r))) :
    (collectUntilEscapedN q n e s).1 = noCr s.chars ∧ (collectUntilEscapedN q n e s).2.chars = [] := by
  obtain ⟨cs, hcs⟩ : ∃ cs, s.chars = cs := ⟨_, rfl⟩
  induction cs generalizing n e s with
  | nil =>
    cases n with
    | zero => omega
    | succ n =>
      unfold collectUntilEscapedN
      rw [advance_eq, hcs]
      exact ⟨rfl, rfl⟩
  | cons d cs ih =>
    cases n with
    | zero => omega
    | succ n =>
      by_cases hd : d = '\r'
      · subst hd
        have heq : collectUntilEscapedN q (n + 1) e s = collectUntilEscapedN q (n + 1) e { s with chars := cs } := by
          unfold collectUntilEscapedN
          rw [advance_cr s _ hcs]
        have := ih (n + 1) e { s with chars := cs } (by rw [hcs] at hn; simp at hn ⊢; omega) ?_ rfl
        · rw [heq, hcs]
          simpa [noCr] using this
        · intro body rest hbr hbad
          exact h ('\r' :: body) rest (by rw [hcs]; simpa using hbr) (by simpa [noCr] using hbad)
      · have hnc : ∀ b, noCr (d :: b) = d :: noCr b := by intro b; simp [noCr, hd]
        unfold collectUntilEscapedN
        rw [advance_cons s d cs hcs hd]
        dsimp only
        have hl : (readOne s d cs).chars.length < n := by
          rw [readOne_chars]; rw [hcs] at hn; simp at hn; omega
        have hbad : ∀ e' : Bool, (∀ body : Text,
            ((e' = false ∧ Body q (noCr body)) ∨ (e' = true ∧ ∃ c r, noCr body = c :: r ∧ Body q r)) →
            ((e = false ∧ Body q (d :: noCr body)) ∨
              (e = true ∧ ∃ c r, d :: noCr body = c :: r ∧ Body q r))) →
            (collectUntilEscapedN q n e' (readOne s d cs)).1 = noCr cs ∧
              (collectUntilEscapedN q n e' (readOne s d cs)).2.chars = [] := by
          intro e' himp
          have := ih n e' (readOne s d cs) hl ?_ (readOne_chars ..)
          · rw [readOne_chars] at this; exact this
          · intro body rest hbr hb
            rw [readOne_chars] at hbr
            refine h (d :: body) rest (by rw [hcs, hbr]; rfl) ?_
            rw [hnc]; exact himp body hb
        rw [hcs, hnc]
        by_cases hbs : d = '\\'
        · subst hbs
          simp only [if_true]
          have := hbad (!e) ?_
          · exact ⟨by rw [this.1], this.2⟩
          · intro body hb
            cases e with
            | false =>
              rcases hb with ⟨h1, _⟩ | ⟨_, c, r, h2, h3⟩
              · cases h1
              · left; exact ⟨rfl, by rw [h2]; exact .escaped h3⟩
            | true =>
              rcases hb with ⟨_, h2⟩ | ⟨h1, _⟩
              · right; exact ⟨rfl, _, _, rfl, h2⟩
              · cases h1
        · simp only [hbs, if_false]
          by_cases hcl : d = q ∧ e = false
          · exfalso
            obtain ⟨rfl, rfl⟩ := hcl
            exact h [] cs (by rw [hcs]; rfl) (Or.inl ⟨rfl, by simpa [noCr] using Body.nil⟩)
          · rw [if_neg hcl]
            have := hbad false ?_
            · exact ⟨by rw [this.1], this.2⟩
            · intro body hb
              rcases hb with ⟨_, h2⟩ | ⟨h1, _⟩
              · cases e with
                | false =>
                  left
                  refine ⟨rfl, .plain ?_ hbs h2⟩
                  intro hdq; exact hcl ⟨hdq, rfl⟩
                | true => right; exact ⟨rfl, _, _, rfl, h2⟩
              · cases h1

/-! ## C07: words -/

theorem collectWhile_run (p : Char → Bool) (w rest : Text) (s : St) (hs : s.chars = w ++ rest)
    (hw : ∀ c ∈ w, p c = true ∧ c ≠ '\n' ∧ c ≠ '\r') (hr : ∀ c r, rest = c :: r → p c = false) :
    collectWhile p s = (w, { s with col := s.col + w.length, chars := rest }) := by
  induction w generalizing s with
  | nil =>
    rw [C01_collectWhile_eq]
    have hs' : s.chars = rest := hs
    cases hrest : rest with
    | nil =>
      rw [hrest] at hs'
      have : s.peek = none := by simp [St.peek, hs']
      rw [this]
      cases s; simp at hs'; subst hs'; rfl
    | cons c r =>
      rw [hrest] at hs'
      rw [peek_cons s c r hs']
      simp only [hr c r hrest]
      cases s; simp at hs'; subst hs'; rfl
  | cons c w ih =>
    obtain ⟨h1, h2, h3⟩ := hw c (by simp)
    rw [C01_collectWhile_eq, peek_cons s c (w ++ rest) hs]
    simp only [h1, if_true]
    rw [adv_cons s c (w ++ rest) hs h3, readOne_of_ne _ _ _ h2]
    rw [ih { s with col := s.col + 1, chars := w ++ rest } rfl (fun d hd => hw d (by simp [hd]))]
    simp only [List.length_cons]
    congr 2
    omega

/-- ASCII characters that are letters, digits or underscore (what an identifier character is on ASCII). -/
def asciiWord (c : Char) : Bool := c.isAlphanum || c = '_'

theorem isIdChar_ascii (U : Unicode) (c : Char) (h : c.toNat < 128) : isIdChar U c = asciiWord c := by
  unfold isIdChar asciiWord; rw [U.alnum_ascii c h]

theorem isIdChar_special (U : Unicode) (c : Char) (h : isIdChar U c = true) (d : Char) (hd : d.toNat < 128)
    (hda : asciiWord d = false) : c ≠ d := by
  rintro rfl
  rw [isIdChar_ascii U c hd, hda] at h
  cases h

theorem isDigit_isDigit (c : Char) : isDigit c = c.isDigit := by
  simp only [isDigit, Char.isDigit, Char.le_def, ge_iff_le]

/-- An identifier character that is no digit is handled by the last branch of the scanner. -/
theorem scanChar_word (U : Unicode) (c : Char) (s : St) (hid : isIdChar U c = true) (hnd : isDigit c = false) :
    scanChar U c s = scanWord U c s := by
  have hb := scanChar_branch U c s
  generalize hx : scanChar U c s = x at hb
  have key : ∀ d : Char, d.toNat < 128 → asciiWord d = false → c ≠ d := isIdChar_special U c hid
  cases hb with
  | word => rfl
  | blank h =>
    rcases h with h | h | h | h <;> exact absurd h (key _ (by decide) (by decide))
  | number h => rw [hnd] at h; cases h
  | char t ht =>
    have hm := lookup_mem ht
    exfalso
    have : ∀ x ∈ singleTable, x.1.toNat < 128 ∧ asciiWord x.1 = false := by decide
    exact key c (this _ hm).1 (this _ hm).2 rfl
  | _ h => exact absurd h (key _ (by decide) (by decide))

/-- What a complete word is scanned to (specification): a keyword of the table up to case, `INF`/`NAN` only in this
spelling, else an identifier with its exact spelling. -/
inductive WordTok (U : Unicode) (w : Text) (line col off : Nat) : Token → Prop where
  | inf : w = c!"INF" → WordTok U w line col off (Token.new .constInf line col off)
  | nan : w = c!"NAN" → WordTok U w line col off (Token.new .constNan line col off)
  | keyword {t : TT} : w ≠ c!"INF" → w ≠ c!"NAN" → (U.lower w, t) ∈ keywordTable →
      WordTok U w line col off (Token.new t line col off)
  | identifier : w ≠ c!"INF" → w ≠ c!"NAN" → (∀ t, (U.lower w, t) ∉ keywordTable) →
      WordTok U w line col off (Token.named .identifier line col off w)

theorem lookup_none_not_mem {α β : Type} [BEq α] [LawfulBEq α] {l : List (α × β)} {k : α} (h : l.lookup k = none) :
    ∀ v, (k, v) ∉ l := by
  induction l with
  | nil => simp
  | cons x r ih =>
    obtain ⟨a, b⟩ := x
    rw [List.lookup_cons] at h
    split at h
    · cases h
    · rename_i e
      intro v hv
      rcases List.mem_cons.mp hv with hv | hv
      · cases hv; simp at e
      · exact ih h v hv

/-- **C07.** A maximal run of identifier characters that does not start with a digit is scanned to exactly one token,
at the position of its first character; scanning goes on directly behind the run.  The token is the keyword iff the
lower-cased word is in the keyword table, else an identifier with the exact spelling (`INF`, `NAN`: exact spelling).
The only exception is the word `from` directly behind a `yield` token, see `C07_yield_from`. -/
theorem C07_word (U : Unicode) (w rest : Text) (c : Char) (r : Text) (hw : w = c :: r) (hnd : isDigit c = false)
    (hid : ∀ d ∈ w, isIdChar U d = true) (hrest : ∀ d x, rest = d :: x → isIdChar U d = false)
    (s : St) (hc : s.ctx = .inScript) (hs : s.chars = w ++ rest)
    (hfrom : w = c!"from" → ∀ y, s.toks.head? = some y → y.t ≠ .kwYield) :
    ∃ s' k, step U s = .cont s' ∧ s'.chars = rest ∧ s'.ctx = .inScript ∧ s'.line = s.line ∧
      s'.col = s.col + w.length ∧ s'.toks = k :: s.toks ∧ WordTok U w s.line s.col s.toks.length k := by
  subst hw
  have hne : ∀ d ∈ c :: r, d ≠ '\n' ∧ d ≠ '\r' := fun d hd =>
    ⟨isIdChar_special U d (hid d hd) _ (by decide) (by decide), isIdChar_special U d (hid d hd) _ (by decide) (by decide)⟩
  unfold step
  rw [advance_cons s.mark c (r ++ rest) (by simpa [St.mark] using hs) (hne c (by simp)).2,
    readOne_of_ne _ _ _ (hne c (by simp)).1]
  dsimp only
  rw [if_neg (by simp [St.mark, hc]), scanChar_word U c _ (hid c (by simp)) hnd]
  unfold scanWord
  rw [if_pos (hid c (by simp))]
  rw [collectWhile_run (isIdChar U) r rest _ rfl (fun d hd => ⟨hid d (by simp [hd]), hne d (by simp [hd])⟩) hrest]
  dsimp only
  have hlen : s.mark.col + 1 + r.length = s.col + (c :: r).length := by simp [St.mark]; omega
  rw [hlen]
  unfold mapKeyword
  split
  · rename_i t ht
    rw [push_inScript _ _ (by simpa [St.mark] using hc)]
    refine ⟨_, _, rfl, rfl, hc, rfl, rfl, rfl, ?_⟩
    split at ht
    · cases ht; rename_i h; exact .inf h
    · split at ht
      · cases ht; rename_i h; exact .nan h
      · rename_i h1 h2
        exact .keyword h1 h2 (lookup_mem ht)
  · rename_i ht
    have hnk : (c :: r) ≠ c!"INF" ∧ (c :: r) ≠ c!"NAN" ∧ ∀ t, (U.lower (c :: r), t) ∉ keywordTable := by
      split at ht
      · cases ht
      · split at ht
        · cases ht
        · rename_i h1 h2
          exact ⟨h1, h2, lookup_none_not_mem ht⟩
    have hk : WordTok U (c :: r) s.line s.col s.toks.length
        (Token.named .identifier s.line s.col s.toks.length (c :: r)) := .identifier hnk.1 hnk.2.1 hnk.2.2
    split
    · rename_i hf
      split
      · rename_i y rs hy
        have hy' : s.toks = y :: rs := hy
        rw [if_neg (hfrom hf y (by simp [hy']))]
        exact ⟨_, _, rfl, rfl, hc, rfl, rfl, rfl, hk⟩
      · exact ⟨_, _, rfl, rfl, hc, rfl, rfl, rfl, hk⟩
    · exact ⟨_, _, rfl, rfl, hc, rfl, rfl, rfl, hk⟩

/-- The keyword table has one entry per spelling, so the token of a word is unique. -/
theorem C07_keyword_table_functional : keywordTable.Pairwise (fun a b => a.1 ≠ b.1) := by decide

/-- **C07.** Changing the case of a word never changes the kind of its token (unless one of the spellings is exactly
`INF` or `NAN`). -/
theorem C07_case_insensitive (U : Unicode) (w w' : Text) (h : U.lower w = U.lower w')
    (hw : w ≠ c!"INF" ∧ w ≠ c!"NAN") (hw' : w' ≠ c!"INF" ∧ w' ≠ c!"NAN") (l c o l' c' o' : Nat) (k k' : Token)
    (hk : WordTok U w l c o k) (hk' : WordTok U w' l' c' o' k') : k.t = k'.t := by
  have key : ∀ t t', (U.lower w, t) ∈ keywordTable → (U.lower w, t') ∈ keywordTable → t = t' := by
    intro t t' h1 h2
    have hp := C07_keyword_table_functional
    apply Classical.byContradiction
    intro hne
    have : ∀ (l : List (Text × TT)), l.Pairwise (fun a b => a.1 ≠ b.1) → ∀ a ∈ l, ∀ b ∈ l, a.1 = b.1 → a = b := by
      intro l hl
      induction hl with
      | nil => simp
      | cons hx _ ih =>
        intro a ha b hb hab
        rcases List.mem_cons.mp ha with h1 | h1 <;> rcases List.mem_cons.mp hb with h2 | h2
        · rw [h1, h2]
        · subst h1; exact absurd hab (hx b h2)
        · subst h2; exact absurd hab.symm (hx a h1)
        · exact ih a h1 b h2 hab
    have := this _ hp _ h1 _ h2 rfl
    exact hne (congrArg Prod.snd this)
  cases hk with
  | inf h => exact absurd h hw.1
  | nan h => exact absurd h hw.2
  | keyword _ _ hm =>
    cases hk' with
    | inf h => exact absurd h hw'.1
    | nan h => exact absurd h hw'.2
    | keyword _ _ hm' => rw [← h] at hm'; exact key _ _ hm hm'
    | identifier _ _ hn => rw [h] at hm; exact absurd hm (hn _)
  | identifier _ _ hn =>
    cases hk' with
    | inf h => exact absurd h hw'.1
    | nan h => exact absurd h hw'.2
    | keyword _ _ hm' => rw [← h] at hm'; exact absurd hm' (hn _)
    | identifier => rfl

example : ∃ s, Turn Unicode.ascii c!"<?php CLASS Foo_1{" s ∧ s.ctx = .inScript ∧ s.chars = c!"CLASS" ++ c!" Foo_1{" ∧
    (∀ d ∈ c!"CLASS", isIdChar Unicode.ascii d = true) ∧
    WordTok Unicode.ascii c!"CLASS" 0 6 1 (Token.new .kwClass 0 6 1) :=
  ⟨_, .next (.next .first rfl) rfl, rfl, rfl, by decide, .keyword (by decide) (by decide) (by decide)⟩

/-- **C07 (`yield from`).** The word `from` behind a `yield` token replaces it by one `yield from` token, positioned at
the word `from`. -/
theorem C07_yield_from (U : Unicode) (rest : Text) (hrest : ∀ d x, rest = d :: x → isIdChar U d = false)
    (s : St) (hc : s.ctx = .inScript) (hs : s.chars = c!"from" ++ rest) (y : Token) (ts : List Token)
    (hy : s.toks = y :: ts) (hyt : y.t = .kwYield) :
    ∃ s', step U s = .cont s' ∧ s'.chars = rest ∧ s'.toks = Token.new .yieldFrom s.line s.col ts.length :: ts := by
  have hid : ∀ d ∈ c!"from", isIdChar U d = true := by
    intro d hd
    have : d.toNat < 128 ∧ asciiWord d = true := by
      have : ∀ d ∈ c!"from", d.toNat < 128 ∧ asciiWord d = true := by decide
      exact this d hd
    rw [isIdChar_ascii U d this.1, this.2]
  have hne : ∀ d ∈ c!"from", d ≠ '\n' ∧ d ≠ '\r' := by decide
  have hlow : mapKeyword U c!"from" = none := by
    unfold mapKeyword
    rw [U.lower_ascii _ (by decide)]
    decide
  unfold step
  rw [advance_cons s.mark 'f' (c!"rom" ++ rest) (by simpa [St.mark] using hs) (by decide), readOne_of_ne _ _ _ (by decide)]
  dsimp only
  rw [if_neg (by simp [St.mark, hc]), scanChar_word U _ _ (hid _ (by simp)) (by decide)]
  unfold scanWord
  rw [if_pos (hid _ (by simp))]
  rw [collectWhile_run (isIdChar U) c!"rom" rest _ rfl 
    (fun d hd => ⟨hid d (List.mem_cons_of_mem _ hd), hne d (List.mem_cons_of_mem _ hd)⟩) hrest]
  dsimp only
  rw [hlow]
  simp only [if_true]
  have : s.mark.toks = y :: ts := hy
  simp only [this, hyt, if_true]
  rw [push_inScript _ _ (by simpa [St.mark] using hc)]
  exact ⟨_, rfl, rfl, rfl⟩

example : ∃ s y, Turn Unicode.ascii c!"<?php yield from $a;" s ∧ s.ctx = .inScript ∧
    s.chars = c!"from" ++ c!" $a;" ∧ s.toks.head? = some y ∧ y.t = .kwYield :=
  ⟨_, _, .next (.next (.next (.next .first rfl) rfl) rfl) rfl, rfl, rfl, rfl, rfl⟩

/-- **C07, violated.** `from` behind `yield` is the one keyword that is recognised in lower case only: `yield FROM`
gives a different token list than `yield from`. -/
theorem C07_violation_yield_FROM :
    ∃ s s', scan Unicode.ascii c!"<?php yield from $a;" = .ok s ∧ scan Unicode.ascii c!"<?php yield FROM $a;" = .ok s' ∧
      s.tokens.map (·.t) = [.scriptStartRegular, .yieldFrom, .variable, .semicolon, .eof] ∧
      s'.tokens.map (·.t) = [.scriptStartRegular, .kwYield, .identifier, .variable, .semicolon, .eof] :=
  ⟨_, _, rfl, rfl, by decide, by decide⟩

end PhpLs.Scanner
