import Verif.Props.ScannerComments
import Verif.Props.TreeCover

/-!
# C11: every token lies where it says

`C11_tokens_lie` describes each token of a scanned text: which piece of the text it was read from, that it starts there,
that it is spelled so, and that the end the code computes (`Token::end`) is where the piece ends — or in which of ten
ways it deviates.  `C11_spaced_partial` says that consecutive tokens do not overlap, and lists the pairs that may.
The latter gives the hypothesis `Spaced` of the properties of the tree (C46, C52) for whole texts.
-/

namespace PhpLs.Scanner

open PhpLs PhpLs.Parser

/-! ## Specification -/

/-- A (line, column) pair as the code orders it. -/
def swapPos (p : Nat × Nat) : ColLine := (p.2, p.1)

/-- What the token prints is the text `w`, up to upper and lower case. -/
def Spells (U : Unicode) (k : Token) (w : Text) : Prop :=
  ∃ d, k.display = some d ∧ (d = w ∨ U.lower d = U.lower w)

/-- Words that become the token of another word. -/
def aliasWords : List Text := [c!"boolean", c!"integer", c!"binary", c!"double", c!"and", c!"or"]

/-- The kinds of casts. -/
def casts : List TT := [.boolCast, .intCast, .stringCast, .arrayCast, .objectCast, .doubleCast, .unsetCast]

/-- The kinds that may be cut off by the end of the text. -/
def openKinds : List TT :=
  [.constantEncapsedString, .encapsedAndWhitespaceString, .shellEscape, .multilineComment, .lineComment]

/-- The ways in which a token read from `w`, with `q` following, differs from `w`. -/
inductive Deviates (U : Unicode) (k : Token) (w q : Text) : Prop where
  /-- another name of a type or operator -/
  | alias (h : U.lower w ∈ aliasWords)
  /-- `(int)` is one token, made from three -/
  | cast (h : k.t ∈ casts)
  /-- `yield from` starts at the second word -/
  | yieldFrom (h : k.t = .yieldFrom)
  /-- the three tokens of a heredoc -/
  | heredoc (h : k.t = .hereDocStart ∨ k.t = .hereDocEnd ∨ k.t = .encapsedAndWhitespaceString) (hw : ∃ v, w = c!"<<<" ++ v)
  /-- a comment that starts with `#` -/
  | hash (h : k.t = .lineComment) (hw : ∃ v, w = '#' :: v)
  /-- `?-` makes two tokens with the same start -/
  | questionMinus (h : k.t = .minus) (hw : w = c!"?-")
  /-- the closing tag in a line comment starts where the comment starts -/
  | tag (h : k.t = .scriptEnd) (hw : ∃ v, w = v ++ c!"?>")
  /-- a string or comment that is not closed -/
  | unclosed (h : k.t ∈ openKinds) (hq : q = [])
  /-- bytes are counted, not characters -/
  | nonAscii (l : Text) (h : k.label = some l) (hl : ¬ Ascii l)
  /-- `.5` is recorded as `0.5` -/
  | point (h : k.t = .decimalNumber) (hl : k.label = some ('0' :: w)) (hw : ∃ v, w = '.' :: v)

/-- The token `k` was read from a piece `raw` of the text `t` and covers exactly this piece, or deviates in one of the
known ways. -/
def Lies (U : Unicode) (t : Text) (k : Token) : Prop :=
  ∃ p raw q, t = p ++ raw ++ q ∧ startPos k = endPos p ∧
    ((Spells U k (noCr raw) ∧ k.end = some (swapPos (endPos (p ++ raw)))) ∨ Deviates U k (noCr raw) q)

/-- The token ends at or before the position. -/
def Behind (k : Token) (pos : Nat × Nat) : Prop := ∃ e, k.end = some e ∧ posLe (e.2, e.1) pos

/-- The kinds that carry a label, without those of heredocs. -/
def namedKinds : List TT :=
  [.variable, .identifier, .decimalNumber, .exponentialNumber, .longNumber, .hexNumber, .binaryNumber,
    .constantEncapsedString, .encapsedAndWhitespaceString, .shellEscape, .multilineComment, .lineComment]

/-- Tokens that may be measured too long. -/
inductive TooLong (t : Text) (k : Token) : Prop where
  | heredoc (h : k.t = .hereDocStart ∨ k.t = .hereDocEnd)
  | yieldFrom (h : k.t = .yieldFrom)
  /-- `(float)` prints as `(double)` -/
  | float (h : k.t = .doubleCast)
  | nonAscii (h : k.t ∈ namedKinds) (l : Text) (hl : k.label = some l) (ha : ¬ Ascii l)
  /-- `.5` prints as `0.5` -/
  | point (h : k.t = .decimalNumber) (p raw q v : Text) (ht : t = p ++ raw ++ q) (hp : startPos k = endPos p)
      (hw : noCr raw = '.' :: v) (hl : k.label = some ('0' :: '.' :: v))

/-- The kinds that may share their start with the token before. -/
def twins : List TT := [.minus, .concat, .scriptEnd, .hereDocEnd]

/-- The token `k` does not reach into the next token `k'`, unless it is one of the exceptions. -/
inductive Clear (t : Text) (k k' : Token) : Prop where
  | behind (h : Behind k (startPos k'))
  | long (h : TooLong t k)
  /-- two tokens recorded with the same start -/
  | twin (h : k'.t ∈ twins) (hs : startPos k = startPos k')
  /-- a string or comment that is not closed, and the end of the text -/
  | unclosed (h : k.t ∈ openKinds) (h' : k'.t = .eof)

/-- Every token of the list, newest first, is clear of the one that follows it. -/
def Chain (t : Text) : List Token → Prop
  | [] => True
  | k' :: r => (∀ k ∈ r.head?, Clear t k k') ∧ Chain t r

/-- Turning a word into lower case does not make a word of another length into a keyword.  Holds for the lower case
mapping of Unicode: the only letters outside ASCII with an ASCII lower case form are single letters. -/
def KeepsLength (U : Unicode) : Prop := ∀ (w : Text), ∀ e ∈ keywordTable, U.lower w = e.1 → w.length = e.1.length

theorem keepsLength_ascii : KeepsLength Unicode.ascii := by
  intro w e _ h
  rw [← h]
  exact (List.length_map ..).symm

/-! ## Positions -/

theorem posLe_posAfter (p : Nat × Nat) (w : Text) : posLe p (posAfter p w) := by
  unfold posAfter posLe
  split
  · exact .inr ⟨rfl, by simp⟩
  · exact .inl (by dsimp only; omega)

theorem posAfter_noCr (p : Nat × Nat) (w : Text) : posAfter p (noCr w) = posAfter p w := by
  induction w generalizing p with
  | nil => rfl
  | cons c r ih =>
    have hs : c :: r = [c] ++ r := rfl
    by_cases h : c = '\r'
    · subst h
      rw [hs, posAfter_append, ← ih]
      have : noCr (['\r'] ++ r) = noCr r := by simp [noCr]
      rw [this]
      have : posAfter p ['\r'] = p := by simp [posAfter, endLine, endCol]
      rw [this]
    · have : noCr ([c] ++ r) = [c] ++ noCr r := by simp [noCr, h]
      rw [hs, this, posAfter_append, posAfter_append, ih]

theorem endPos_append (p w : Text) : endPos (p ++ w) = posAfter (endPos p) w := by
  rw [← posAfter_origin, posAfter_append, posAfter_origin]

theorem Behind.mono {k : Token} {a b : Nat × Nat} (h : Behind k a) (hab : posLe a b) : Behind k b := by
  obtain ⟨e, he, hle⟩ := h
  exact ⟨e, he, posLe_trans hle hab⟩

/-- The end of a token is not before its start. -/
theorem start_le_end {k : Token} {e : ColLine} (h : k.end = some e) : posLe (startPos k) (e.2, e.1) := by
  unfold Token.end at h
  unfold startPos posLe
  cases hd : k.display with
  | none => simp [hd] at h
  | some d =>
    rw [hd] at h
    simp only [Option.bind_eq_bind, Option.bind_some] at h
    split at h
    · split at h
      · cases h; right; exact ⟨rfl, by simp⟩
      · rename_i hlen
        cases hl : (rustLines d).getLast? with
        | none => simp [hl] at h
        | some l =>
          rw [hl] at h
          simp only [Option.bind_some, Option.some.injEq] at h
          subst h
          left
          have : (rustLines d).length ≠ 0 := by
            intro h0
            rw [List.length_eq_zero_iff.mp h0] at hl
            simp at hl
          dsimp only
          omega
    · cases h; right; exact ⟨rfl, by simp⟩

/-! ## The state between two tokens and within a token -/

/-- Between two turns of the loop. -/
structure Good (U : Unicode) (t : Text) (s : St) : Prop where
  pre : ∃ pre, AtPrefix t s pre
  lies : ∀ k ∈ s.toks, Lies U t k
  chain : Chain t s.toks
  head : ∀ k ∈ s.toks.head?, Behind k (s.line, s.col) ∨ TooLong t k ∨ (k.t ∈ openKinds ∧ s.chars = [])

/-- Within a turn: `p` was read before the token and `w`, not counting carriage returns, of the token. -/
structure In (U : Unicode) (t p w : Text) (s : St) : Prop where
  txt : ∃ raw, AtPrefix t s (p ++ raw) ∧ noCr raw = w
  start : (s.sLine, s.sCol) = endPos p
  lies : ∀ k ∈ s.toks, Lies U t k
  chain : Chain t s.toks
  head : ∀ k ∈ s.toks.head?, Behind k (endPos p) ∨ TooLong t k

theorem In.pos {U : Unicode} {t p w : Text} {s : St} (h : In U t p w s) : (s.line, s.col) = posAfter (endPos p) w := by
  obtain ⟨raw, ⟨_, hp⟩, hw⟩ := h.txt
  rw [hp, endPos_append, ← posAfter_noCr, hw]

theorem In.le {U : Unicode} {t p w : Text} {s : St} (h : In U t p w s) : posLe (endPos p) (s.line, s.col) := by
  rw [h.pos]; exact posLe_posAfter _ _

/-- A turn that adds no token. -/
theorem In.good {U : Unicode} {t p w : Text} {s : St} (h : In U t p w s) : Good U t s where
  pre := let ⟨raw, hp, _⟩ := h.txt; ⟨_, hp⟩
  lies := h.lies
  chain := h.chain
  head := fun k hk => (h.head k hk).elim (fun hb => .inl (hb.mono h.le)) (fun hl => .inr (.inl hl))

/-- Adding a token. -/
theorem In.add {U : Unicode} {t p w : Text} {s : St} (h : In U t p w s) (k : Token) (hk : startPos k = endPos p)
    (hl : Lies U t k) (hb : Behind k (s.line, s.col) ∨ TooLong t k ∨ (k.t ∈ openKinds ∧ s.chars = [])) :
    Good U t { s with toks := k :: s.toks } where
  pre := let ⟨raw, hp, _⟩ := h.txt; ⟨_, hp⟩
  lies := fun k' hk' => (List.mem_cons.mp hk').elim (fun e => e ▸ hl) (h.lies k')
  chain := ⟨fun k0 hk0 => (h.head k0 hk0).elim (fun hb => .behind (hk ▸ hb)) .long, h.chain⟩
  head := fun k' hk' => by cases hk'; exact hb

/-- Adding a token without leaving the turn. -/
theorem In.stay {U : Unicode} {t p w : Text} {s : St} (h : In U t p w s) (k : Token) (hk : startPos k = endPos p)
    (hl : Lies U t k) (hb : Behind k (endPos p) ∨ TooLong t k) : In U t p w { s with toks := k :: s.toks } where
  txt := h.txt
  start := h.start
  lies := fun k' hk' => (List.mem_cons.mp hk').elim (fun e => e ▸ hl) (h.lies k')
  chain := ⟨fun k0 hk0 => (h.head k0 hk0).elim (fun hb => .behind (hk ▸ hb)) .long, h.chain⟩
  head := fun k' hk' => by cases hk'; exact hb

/-- Adding two tokens. -/
theorem In.add2 {U : Unicode} {t p w : Text} {s : St} (h : In U t p w s) (k k' : Token) (hk : startPos k = endPos p)
    (hl : Lies U t k) (hk' : k'.t ∈ twins) (hs : startPos k' = startPos k) (hl' : Lies U t k')
    (hb : Behind k' (s.line, s.col) ∨ TooLong t k') :
    Good U t { s with toks := k' :: k :: s.toks } where
  pre := let ⟨raw, hp, _⟩ := h.txt; ⟨_, hp⟩
  lies := fun x hx => by
    rcases List.mem_cons.mp hx with rfl | hx
    · exact hl'
    · exact (List.mem_cons.mp hx).elim (fun e => e ▸ hl) (h.lies x)
  chain := ⟨fun k0 hk0 => by cases hk0; exact .twin hk' hs.symm,
    fun k0 hk0 => (h.head k0 hk0).elim (fun hb => .behind (hk ▸ hb)) .long, h.chain⟩
  head := fun x hx => by cases hx; exact hb.elim .inl (fun h => .inr (.inl h))

/-- The context does not matter. -/
theorem Good.ctx {U : Unicode} {t : Text} {s : St} (h : Good U t s) (c : Ctx) : Good U t { s with ctx := c } :=
  ⟨h.pre, h.lies, h.chain, h.head⟩

theorem In.ctx {U : Unicode} {t p w : Text} {s : St} (h : In U t p w s) (c : Ctx) : In U t p w { s with ctx := c } :=
  ⟨h.txt, h.start, h.lies, h.chain, h.head⟩

/-! ## Reading characters -/

theorem atPrefix_readOne {t : Text} {s : St} {pre : Text} (h : AtPrefix t s pre) {c : Char} {r : Text}
    (hd : dropCr s.chars = c :: r) :
    ∃ raw, AtPrefix t (readOne s c r) (pre ++ raw) ∧ noCr raw = [c] := by
  obtain ⟨h1, h2⟩ := h
  have hcr := takeWhile_cr_append s.chars
  have hall : ∀ c ∈ s.chars.takeWhile (· = '\r'), c = '\r' := by
    intro c hc; simpa using List.all_eq_true.mp (List.all_takeWhile (p := (· = '\r')) (l := s.chars)) c hc
  refine ⟨s.chars.takeWhile (· = '\r') ++ [c], ⟨?_, ?_⟩, ?_⟩
  · rw [readOne_chars]
    rw [hd] at hcr
    rw [h1]
    conv => lhs; rw [← hcr]
    simp
  · have he := endPos_append_crs pre _ hall
    have hl : endLine (pre ++ s.chars.takeWhile (· = '\r')) = s.line := by
      have := congrArg Prod.fst (he.trans h2.symm); exact this
    have hc' : endCol (pre ++ s.chars.takeWhile (· = '\r')) = s.col := by
      have := congrArg Prod.snd (he.trans h2.symm); exact this
    rw [← List.append_assoc]
    unfold readOne
    by_cases hnl : c = '\n'
    · subst hnl
      rw [endPos_snoc_nl, hl]
      simp
    · rw [endPos_snoc _ _ hnl (dropCr_head_ne hd), hl, hc']
      simp [hnl]
  · unfold noCr
    rw [List.filter_append]
    have : (s.chars.takeWhile (· = '\r')).filter (· ≠ '\r') = [] := by
      rw [List.filter_eq_nil_iff]
      intro c hc
      simp [hall c hc]
    rw [this]
    simp [dropCr_head_ne hd]

theorem lies_linebreak {U : Unicode} {t p raw q : Text} (h : t = p ++ raw ++ q) {l c o : Nat} (hp : (l, c) = endPos p) :
    Lies U t (Token.new .linebreak l c o) := by
  refine ⟨p, [], raw ++ q, by simp [h], hp, .inl ⟨⟨[], rfl, .inl rfl⟩, ?_⟩⟩
  rw [List.append_nil, ← hp]
  rfl

theorem In.read {U : Unicode} {t p w : Text} {s : St} (h : In U t p w s) {c : Char} {r : Text}
    (hd : dropCr s.chars = c :: r) : In U t p (w ++ [c]) (readOne s c r) := by
  obtain ⟨raw, hat, hw⟩ := h.txt
  obtain ⟨raw', hat', hw'⟩ := atPrefix_readOne hat hd
  have htxt : ∃ raw, AtPrefix t (readOne s c r) (p ++ raw) ∧ noCr raw = w ++ [c] :=
    ⟨raw ++ raw', by rw [← List.append_assoc]; exact hat', by rw [← hw, ← hw']; simp [noCr]⟩
  unfold readOne at htxt ⊢
  split
  · rename_i hnl
    rw [if_pos hnl] at htxt
    unfold St.push at htxt ⊢
    split
    · rename_i hctx
      rw [if_pos hctx] at htxt
      exact ⟨htxt, h.start, h.lies, h.chain, h.head⟩
    · rename_i hctx
      rw [if_neg hctx] at htxt
      have hst := h.stay (Token.new .linebreak s.sLine s.sCol s.toks.length) h.start
        (lies_linebreak (p := p) (raw := raw) (q := s.chars) hat.1 h.start)
        (.inl ⟨(s.sCol, s.sLine), rfl, by rw [← h.start]; exact posLe_refl _⟩)
      exact ⟨htxt, hst.start, hst.lies, hst.chain, hst.head⟩
  · rename_i hnl
    rw [if_neg hnl] at htxt
    exact ⟨htxt, h.start, h.lies, h.chain, h.head⟩

theorem In.advance {U : Unicode} {t p w : Text} {s s' : St} (h : In U t p w s) {c : Char} (e : s.advance = (some c, s')) :
    In U t p (w ++ [c]) s' ∧ c ≠ '\r' := by
  rw [advance_eq] at e
  split at e
  · cases e
  · rename_i d r hd
    cases e
    exact ⟨h.read hd, dropCr_head_ne hd⟩

theorem In.advance_none {U : Unicode} {t p w : Text} {s s' : St} (h : In U t p w s) (e : s.advance = (none, s')) :
    In U t p w s' ∧ s'.chars = [] := by
  rw [advance_eq] at e
  split at e
  · rename_i hd
    cases e
    refine ⟨⟨?_, h.start, h.lies, h.chain, h.head⟩, rfl⟩
    obtain ⟨raw, hat, hw⟩ := h.txt
    have hall : ∀ c ∈ s.chars, c = '\r' := by
      intro c hc
      have := takeWhile_cr_append s.chars
      rw [hd, List.append_nil] at this
      rw [← this] at hc
      simpa using List.all_eq_true.mp (List.all_takeWhile (p := (· = '\r')) (l := s.chars)) c hc
    refine ⟨raw ++ s.chars, ⟨?_, ?_⟩, ?_⟩
    · simp [hat.1]
    · rw [← List.append_assoc, endPos_append_crs _ _ hall]; exact hat.2
    · unfold noCr at hw ⊢
      rw [List.filter_append, hw, List.filter_eq_nil_iff.mpr (fun c hc => by simp [hall c hc]), List.append_nil]
  · cases e

theorem In.peekAdv {U : Unicode} {t p w : Text} {s : St} (h : In U t p w s) {c : Char} (e : s.peek = some c)
    (hc : c ≠ '\r') : In U t p (w ++ [c]) s.adv := by
  obtain ⟨r, hr⟩ := peek_eq_some e
  rw [adv_cons s c r hr hc]
  exact (h.advance (advance_cons s c r hr hc)).1

theorem In.adv {U : Unicode} {t p w : Text} {s : St} (h : In U t p w s) : ∃ v, In U t p (w ++ v) s.adv := by
  cases e : s.advance with
  | mk c s' =>
    have : s' = s.adv := by unfold St.adv; rw [e]
    subst this
    cases c with
    | none => exact ⟨[], by rw [List.append_nil]; exact (h.advance_none e).1⟩
    | some c => exact ⟨[c], (h.advance e).1⟩

/-- Characters of one line. -/
def Line (w : Text) : Prop := '\n' ∉ w ∧ '\r' ∉ w

theorem line_append {a b : Text} : Line (a ++ b) ↔ Line a ∧ Line b := by
  unfold Line; simp only [List.mem_append]; grind

instance (w : Text) : Decidable (Line w) := inferInstanceAs (Decidable (_ ∧ _))

theorem takeWhile_self {f : Char → Bool} {l : Text} (h : ∀ c ∈ l, f c = true) : l.takeWhile f = l := by
  have := List.takeWhile_append_of_pos (p := f) (l₁ := l) (l₂ := []) h
  simpa using this

theorem Line.pos {w : Text} (h : Line w) (q : Nat × Nat) : posAfter q w = (q.1, q.2 + w.length) := by
  have h1 : endLine w = 0 := List.count_eq_zero.mpr h.1
  have h2 : endCol w = w.length := by
    unfold endCol
    have h3 : w.reverse.takeWhile (· ≠ '\n') = w.reverse := by
      apply takeWhile_self
      intro c hc; simp; rintro rfl; exact h.1 (by simpa using hc)
    have h4 : w.reverse.filter (· ≠ '\r') = w.reverse := by
      rw [List.filter_eq_self]
      intro c hc; simp; rintro rfl; exact h.2 (by simpa using hc)
    rw [h3, h4, List.length_reverse]
  unfold posAfter
  rw [if_pos h1, h2]

theorem Line.last {w : Text} (h : Line w) : lastLine w = w := by
  unfold lastLine
  have h3 : w.reverse.takeWhile (· ≠ '\n') = w.reverse := by
    apply takeWhile_self
    intro c hc; simp; rintro rfl; exact h.1 (by simpa using hc)
  rw [h3, List.reverse_reverse]

theorem In.whileN {U : Unicode} {t p : Text} {f : Char → Bool} (hf : f '\n' = false ∧ f '\r' = false) :
    ∀ (n : Nat) (w : Text) (s : St), In U t p w s →
      In U t p (w ++ (collectWhileN f n s).1) (collectWhileN f n s).2 ∧ Line (collectWhileN f n s).1 ∧
        ∀ c ∈ (collectWhileN f n s).1, f c = true := by
  intro n
  induction n with
  | zero => intro w s h; exact ⟨by simpa [collectWhileN] using h, ⟨by simp [collectWhileN], by simp [collectWhileN]⟩, by simp [collectWhileN]⟩
  | succ n ih =>
    intro w s h
    unfold collectWhileN
    cases hp : s.peek with
    | none => exact ⟨by simpa using h, ⟨by simp, by simp⟩, by simp⟩
    | some c =>
      dsimp only
      cases hc : f c with
      | false => exact ⟨by simpa using h, ⟨by simp, by simp⟩, by simp⟩
      | true =>
        have hr : c ≠ '\r' := by rintro rfl; rw [hf.2] at hc; cases hc
        have hn : c ≠ '\n' := by rintro rfl; rw [hf.1] at hc; cases hc
        obtain ⟨h1, h2, h3⟩ := ih _ _ (h.peekAdv hp hr)
        rw [if_pos rfl]
        refine ⟨?_, ⟨?_, ?_⟩, ?_⟩
        · simpa using h1
        · simp only [List.mem_cons, not_or]; exact ⟨fun e => hn e.symm, h2.1⟩
        · simp only [List.mem_cons, not_or]; exact ⟨fun e => hr e.symm, h2.2⟩
        · intro d hd
          rcases List.mem_cons.mp hd with rfl | hd
          · exact hc
          · exact h3 d hd

theorem In.while {U : Unicode} {t p w : Text} {s : St} (h : In U t p w s) (f : Char → Bool) (hf : f '\n' = false ∧ f '\r' = false) :
    In U t p (w ++ (collectWhile f s).1) (collectWhile f s).2 ∧ Line (collectWhile f s).1 ∧
      ∀ c ∈ (collectWhile f s).1, f c = true :=
  In.whileN hf _ w s h

theorem idChar_line (U : Unicode) : isIdChar U '\n' = false ∧ isIdChar U '\r' = false := by
  unfold isIdChar
  rw [U.alnum_ascii '\n' (by decide), U.alnum_ascii '\r' (by decide)]
  decide

/-- Reading a quoted text: up to the closing quote, or to the end. -/
theorem In.quotedN {U : Unicode} {t p : Text} {q : Char} :
    ∀ (n : Nat) (esc : Bool) (w : Text) (s : St), In U t p w s → s.chars.length < n →
      '\r' ∉ (collectUntilEscapedN q n esc s).1 ∧
      (In U t p (w ++ (collectUntilEscapedN q n esc s).1 ++ [q]) (collectUntilEscapedN q n esc s).2 ∨
        (In U t p (w ++ (collectUntilEscapedN q n esc s).1) (collectUntilEscapedN q n esc s).2 ∧
          (collectUntilEscapedN q n esc s).2.chars = [])) := by
  intro n
  induction n with
  | zero => intro _ _ _ _ h; omega
  | succ n ih =>
    intro esc w s h hn
    unfold collectUntilEscapedN
    cases hp : s.advance with
    | mk c s' =>
      cases c with
      | none =>
        obtain ⟨h1, h2⟩ := h.advance_none hp
        exact ⟨by simp, .inr ⟨by simpa using h1, h2⟩⟩
      | some c =>
        obtain ⟨h1, hr⟩ := h.advance hp
        have hlen : s'.chars.length < n := by
          have hs' : s' = s.adv := by unfold St.adv; rw [hp]
          have hne : s.chars ≠ [] := by
            intro h0
            rw [advance_eq, h0] at hp
            cases hp
          have := adv_chars_length_lt s hne
          rw [hs']; omega
        have key : ∀ b, '\r' ∉ c :: (collectUntilEscapedN q n b s').1 ∧
            (In U t p (w ++ (c :: (collectUntilEscapedN q n b s').1) ++ [q]) (collectUntilEscapedN q n b s').2 ∨
              (In U t p (w ++ (c :: (collectUntilEscapedN q n b s').1)) (collectUntilEscapedN q n b s').2 ∧
                (collectUntilEscapedN q n b s').2.chars = [])) := by
          intro b
          obtain ⟨i1, i2⟩ := ih b _ _ h1 hlen
          refine ⟨?_, ?_⟩
          · simp only [List.mem_cons, not_or]; exact ⟨fun e => hr e.symm, i1⟩
          · simpa using i2
        dsimp only
        split
        · exact key _
        · split
          · rename_i hq
            obtain ⟨rfl, _⟩ := hq
            exact ⟨by simp, .inl (by simpa using h1)⟩
          · exact key _

/-- Reading a multi line comment. -/
theorem In.docN {U : Unicode} {t p : Text} :
    ∀ (n : Nat) (w : Text) (s : St), In U t p w s → s.chars.length < n →
      '\r' ∉ (docCommentLoop n s).1 ∧
      (In U t p (w ++ (docCommentLoop n s).1 ++ c!"*/") (docCommentLoop n s).2 ∨
        (In U t p (w ++ (docCommentLoop n s).1) (docCommentLoop n s).2 ∧ (docCommentLoop n s).2.chars = [])) := by
  intro n
  induction n with
  | zero => intro _ _ _ h; omega
  | succ n ih =>
    intro w s h hn
    unfold docCommentLoop
    cases hp : s.advance with
    | mk c s' =>
      cases c with
      | none =>
        obtain ⟨h1, h2⟩ := h.advance_none hp
        exact ⟨by simp, .inr ⟨by simpa using h1, h2⟩⟩
      | some c =>
        obtain ⟨h1, hr⟩ := h.advance hp
        have hlen : s'.chars.length < n := by
          have hs' : s' = s.adv := by unfold St.adv; rw [hp]
          have hne : s.chars ≠ [] := by
            intro h0
            rw [advance_eq, h0] at hp
            cases hp
          have := adv_chars_length_lt s hne
          rw [hs']; omega
        dsimp only
        split
        · rename_i hq
          obtain ⟨rfl, hq⟩ := hq
          exact ⟨by simp, .inl (by simpa using h1.peekAdv hq (by decide))⟩
        · obtain ⟨i1, i2⟩ := ih _ _ h1 hlen
          refine ⟨?_, ?_⟩
          · simp only [List.mem_cons, not_or]; exact ⟨fun e => hr e.symm, i1⟩
          · simpa using i2

/-! ## Adding the token that was read -/

theorem In.lies_exact {U : Unicode} {t p w : Text} {s : St} (h : In U t p w s) {k : Token} (hk : startPos k = endPos p)
    (hs : Spells U k w) (he : k.end = some (swapPos (posAfter (endPos p) w))) : Lies U t k := by
  obtain ⟨raw, hat, hw⟩ := h.txt
  exact ⟨p, raw, s.chars, hat.1, hk, .inl ⟨hw ▸ hs, by rw [he, endPos_append, ← posAfter_noCr _ raw, hw]⟩⟩

theorem In.lies_dev {U : Unicode} {t p w : Text} {s : St} (h : In U t p w s) {k : Token} (hk : startPos k = endPos p)
    (hs : Deviates U k w s.chars) : Lies U t k := by
  obtain ⟨raw, hat, hw⟩ := h.txt
  exact ⟨p, raw, s.chars, hat.1, hk, .inr (hw ▸ hs)⟩

/-- The end of a token without label. -/
theorem end_plain {tt : TT} {d : Text} (hd : tt.display = some d) (l c o : Nat) :
    (Token.new tt l c o).end = some (c + byteLen d, l) := by
  unfold Token.end
  have : (Token.new tt l c o).display = some d := hd
  rw [this]
  rfl

/-- A token that prints what was read. -/
theorem In.op {U : Unicode} {t p w : Text} {s : St} (h : In U t p w s) (tt : TT) {d : Text} (hd : tt.display = some d)
    (hs : d = w ∨ U.lower d = U.lower w) (hb : byteLen d = w.length) (hw : Line w) : Good U t (s.push tt) := by
  unfold St.push
  split
  · exact h.good
  · have he : (Token.new tt s.sLine s.sCol s.toks.length).end = some (swapPos (posAfter (endPos p) w)) := by
      rw [end_plain hd, hw.pos, ← h.start, hb]
      rfl
    refine h.add _ h.start (h.lies_exact h.start ⟨d, hd, hs⟩ he) (.inl ⟨_, he, ?_⟩)
    rw [h.pos]
    exact posLe_refl _

/-- A token that prints less than what was read. -/
theorem In.short {U : Unicode} {t p w : Text} {s : St} (h : In U t p w s) (tt : TT) {d : Text} (hd : tt.display = some d)
    (hl : ∀ l c o, Deviates U (Token.new tt l c o) w s.chars) (hb : byteLen d ≤ w.length) (hw : Line w) : Good U t (s.push tt) := by
  unfold St.push
  split
  · exact h.good
  · refine h.add _ h.start (h.lies_dev h.start (hl _ _ _)) (.inl ⟨_, end_plain hd _ _ _, ?_⟩)
    rw [h.pos, hw.pos, ← h.start]
    exact .inr ⟨rfl, Nat.add_le_add_left hb _⟩

/-- A labelled token that prints what was read. -/
theorem In.named {U : Unicode} {t p w : Text} {s : St} (h : In U t p w s) (tt : TT) (l : Text) {d : Text} (hk : tt ∈ namedKinds)
    (hd : ∀ l' c o, (Token.named tt l' c o l).display = some d) (hs : d = w ∨ U.lower d = U.lower w)
    (hp : ∀ q, posAfter q d = posAfter q w) (hcr : '\r' ∉ d) (hl : lastLine d ≠ []) (ha : Ascii l → Ascii d) :
    Good U t (s.pushNamed tt l) := by
  have hst : startPos (Token.named tt s.sLine s.sCol s.toks.length l) = endPos p := h.start
  by_cases hasc : Ascii l
  · have he := C11_end_is_behind_text_partial (Token.named tt s.sLine s.sCol s.toks.length l) d l rfl (hd _ _ _) (ha hasc) hcr hl
    have he' : (Token.named tt s.sLine s.sCol s.toks.length l).end = some (swapPos (posAfter (endPos p) w)) := by
      rw [he, ← hp, ← h.start]; rfl
    refine h.add _ hst (h.lies_exact hst ⟨d, hd _ _ _, hs⟩ he') (.inl ⟨_, he', ?_⟩)
    rw [h.pos]
    exact posLe_refl _
  · exact h.add _ hst (h.lies_dev hst (.nonAscii l rfl hasc)) (.inr (.inl (.nonAscii hk l rfl hasc)))

theorem ascii_append {a b : Text} (ha : Ascii a) (hb : Ascii b) : Ascii (a ++ b) := by
  intro c hc
  rcases List.mem_append.mp hc with h | h
  · exact ha c h
  · exact hb c h

theorem lastLine_snoc {w : Text} {c : Char} (h : c ≠ '\n') : lastLine (w ++ [c]) ≠ [] := by
  unfold lastLine
  simp [h]

/-- A labelled token on one line whose label is what was read. -/
theorem In.namedLine {U : Unicode} {t p w : Text} {s : St} (h : In U t p w s) (tt : TT) (l : Text) {d : Text} (hk : tt ∈ namedKinds)
    (hd : ∀ l' c o, (Token.named tt l' c o l).display = some d) (hs : d = w ∨ U.lower d = U.lower w)
    (hlen : d.length = w.length) (hw : Line w) (hdl : Line d) (hne : d ≠ []) (ha : Ascii l → Ascii d) :
    Good U t (s.pushNamed tt l) :=
  h.named tt l hk hd hs (fun q => by rw [hw.pos, hdl.pos, hlen]) hdl.2 (by rw [hdl.last]; exact hne) ha

/-! ## The branches of the loop -/

/-- The token of the characters read so far. -/
local macro "op0(" h:term ")" : term => `(($h).op _ rfl (.inl rfl) (by decide) (by decide))
/-- The token of the characters read so far and the next one. -/
local macro "op1(" h:term "," e:term ")" : term => `((($h).peekAdv $e (by decide)).op _ rfl (.inl rfl) (by decide) (by decide))

section
variable {U : Unicode} {t p : Text} {s : St}

theorem good_colon (h : In U t p c!":" s) : Good U t (scanColon s) := by
  unfold scanColon
  split
  · rename_i e; exact op1(h, e)
  · exact op0(h)

theorem good_amp (h : In U t p c!"&" s) : Good U t (scanAmp s) := by
  unfold scanAmp
  split
  · rename_i e; exact op1(h, e)
  · rename_i e; exact op1(h, e)
  · exact op0(h)

theorem good_percent (h : In U t p c!"%" s) : Good U t (scanPercent s) := by
  unfold scanPercent
  split
  · rename_i e; exact op1(h, e)
  · exact op0(h)

theorem good_pipe (h : In U t p c!"|" s) : Good U t (scanPipe s) := by
  unfold scanPipe
  split
  · rename_i e; exact op1(h, e)
  · rename_i e; exact op1(h, e)
  · exact op0(h)

theorem good_greater (h : In U t p c!">" s) : Good U t (scanGreater s) := by
  unfold scanGreater
  split
  · rename_i e
    have h := h.peekAdv e (by decide)
    dsimp only
    split
    · rename_i e; exact op1(h, e)
    · exact op0(h)
  · rename_i e; exact op1(h, e)
  · exact op0(h)

theorem good_bang (h : In U t p c!"!" s) : Good U t (scanBang s) := by
  unfold scanBang
  split
  · rename_i e
    have h := h.peekAdv e (by decide)
    dsimp only
    split
    · rename_i e; exact op1(h, e)
    · exact op0(h)
  · exact op0(h)

theorem good_caret (h : In U t p c!"^" s) : Good U t (scanCaret s) := by
  unfold scanCaret
  split
  · rename_i e; exact op1(h, e)
  · exact op0(h)

theorem good_plus (h : In U t p c!"+" s) : Good U t (scanPlus s) := by
  unfold scanPlus
  split
  · rename_i e; exact op1(h, e)
  · rename_i e; exact op1(h, e)
  · exact op0(h)

theorem good_minus (h : In U t p c!"-" s) : Good U t (scanMinus s) := by
  unfold scanMinus
  split
  · rename_i e; exact op1(h, e)
  · rename_i e; exact op1(h, e)
  · rename_i e; exact op1(h, e)
  · exact op0(h)

theorem good_star (h : In U t p c!"*" s) : Good U t (scanStar s) := by
  unfold scanStar
  split
  · rename_i e
    have h := h.peekAdv e (by decide)
    dsimp only
    split
    · rename_i e; exact op1(h, e)
    · exact op0(h)
  · rename_i e; exact op1(h, e)
  · exact op0(h)

theorem good_equals (h : In U t p c!"=" s) : Good U t (scanEquals s) := by
  unfold scanEquals
  split
  · rename_i e
    have h := h.peekAdv e (by decide)
    dsimp only
    split
    · rename_i e; exact op1(h, e)
    · exact op0(h)
  · rename_i e; exact op1(h, e)
  · exact op0(h)

/-- A token read before the last `v` characters. -/
theorem In.lies_early {w v : Text} (h : In U t p (w ++ v) s) {k : Token} (hk : startPos k = endPos p)
    (hs : Spells U k w) (he : k.end = some (swapPos (posAfter (endPos p) w))) : Lies U t k := by
  obtain ⟨raw, hat, hw⟩ := h.txt
  obtain ⟨a, b, rfl, ha⟩ : ∃ a b, raw = a ++ b ∧ noCr a = w := by
    unfold noCr at hw ⊢
    obtain ⟨a, b, h1, h2, _⟩ := List.filter_eq_append_iff.mp hw
    exact ⟨a, b, h1, h2⟩
  refine ⟨p, a, b ++ s.chars, by rw [hat.1]; simp, hk, .inl ⟨ha ▸ hs, ?_⟩⟩
  rw [he, endPos_append, ← posAfter_noCr _ a, ha]

/-- Two tokens with the same start. -/
theorem In.op2 {w v : Text} (h : In U t p (w ++ v) s) (t1 t2 : TT) (hd1 : t1.display = some w) (hb1 : byteLen w = w.length)
    (hw1 : Line w) {d2 : Text} (hd2 : t2.display = some d2) (hb2 : byteLen d2 = d2.length) (hw2 : Line d2) (hlen : d2.length ≤ (w ++ v).length)
    (hwv : Line (w ++ v))
    (htw : t2 ∈ twins) (hl2 : ∀ l c o, (l, c) = endPos p → Lies U t (Token.new t2 l c o)) :
    Good U t ((s.push t1).push t2) := by
  unfold St.push
  split
  · exact h.good
  · refine h.add2 _ _ h.start (h.lies_early h.start ⟨w, hd1, .inl rfl⟩ ?_) htw rfl (hl2 _ _ _ h.start)
      (.inl ⟨_, end_plain hd2 _ _ _, ?_⟩)
    · rw [end_plain hd1, hb1, hw1.pos, ← h.start]; rfl
    · rw [h.pos, hwv.pos, ← h.start, hb2]
      exact .inr ⟨rfl, Nat.add_le_add_left hlen _⟩

theorem good_question (h : In U t p c!"?" s) : Good U t (scanQuestion s) := by
  unfold scanQuestion
  split
  · rename_i e; exact Good.ctx op1(h, e) _
  · rename_i e
    have h := h.peekAdv e (by decide)
    dsimp only
    split
    · rename_i e; exact op1(h, e)
    · exact op0(h)
  · rename_i e
    have h := h.peekAdv e (by decide)
    dsimp only
    split
    · rename_i e; exact op1(h, e)
    · exact h.op2 _ _ rfl (by decide) (by decide) rfl (by decide) (by decide) (by decide) (by decide) (by decide)
        (fun l c o hp => h.lies_dev hp (.questionMinus rfl rfl))
  · exact op0(h)

theorem digit_line : isDigit '\n' = false ∧ isDigit '\r' = false := by decide
theorem hexDigit_line : isHexDigit '\n' = false ∧ isHexDigit '\r' = false := by decide
theorem binDigit_line : isBinDigit '\n' = false ∧ isBinDigit '\r' = false := by decide

theorem good_dot (h : In U t p c!"." s) : Good U t (scanDot s) := by
  unfold scanDot
  split
  · rename_i c e
    split
    · rename_i hc
      subst hc
      have h := h.peekAdv e (by decide)
      dsimp only
      split
      · rename_i e; exact op1(h, e)
      · refine h.op2 _ _ rfl (by decide) (by decide) rfl (by decide) (by decide) (by decide) (by decide) (by decide)
          (fun l c o hp => h.lies_early hp ⟨_, rfl, .inl rfl⟩ ?_)
        rw [end_plain rfl, (show Line c!"." by decide).pos, ← hp]; rfl
    · split
      · rename_i hc; subst hc; exact op1(h, e)
      · split
        · obtain ⟨h1, h2, h3⟩ := h.while isDigit digit_line
          dsimp only
          have hst : startPos (Token.named .decimalNumber (collectWhile isDigit s).2.sLine (collectWhile isDigit s).2.sCol
              (collectWhile isDigit s).2.toks.length (c!"0." ++ (collectWhile isDigit s).1)) = endPos p := h1.start
          refine h1.add _ hst (h1.lies_dev hst (.point rfl rfl ⟨_, rfl⟩)) (.inr (.inl ?_))
          obtain ⟨raw, hat, hw⟩ := h1.txt
          exact .point rfl p raw _ _ hat.1 hst hw rfl
        · exact op0(h)
  · exact op0(h)

/-- An unclosed string or comment. -/
theorem In.unclosed {w : Text} (h : In U t p w s) (tt : TT) (l : Text) (hk : tt ∈ openKinds) (hc : s.chars = []) :
    Good U t (s.pushNamed tt l) :=
  h.add _ h.start (h.lies_dev h.start (.unclosed hk hc)) (.inr (.inr ⟨hk, hc⟩))

theorem good_quoted {q : Char} (tt : TT) (h : In U t p [q] s) (hk : tt ∈ openKinds) (hk' : tt ∈ namedKinds)
    (hd : ∀ l' c o l, (Token.named tt l' c o l).display = some ([q] ++ l ++ [q])) (hq : q ≠ '\n' ∧ q ≠ '\r' ∧ q.toNat < 128) :
    Good U t (scanQuoted q tt s) := by
  unfold scanQuoted collectUntilEscaped
  obtain ⟨hcr, h1 | ⟨h1, h2⟩⟩ := In.quotedN (q := q) (s.chars.length + 1) false [q] s h (by omega)
  · refine h1.named tt _ hk' (fun _ _ _ => hd _ _ _ _) (.inl rfl) (fun _ => rfl) ?_ (lastLine_snoc hq.1) ?_
    · simp only [List.mem_append, List.mem_singleton, not_or]
      exact ⟨⟨fun e => hq.2.1 e.symm, hcr⟩, fun e => hq.2.1 e.symm⟩
    · have : Ascii [q] := by intro c hc; rw [List.mem_singleton.mp hc]; exact hq.2.2
      exact fun ha => ascii_append (ascii_append this ha) this
  · exact h1.unclosed tt _ hk h2

theorem good_doc (h : In U t p c!"/*" s) : Good U t (collectDocComment s) := by
  unfold collectDocComment
  obtain ⟨hcr, h1 | ⟨h1, h2⟩⟩ := In.docN (s.chars.length + 1) c!"/*" s h (by omega)
  · refine h1.named _ _ (by decide) (fun _ _ _ => rfl) (.inl rfl) (fun _ => rfl) ?_ ?_ ?_
    · simp only [List.mem_append, not_or]
      exact ⟨⟨by decide, hcr⟩, by decide⟩
    · have : ∀ x : Text, x ++ c!"*/" = x ++ ['*'] ++ ['/'] := fun x => by simp
      rw [this]
      exact lastLine_snoc (by decide)
    · exact fun ha => ascii_append (ascii_append (by unfold Ascii; decide) ha) (by unfold Ascii; decide)
  · exact h1.unclosed _ _ (by decide) h2

/-- The end of a line comment. -/
theorem end_comment {l : Text} (hl : Line l) (ha : Ascii l) (a b o : Nat) :
    (Token.named .lineComment a b o l).end = some (b + (l.length + 2), a) := by
  have hd : Line (c!"//" ++ l) := line_append.mpr ⟨by decide, hl⟩
  rw [C11_end_is_behind_text_partial (Token.named .lineComment a b o l) (c!"//" ++ l) l rfl rfl
    (ascii_append (by unfold Ascii; decide) ha) hd.2 (by rw [hd.last]; simp)]
  rw [hd.pos]
  simp [Token.named]

/-- The marks that start a line comment: two slashes, or `#` and one character more. -/
def CommentMark (w : Text) : Prop := w = c!"//" ∨ ∃ c, c ≠ '\r' ∧ w = ['#', c]

theorem In.comment {m l : Text} (h : In U t p (m ++ l) s) (hm : CommentMark m) (hl : Line l) (hv : Line v) {s' : St}
    (h' : In U t p (m ++ l ++ v) s') (hc : s'.sLine = s.sLine ∧ s'.sCol = s.sCol) (o : Nat) :
    Lies U t (Token.named .lineComment s.sLine s.sCol o l) ∧
    (Behind (Token.named .lineComment s.sLine s.sCol o l) (s'.line, s'.col) ∨
      TooLong t (Token.named .lineComment s.sLine s.sCol o l)) := by
  by_cases ha : Ascii l
  · have he := end_comment hl ha s.sLine s.sCol o
    have hb : Behind (Token.named .lineComment s.sLine s.sCol o l) (s'.line, s'.col) := by
      refine ⟨_, he, ?_⟩
      rw [h'.pos, ← h.start]
      rcases hm with rfl | ⟨c, hc, rfl⟩
      · rw [(line_append.mpr ⟨line_append.mpr ⟨by decide, hl⟩, hv⟩).pos]
        right; refine ⟨rfl, ?_⟩
        simp only [List.length_append]
        simp; omega
      · by_cases hn : c = '\n'
        · subst hn
          have : ['#', '\n'] ++ l ++ v = ['#', '\n'] ++ (l ++ v) := by simp
          rw [this, posAfter_append, (line_append.mpr ⟨hl, hv⟩).pos]
          left
          show s.sLine < s.sLine + endLine ['#', '\n']
          have : endLine ['#', '\n'] = 1 := by decide
          omega
        · have hcl : Line ['#', c] := by
            unfold Line
            simp only [List.mem_cons, List.not_mem_nil, or_false, not_or]
            exact ⟨⟨by decide, fun e => hn e.symm⟩, by decide, fun e => hc e.symm⟩
          rw [(line_append.mpr ⟨line_append.mpr ⟨hcl, hl⟩, hv⟩).pos]
          right; refine ⟨rfl, ?_⟩
          simp only [List.length_append]
          simp; omega
    refine ⟨?_, .inl hb⟩
    rcases hm with rfl | ⟨c, hc, rfl⟩
    · refine h.lies_exact h.start ⟨_, rfl, .inl rfl⟩ ?_
      rw [he, (line_append.mpr ⟨by decide, hl⟩).pos, ← h.start]
      simp [swapPos]
    · exact h.lies_dev h.start (.hash rfl ⟨_, rfl⟩)
  · exact ⟨h.lies_dev h.start (.nonAscii l rfl ha), .inr (.nonAscii (show TT.lineComment ∈ namedKinds by decide) l rfl ha)⟩

theorem adv_start (s : St) : s.adv.sLine = s.sLine ∧ s.adv.sCol = s.sCol := by
  rw [adv_eq]
  split
  · exact ⟨rfl, rfl⟩
  · unfold readOne
    split
    · exact push_start _ _
    · exact ⟨rfl, rfl⟩

theorem good_lineComment {m : Text} (hm : CommentMark m) : ∀ (n : Nat) (l : Text) (s s' : St), In U t p (m ++ l) s → Line l →
    lineCommentLoop n l s = some s' → Good U t s' := by
  intro n
  have stop : ∀ (l : Text) (s : St), In U t p (m ++ l) s → Line l → Good U t (s.pushNamed .lineComment l) := by
    intro l s h hl
    obtain ⟨h1, h2⟩ := In.comment (v := []) h hm hl (by decide) (by rwa [List.append_nil]) ⟨rfl, rfl⟩ s.toks.length
    exact h.add _ h.start h1 (h2.elim .inl (fun h => .inr (.inl h)))
  induction n with
  | zero => intro l s s' h hl e; cases e; exact stop l s h hl
  | succ n ih =>
    intro l s s' h hl e
    unfold lineCommentLoop at e
    cases hp : s.peek with
    | none => rw [hp] at e; cases e; exact stop l s h hl
    | some c =>
      rw [hp] at e
      dsimp only at e
      split at e
      · cases e; exact stop l s h hl
      · rename_i hnl
        split at e
        · rename_i hc
          subst hc
          have h1 := h.peekAdv hp (by decide)
          split at e
          · rename_i he
            have h2 := h1.peekAdv he (by decide)
            cases e
            refine Good.ctx (s := (s.adv.adv.pushNamed .lineComment l).push .scriptEnd) ?_ _
            have hlies : ∀ a b o, (a, b) = endPos p → Lies U t (Token.new .scriptEnd a b o) := fun a b o hab =>
              h2.lies_dev hab (.tag rfl ⟨m ++ l, by simp⟩)
            have hs1 := adv_start s
            have hs2 := adv_start s.adv
            obtain ⟨h3, h4⟩ := In.comment (v := ['?', '>']) h hm hl (by decide) (s' := s.adv.adv) (by simpa using h2)
              ⟨by rw [hs2.1, hs1.1], by rw [hs2.2, hs1.2]⟩ s.adv.adv.toks.length
            have hk : startPos (Token.named .lineComment s.adv.adv.sLine s.adv.adv.sCol s.adv.adv.toks.length l) = endPos p := h2.start
            rw [← hs1.1, ← hs1.2, ← hs2.1, ← hs2.2] at h3 h4
            unfold St.push
            split
            · exact h2.add _ hk h3 (h4.elim .inl (fun h => .inr (.inl h)))
            · refine h2.add2 _ _ hk h3 (show TT.scriptEnd ∈ twins by decide) rfl (hlies _ _ _ h2.start) (.inl ⟨_, end_plain rfl _ _ _, ?_⟩)
              have hpos := h2.pos
              rw [hpos]
              show posLe (s.adv.adv.sLine, s.adv.adv.sCol + byteLen c!"?>") _
              have hst := h2.start
              have e1 : m ++ l ++ ['?'] ++ ['>'] = m ++ l ++ ['?', '>'] := by simp
              rw [e1, posAfter_append, (show Line ['?', '>'] by decide).pos, ← hst]
              have := posLe_posAfter (s.adv.adv.sLine, s.adv.adv.sCol) (m ++ l)
              rcases this with h | ⟨ha, hb⟩
              · exact .inl h
              · exact .inr ⟨ha, Nat.add_le_add_right hb 2⟩
          · exact ih (l ++ ['?']) _ _ (by simpa using h1) (line_append.mpr ⟨hl, by decide⟩) e
        · split at e
          · rename_i x s1 hx
            obtain ⟨h1, hr⟩ := h.advance hx
            refine ih (l ++ [x]) _ _ (by simpa using h1) (line_append.mpr ⟨hl, ?_⟩) e
            have : x = c := by
              obtain ⟨r, hr'⟩ := peek_eq_some hp
              have hcr : c ≠ '\r' := fun e => hnl (.inr e)
              rw [advance_cons s c r hr' hcr] at hx
              cases hx; rfl
            subst this
            unfold Line
            simp only [List.mem_singleton]
            exact ⟨fun e => hnl (.inl e.symm), fun e => hnl (.inr e.symm)⟩
          · cases e

theorem good_hash (h : In U t p c!"#" s) {s' : St} (e : scanHash s = .cont s') : Good U t s' := by
  unfold scanHash at e
  split at e
  · rename_i he; cases e; exact op1(h, he)
  · split at e
    · rename_i s1 he
      cases e
      unfold consumeLineComment at he
      cases hx : s.advance with
      | mk c s2 =>
        have hs2 : s.adv = s2 := by unfold St.adv; rw [hx]
        rw [hs2] at he
        cases c with
        | none =>
          obtain ⟨h1, h2⟩ := h.advance_none hx
          rw [h2] at he
          simp only [List.length_nil, Nat.zero_add, lineCommentLoop, St.peek, h2, List.head?_nil, Option.some.injEq] at he
          subst he
          exact h1.unclosed _ _ (by decide) h2
        | some c =>
          obtain ⟨h1, h2⟩ := h.advance hx
          exact good_lineComment (m := ['#', c]) (.inr ⟨c, h2, rfl⟩) _ [] _ _ (by simpa using h1) (by decide) he
    · cases e

theorem good_slash (h : In U t p c!"/" s) {s' : St} (e : scanSlash s = .cont s') : Good U t s' := by
  unfold scanSlash at e
  split at e
  · rename_i he
    split at e
    · rename_i s1 hc
      cases e
      unfold consumeLineComment at hc
      exact good_lineComment (m := c!"//") (.inl rfl) _ [] _ _ (by simpa using h.peekAdv he (by decide)) (by decide) hc
    · cases e
  · rename_i he; cases e; exact good_doc (h.peekAdv he (by decide))
  · rename_i he; cases e; exact op1(h, he)
  · cases e; exact op0(h)

theorem good_dollar (h : In U t p c!"$" s) : Good U t (scanDollar U s) := by
  unfold scanDollar
  obtain ⟨h1, h2, _⟩ := h.while (isIdChar U) (idChar_line U)
  dsimp only
  split
  · refine h1.namedLine _ _ (by decide) (fun _ _ _ => rfl) (.inl rfl) rfl ?_ ?_ (by simp) ?_
    · exact line_append.mpr ⟨by decide, h2⟩
    · exact line_append.mpr ⟨by decide, h2⟩
    · exact fun ha => ascii_append (by unfold Ascii; decide) ha
  · rename_i he
    have : (collectWhile (isIdChar U) s).1 = [] := by simpa using he
    rw [this, List.append_nil] at h1
    exact op0(h1)

theorem good_numeral {w : Text} (h : In U t p w s) (tt : TT) (hk : tt ∈ namedKinds)
    (hd : ∀ l' c o l, (Token.named tt l' c o l).display = some l) {l : Text} (hs : l = w ∨ U.lower l = U.lower w) (hlen : l.length = w.length)
    (hw : Line w) (hl : Line l) (hne : l ≠ []) : Good U t (s.pushNamed tt l) :=
  h.namedLine tt l hk (fun _ _ _ => hd _ _ _ _) hs hlen hw hl hne id

theorem In.fraction {w : Text} (h : In U t p w s) (hw : Line w) :
    In U t p (numberFraction w s).1 (numberFraction w s).2.2 ∧ Line (numberFraction w s).1 ∧
      ((numberFraction w s).2.1 = .decimalNumber ∨ (numberFraction w s).2.1 = .longNumber) ∧ w <+: (numberFraction w s).1 ∧
      ((∀ c ∈ w, c.toNat < 128) → ∀ c ∈ (numberFraction w s).1, c.toNat < 128) := by
  unfold numberFraction
  split
  · rename_i e
    obtain ⟨h1, h2, h3⟩ := (h.peekAdv e (by decide)).while isDigit digit_line
    refine ⟨h1, line_append.mpr ⟨line_append.mpr ⟨hw, by decide⟩, h2⟩, .inl rfl, by simp, ?_⟩
    intro ha c hc
    simp only [List.mem_append, List.mem_singleton] at hc
    rcases hc with (hc | rfl) | hc
    · exact ha c hc
    · decide
    · have := h3 c hc
      unfold isDigit at this
      simp at this
      have h9 : c.toNat ≤ 57 := this.2
      omega
  · exact ⟨h, hw, .inr rfl, List.prefix_refl _, fun ha => ha⟩

theorem In.sign {w : Text} (h : In U t p w s) (n : Text) :
    ∃ v, (numberSign n s).1 = n ++ v ∧ In U t p (w ++ v) (numberSign n s).2 ∧ Line v ∧ Ascii v := by
  unfold numberSign
  split
  · rename_i e; exact ⟨_, rfl, h.peekAdv e (by decide), by decide, by unfold Ascii; decide⟩
  · rename_i e; exact ⟨_, rfl, h.peekAdv e (by decide), by decide, by unfold Ascii; decide⟩
  · exact ⟨[], by simp, by simpa using h, by decide, by unfold Ascii; decide⟩

theorem ascii_digits {l : Text} (h : ∀ c ∈ l, isDigit c = true) : Ascii l := by
  intro c hc
  have := h c hc
  unfold isDigit at this
  simp at this
  have h9 : c.toNat ≤ 57 := this.2
  omega

theorem good_number {c : Char} (h : In U t p [c] s) (hc : isDigit c = true) : Good U t (scanNumber c s) := by
  have hcl : Line [c] := by
    unfold Line
    simp only [List.mem_singleton]
    constructor <;> (rintro rfl; revert hc; decide)
  unfold scanNumber
  split
  · rename_i e
    obtain ⟨h1, h2, _⟩ := (h.peekAdv e.1 (by decide)).while isHexDigit hexDigit_line
    have := line_append.mpr ⟨line_append.mpr ⟨hcl, (show Line ['x'] by decide)⟩, h2⟩
    exact good_numeral h1 _ (by decide) (fun _ _ _ _ => rfl) (.inl rfl) rfl this this (by simp)
  · split
    · rename_i e
      obtain ⟨h1, h2, _⟩ := (h.peekAdv e.1 (by decide)).while isBinDigit binDigit_line
      have := line_append.mpr ⟨line_append.mpr ⟨hcl, (show Line ['b'] by decide)⟩, h2⟩
      exact good_numeral h1 _ (by decide) (fun _ _ _ _ => rfl) (.inl rfl) rfl this this (by simp)
    · obtain ⟨h1, h2, h3⟩ := h.while isDigit digit_line
      obtain ⟨h4, h5, h6, h7, h8⟩ := h1.fraction (line_append.mpr ⟨hcl, h2⟩)
      have hne : (numberFraction ([c] ++ (collectWhile isDigit s).1) (collectWhile isDigit s).2).1 ≠ [] := by
        intro h0; rw [h0] at h7; simp at h7
      have hasc : Ascii (numberFraction ([c] ++ (collectWhile isDigit s).1) (collectWhile isDigit s).2).1 :=
        h8 (ascii_append (ascii_digits (by simpa using hc)) (ascii_digits h3))
      revert h4 h5 h6 hne hasc
      dsimp only
      generalize numberFraction ([c] ++ (collectWhile isDigit s).1) (collectWhile isDigit s).2 = f
      intro h4 h5 h6 hne hasc
      have hexp : ∀ x : Char, f.2.2.peek = some x → Line [x] → Ascii [x] → x.toLower = 'e' → Good U t
          ((collectWhile isDigit (numberSign (f.1 ++ ['e']) f.2.2.adv).2).2.pushNamed .exponentialNumber
            ((numberSign (f.1 ++ ['e']) f.2.2.adv).1 ++ (collectWhile isDigit (numberSign (f.1 ++ ['e']) f.2.2.adv).2).1)) := by
        intro x hx hxl hxa hlow
        have hr : x ≠ '\r' := by rintro rfl; exact hxl.2 (by simp)
        obtain ⟨v, g1, g2, g3, g4⟩ := (h4.peekAdv hx hr).sign (f.1 ++ ['e'])
        obtain ⟨d1, d2, d3⟩ := g2.while isDigit digit_line
        rw [g1]
        refine good_numeral d1 _ (by decide) (fun _ _ _ _ => rfl) (.inr ?_) (by simp) ?_ ?_ (by simp)
        · rw [U.lower_ascii, U.lower_ascii]
          · simp [hlow]
          · exact ascii_append (ascii_append (ascii_append hasc hxa) g4) (ascii_digits d3)
          · exact ascii_append (ascii_append (ascii_append hasc (by unfold Ascii; decide)) g4) (ascii_digits d3)
        · exact line_append.mpr ⟨line_append.mpr ⟨line_append.mpr ⟨h5, hxl⟩, g3⟩, d2⟩
        · exact line_append.mpr ⟨line_append.mpr ⟨line_append.mpr ⟨h5, by decide⟩, g3⟩, d2⟩
      split
      · rename_i e
        rcases e with e | e
        · exact hexp _ e (by decide) (by unfold Ascii; decide) (by decide)
        · exact hexp _ e (by decide) (by unfold Ascii; decide) (by decide)
      · rcases h6 with h6 | h6
        · rw [h6]; exact good_numeral h4 _ (by decide) (fun _ _ _ _ => rfl) (.inl rfl) rfl h5 h5 hne
        · rw [h6]; exact good_numeral h4 _ (by decide) (fun _ _ _ _ => rfl) (.inl rfl) rfl h5 h5 hne

/-! ### Tokens that replace earlier ones -/

/-- Kinds that are never measured too long and never share their start with the token before. -/
def steady : List TT :=
  [.openParenthesis, .typeBool, .typeInt, .typeString, .typeArray, .typeObject, .typeFloat, .kwUnset, .kwYield]

theorem steady_not_long {k : Token} (hk : k.t ∈ steady) : ¬ TooLong t k := by
  intro h
  cases h with
  | heredoc h => rcases h with h | h <;> (rw [h] at hk; revert hk; decide)
  | yieldFrom h => rw [h] at hk; revert hk; decide
  | float h => rw [h] at hk; revert hk; decide
  | nonAscii h =>
    have : ∀ x ∈ steady, x ∉ namedKinds := by decide
    exact this _ hk h
  | point h => rw [h] at hk; revert hk; decide

theorem steady_clear {k k' : Token} (hk : k.t ∈ steady) (h : Clear t k k') (hk' : k'.t ∈ steady) : Behind k (startPos k') := by
  cases h with
  | behind h => exact h
  | long h => exact absurd h (steady_not_long hk)
  | twin h => exact absurd h ((show ∀ x ∈ steady, x ∉ twins by decide) _ hk')
  | unclosed _ h => rw [h] at hk'; exact absurd hk' (by decide)

theorem clear_of_start {k0 k k' : Token} (h : Clear t k0 k) (hk : k.t ∈ steady) (hs : startPos k' = startPos k) : Clear t k0 k' := by
  cases h with
  | behind h => exact .behind (hs ▸ h)
  | long h => exact .long h
  | twin h => exact absurd h ((show ∀ x ∈ steady, x ∉ twins by decide) _ hk)
  | unclosed _ h => rw [h] at hk; exact absurd hk (by decide)

theorem In.headBehind {w : Text} (h : In U t p w s) {k : Token} {r : List Token} (hs : s.toks = k :: r) (hk : k.t ∈ steady) :
    Behind k (endPos p) :=
  (h.head k (by rw [hs]; rfl)).elim id (fun hl => absurd hl (steady_not_long hk))

/-- Taking back the newest token. -/
theorem In.pop {w : Text} (h : In U t p w s) {k : Token} {r : List Token} (hs : s.toks = k :: r) (hk : k.t ∈ steady) :
    In U t p w { s with toks := r } where
  txt := h.txt
  start := h.start
  lies := fun x hx => h.lies x (by rw [hs]; exact List.mem_cons_of_mem _ hx)
  chain := by have := h.chain; rw [hs] at this; exact this.2
  head := fun x hx => by
    have hc := h.chain
    rw [hs] at hc
    obtain ⟨e, he, hle⟩ := h.headBehind hs hk
    cases hc.1 x hx with
    | behind hb => exact .inl (hb.mono (posLe_trans (start_le_end he) hle))
    | long hl => exact .inr hl
    | twin ht => exact absurd ht ((show ∀ x ∈ steady, x ∉ twins by decide) _ hk)
    | unclosed _ ht => rw [ht] at hk; exact absurd hk (by decide)

/-- The end of a token of a steady kind. -/
theorem steady_end {k : Token} (hk : k.t ∈ steady) {d : Text} (hd : k.t.display = some d) {e : ColLine} (he : k.end = some e) :
    posLe (k.line, k.col + byteLen d) (e.2, e.1) := by
  cases hl : k.label with
  | none =>
    unfold Token.end at he
    have : k.display = some d := by unfold Token.display; rw [hl]; exact hd
    rw [this, hl] at he
    simp at he
    subst he
    exact posLe_refl _
  | some l =>
    have hdisp : k.display = some c!"Should have never been called with" := by
      unfold Token.display
      rw [hl]
      unfold steady at hk
      simp only [List.mem_cons, List.not_mem_nil, or_false] at hk
      rcases hk with h | h | h | h | h | h | h | h | h <;> rw [h]
    unfold Token.end at he
    rw [hdisp, hl] at he
    have hlen : (rustLines c!"Should have never been called with").length = 1 := by decide
    simp only [Option.bind_eq_bind, Option.bind_some, Option.isSome_some, if_true, hlen, Option.some.injEq] at he
    subst he
    refine .inr ⟨rfl, Nat.add_le_add_left ?_ _⟩
    have : ∀ x ∈ steady, byteLen (x.display.getD []) ≤ byteLen c!"Should have never been called with" := by decide
    have := this _ hk
    rw [hd] at this
    exact this

theorem good_closeParen (h : In U t p c!")" s) (hctx : s.ctx = .inScript) {s' : St} (e : scanCloseParen s = .cont s') :
    Good U t s' := by
  unfold scanCloseParen at e
  split at e
  · rename_i prev rest hs
    split at e
    · rename_i castTo hcast
      split at e
      · rename_i pp rest'
        split at e
        · rename_i hpp
          simp only [push_inScript, hctx] at e
          cases e
          have hps : prev.t ∈ steady := by
            revert hcast; unfold mapCast; split <;> rename_i hx <;> intro hh <;> first | (rw [hx]; decide) | (cases hh)
          have hpps : pp.t ∈ steady := by rw [hpp]; decide
          have h1 := h.pop hs hps
          have h2 := h1.pop rfl hpps
          have hch := h1.chain
          have hcl := h.chain
          rw [hs] at hcl
          have hmem : castTo ∈ casts ∧ ∃ d d', castTo.display = some d ∧ prev.t.display = some d' ∧
              (castTo = .doubleCast ∨ byteLen d ≤ byteLen d' + 2) := by
            revert hcast; unfold mapCast
            split <;> rename_i hx <;> intro hh <;> first
              | (cases hh; rw [hx]; exact ⟨by decide, _, _, rfl, rfl, by decide⟩)
              | (cases hh)
          obtain ⟨hm, d, d', hd, hd', hlen⟩ := hmem
          refine ⟨h2.good.pre, ?_, ⟨?_, h2.chain⟩, ?_⟩
          · intro k hk
            rcases List.mem_cons.mp hk with rfl | hk
            · obtain ⟨p', raw, q, ht, hst, _⟩ := h1.lies pp (List.mem_cons_self ..)
              exact ⟨p', raw, q, ht, hst, .inr (.cast hm)⟩
            · exact h2.lies k hk
          · intro k0 hk0
            exact clear_of_start (hch.1 k0 hk0) hpps rfl
          · intro k hk
            cases hk
            rcases hlen with hf | hlen
            · exact .inr (.inl (.float hf))
            · left
              refine ⟨_, end_plain (l := pp.line) (c := pp.col) hd _, ?_⟩
              obtain ⟨e1, he1, hle1⟩ := h.headBehind hs hps
              obtain ⟨e0, he0, hle0⟩ := steady_clear hpps (hcl.1 pp rfl) hps
              have g1 := steady_end hps hd' he1
              have g0 := steady_end hpps (d := c!"(") (by rw [hpp]; rfl) he0
              have hpos := h.pos
              rw [(show Line c!")" by decide).pos] at hpos
              have hb : byteLen c!"(" = 1 := by decide
              rw [hb] at g0
              have hl1 : (c!")").length = 1 := rfl
              rw [hl1] at hpos
              injection hpos with hp1 hp2
              change posLe (pp.line, pp.col + byteLen d) (s.line, s.col)
              unfold posLe startPos at *
              dsimp only at *
              omega
        · cases e; exact op0(h)
      · cases e; exact op0(h)
    · cases e; exact op0(h)
  · cases e; exact op0(h)

/-! ### Words -/

theorem keyword_table_displays : ∀ e ∈ keywordTable, e.2.display.isSome = true ∧
    (∀ c ∈ e.2.display.getD [], c.toNat < 128) ∧
    (e.1 ∈ aliasWords ∨ ((e.2.display.getD []).map Char.toLower = e.1 ∧ byteLen (e.2.display.getD []) = e.1.length)) ∧
    byteLen (e.2.display.getD []) ≤ e.1.length := by decide +kernel

theorem good_word {c : Char} (hU : KeepsLength U) (h : In U t p [c] s) {s' : St} (e : scanWord U c s = .cont s') : Good U t s' := by
  unfold scanWord at e
  split at e
  · rename_i hc
    have hcl : Line [c] := by
      unfold Line
      simp only [List.mem_singleton]
      constructor
      · rintro rfl; rw [(idChar_line U).1] at hc; cases hc
      · rintro rfl; rw [(idChar_line U).2] at hc; cases hc
    obtain ⟨h1, h2, _⟩ := h.while (isIdChar U) (idChar_line U)
    have hl : Line (c :: (collectWhile (isIdChar U) s).1) := line_append.mpr ⟨hcl, h2⟩
    have hname : Good U t ((collectWhile (isIdChar U) s).2.pushNamed .identifier (c :: (collectWhile (isIdChar U) s).1)) :=
      h1.namedLine _ _ (by decide) (fun _ _ _ => rfl) (.inl rfl) rfl hl hl (by simp) id
    dsimp only at e
    split at e
    · rename_i tt hkw
      cases e
      unfold mapKeyword at hkw
      split at hkw
      · rename_i hn
        cases hkw
        rw [show [c] ++ (collectWhile (isIdChar U) s).1 = c!"INF" from hn] at h1
        refine h1.op _ rfl (.inr ?_) (by decide) (by decide)
        rw [U.lower_ascii _ (by decide), U.lower_ascii _ (by decide)]; decide
      · split at hkw
        · rename_i hn
          cases hkw
          rw [show [c] ++ (collectWhile (isIdChar U) s).1 = c!"NAN" from hn] at h1
          refine h1.op _ rfl (.inr ?_) (by decide) (by decide)
          rw [U.lower_ascii _ (by decide), U.lower_ascii _ (by decide)]; decide
        · have hmem := lookup_mem hkw
          have hlen := hU _ _ hmem rfl
          obtain ⟨g1, g2, g3, g4⟩ := keyword_table_displays _ hmem
          obtain ⟨d, hd⟩ := Option.isSome_iff_exists.mp g1
          rw [hd] at g2 g3 g4
          rcases g3 with g3 | ⟨g3, g5⟩
          · exact h1.short _ hd (fun _ _ _ => .alias g3) (by rw [← hlen] at g4; exact g4) hl
          · refine h1.op _ hd (.inr ?_) (by rw [← hlen] at g5; exact g5) hl
            rw [U.lower_ascii d g2]; exact g3
    · split at e
      · split at e
        · rename_i y rest hs
          split at e
          · rename_i hy
            cases e
            have hys : y.t ∈ steady := by rw [hy]; decide
            have h3 := h1.pop hs hys
            unfold St.push
            split
            · exact h3.good
            · exact h3.add _ h3.start (h3.lies_dev h3.start (.yieldFrom rfl)) (.inr (.inl (.yieldFrom rfl)))
          · cases e; exact hname
        · cases e; exact hname
      · cases e; exact hname
  · cases e

/-! ### Heredocs -/

/-- Within a heredoc. -/
def InDoc (U : Unicode) (t p : Text) (s : St) : Prop := ∃ w, In U t p (c!"<<<" ++ w) s

theorem InDoc.adv (h : InDoc U t p s) : InDoc U t p s.adv := by
  obtain ⟨w, h⟩ := h
  obtain ⟨v, hv⟩ := h.adv
  exact ⟨w ++ v, by rw [← List.append_assoc]; exact hv⟩

theorem InDoc.advance (h : InDoc U t p s) {c : Option Char} {s' : St} (e : s.advance = (c, s')) : InDoc U t p s' := by
  have : s' = s.adv := by unfold St.adv; rw [e]
  rw [this]; exact h.adv

theorem InDoc.whileN (f : Char → Bool) : ∀ (n : Nat) (s : St), InDoc U t p s → InDoc U t p (collectWhileN f n s).2 := by
  intro n
  induction n with
  | zero => intro s h; exact h
  | succ n ih =>
    intro s h
    unfold collectWhileN
    split
    · exact h
    · split
      · exact ih _ h.adv
      · exact h

theorem InDoc.escapedN (q : Char) : ∀ (n : Nat) (b : Bool) (s : St), InDoc U t p s → InDoc U t p (collectUntilEscapedN q n b s).2 := by
  intro n
  induction n with
  | zero => intro b s h; exact h
  | succ n ih =>
    intro b s h
    unfold collectUntilEscapedN
    split
    · rename_i e; exact h.advance e
    · rename_i e
      split
      · exact ih _ _ (h.advance e)
      · split
        · exact h.advance e
        · exact ih _ _ (h.advance e)

theorem InDoc.marker : ∀ (m : Text) (s : St), InDoc U t p s → InDoc U t p (matchMarker m s).2.2 := by
  intro m
  induction m with
  | nil => intro s h; exact h
  | cons c m ih =>
    intro s h
    unfold matchMarker
    split
    · rename_i e
      split
      · exact ih _ (h.advance e)
      · exact h.advance e
    · rename_i e; exact ih _ (h.advance e)

theorem InDoc.loop (m : Text) : ∀ (n : Nat) (a b : Text) (c : Bool) (s : St), InDoc U t p s → InDoc U t p (hereDocLoop m n a b c s).2.2 := by
  intro n
  induction n with
  | zero => intro a b c s h; exact h
  | succ n ih =>
    intro a b c s h
    unfold hereDocLoop
    split
    · exact h
    · dsimp only
      split
      · exact ih _ _ _ _ h.adv
      · split
        · exact ih _ _ _ _ h.adv
        · have := InDoc.marker m s h
          split
          · rename_i e; rw [e] at this; exact this
          · rename_i e; rw [e] at this; exact ih _ _ _ _ this

theorem good_heredoc (h : In U t p c!"<<<" s) {s' : St} (e : tokenizeHereDoc U s = .ok s') : Good U t s' := by
  have h0 : InDoc U t p s := ⟨[], h⟩
  have h1 : InDoc U t p (skipBlanks s) := InDoc.whileN _ _ _ h0
  have h2 : InDoc U t p (hereDocMarker U (skipBlanks s)).2 := by
    unfold hereDocMarker
    split
    · exact InDoc.escapedN _ _ _ _ h1.adv
    · exact InDoc.escapedN _ _ _ _ h1.adv
    · exact InDoc.whileN _ _ _ h1
  have h3 : ∀ l, InDoc U t p ((hereDocMarker U (skipBlanks s)).2.pushNamed .hereDocStart l) := by
    intro l
    obtain ⟨w, h2⟩ := h2
    exact ⟨w, h2.stay _ h2.start (h2.lies_dev h2.start (.heredoc (.inl rfl) ⟨w, rfl⟩)) (.inr (.heredoc (.inl rfl)))⟩
  unfold tokenizeHereDoc at e
  dsimp only at e
  have h4 := InDoc.loop (hereDocMarker U (skipBlanks s)).1
    (((hereDocMarker U (skipBlanks s)).2.pushNamed .hereDocStart (hereDocMarker U (skipBlanks s)).1).chars.length + 1) [] [] false _
    (h3 (hereDocMarker U (skipBlanks s)).1)
  revert h4 e
  generalize hereDocLoop _ _ _ _ _ _ = r
  intro e h4
  split at e
  · cases e
  · cases e
    obtain ⟨w, h4⟩ := h4
    exact h4.add2 _ _ h4.start (h4.lies_dev h4.start (.heredoc (.inr (.inr rfl)) ⟨w, rfl⟩)) (show TT.hereDocEnd ∈ twins by decide) rfl
      (h4.lies_dev h4.start (.heredoc (.inr (.inl rfl)) ⟨w, rfl⟩)) (.inr (.heredoc (.inr rfl)))

theorem good_smaller (h : In U t p c!"<" s) {s' : St} (e : scanSmaller U s = .cont s') : Good U t s' := by
  unfold scanSmaller at e
  split at e
  · rename_i he
    have h := h.peekAdv he (by decide)
    dsimp only at e
    split at e
    · rename_i he
      have h := h.peekAdv he (by decide)
      split at e
      · rename_i hd; cases e; exact good_heredoc h hd
      · cases e
    · rename_i he; cases e; exact op1(h, he)
    · cases e; exact op0(h)
  · rename_i he
    have h := h.peekAdv he (by decide)
    dsimp only at e
    split at e
    · cases e; exact op0((h.ctx _))
    · cases e; exact op0((h.ctx _))
    · cases e; exact op0((h.ctx _))
    · cases e; exact op0((h.ctx _))
    · rename_i he; cases e; exact op0(((h.peekAdv he (by decide)).ctx _))
    · rename_i he
      have h := h.peekAdv he (by decide)
      split at e
      · rename_i he
        have h := h.peekAdv he (by decide)
        split at e
        · rename_i he; cases e; exact op0(((h.peekAdv he (by decide)).ctx _))
        · cases e; exact h.good
      · cases e; exact h.good
    · cases e; exact h.good
  · rename_i he
    have h := h.peekAdv he (by decide)
    dsimp only at e
    split at e
    · rename_i he; cases e; exact op1(h, he)
    · cases e; exact op0(h)
  · rename_i he; cases e; exact op1(h, he)
  · cases e; exact op0(h)

/-! ### One turn -/

theorem single_displays : ∀ x ∈ singleTable, x.2.display = some [x.1] ∧ byteLen [x.1] = 1 ∧ Line [x.1] := by decide

theorem good_scanChar (hU : KeepsLength U) {c : Char} (h : In U t p [c] s) (hc : c = '<' ∨ s.ctx = .inScript) {s' : St}
    (e : scanChar U c s = .cont s') : Good U t s' := by
  have hb := scanChar_branch U c s
  rw [e] at hb
  generalize hx : Step.cont s' = x at hb
  cases hb with
  | blank => cases hx; exact h.good
  | colon hc => subst hc; cases hx; exact good_colon h
  | amp hc => subst hc; cases hx; exact good_amp h
  | percent hc => subst hc; cases hx; exact good_percent h
  | pipe hc => subst hc; cases hx; exact good_pipe h
  | greater hc => subst hc; cases hx; exact good_greater h
  | smaller hc => subst hc; exact good_smaller h hx.symm
  | question hc => subst hc; cases hx; exact good_question h
  | bang hc => subst hc; cases hx; exact good_bang h
  | dot hc => subst hc; cases hx; exact good_dot h
  | caret hc => subst hc; cases hx; exact good_caret h
  | plus hc => subst hc; cases hx; exact good_plus h
  | minus hc => subst hc; cases hx; exact good_minus h
  | star hc => subst hc; cases hx; exact good_star h
  | hash hc => subst hc; exact good_hash h hx.symm
  | slash hc => subst hc; exact good_slash h hx.symm
  | equals hc => subst hc; cases hx; exact good_equals h
  | dollar hc => subst hc; cases hx; exact good_dollar h
  | number hc => cases hx; exact good_number h hc
  | closeParen h' => subst h'; exact good_closeParen h (hc.resolve_left (by decide)) hx.symm
  | single hc => subst hc; cases hx; exact good_quoted _ h (by decide) (by decide) (fun _ _ _ _ => rfl) (by decide)
  | backtick hc => subst hc; cases hx; exact good_quoted _ h (by decide) (by decide) (fun _ _ _ _ => rfl) (by decide)
  | double hc => subst hc; cases hx; exact good_quoted _ h (by decide) (by decide) (fun _ _ _ _ => rfl) (by decide)
  | char tt hs =>
    cases hx
    obtain ⟨h1, h2, h3⟩ := single_displays _ (lookup_mem hs)
    exact h.op tt h1 (.inl rfl) h2 h3
  | word => exact good_word hU h hx.symm

/-- The start of a turn. -/
theorem Good.mark (h : Good U t s) (hc : s.mark.advance.1 ≠ none) : ∃ p, In U t p [] s.mark := by
  obtain ⟨pre, hp⟩ := h.pre
  refine ⟨pre, ⟨[], by rw [List.append_nil]; exact hp, rfl⟩, hp.2, h.lies, h.chain, ?_⟩
  intro k hk
  rcases h.head k hk with hb | hl | ⟨_, hc'⟩
  · exact .inl (by rw [← hp.2]; exact hb)
  · exact .inr hl
  · exfalso
    apply hc
    rw [advance_eq]
    have : s.mark.chars = [] := hc'
    rw [this]
    rfl

theorem good_step (hU : KeepsLength U) {s' : St} (h : Good U t s) (e : step U s = .cont s') : Good U t s' := by
  unfold step at e
  split at e
  · cases e
  · rename_i c s1 h1
    obtain ⟨p, hin⟩ := h.mark (by rw [h1]; exact fun h => nomatch h)
    obtain ⟨h2, _⟩ := hin.advance h1
    split at e
    · cases e; exact h2.good
    · rename_i hc
      refine good_scanChar hU h2 ?_ e
      by_cases hlt : c = '<'
      · exact .inl hlt
      · right
        cases hctx : s1.ctx with
        | inScript => rfl
        | outScript => exact absurd ⟨hctx, hlt⟩ hc

end

/-- The tokens of a finished scan. -/
structure Told (U : Unicode) (t : Text) (s : St) : Prop where
  lies : ∀ k ∈ s.toks, Lies U t k
  chain : Chain t s.toks

/-- The last turn reads nothing. -/
theorem step_done_advance (U : Unicode) {a s : St} (e : step U a = .done s) : a.mark.advance = (none, a.mark.adv) := by
  unfold step at e
  split at e
  · rename_i s1 h1
    have hs1 : s1 = a.mark.adv := by unfold St.adv; rw [h1]
    rw [h1, hs1]
  · split at e
    · cases e
    · exfalso
      have hb := scanChar_branch U ‹Char› ‹St›
      rw [e] at hb
      generalize hx : Step.done s = x at hb
      cases hb with
      | smaller hh =>
        unfold scanSmaller at hx
        dsimp only at hx
        repeat' split at hx
        all_goals cases hx
      | hash => unfold scanHash at hx; repeat' split at hx
                all_goals cases hx
      | slash => unfold scanSlash at hx; repeat' split at hx
                 all_goals cases hx
      | closeParen hh =>
        unfold scanCloseParen at hx
        dsimp only at hx
        repeat' split at hx
        all_goals cases hx
      | word =>
        unfold scanWord at hx
        dsimp only at hx
        repeat' split at hx
        all_goals cases hx
      | _ => cases hx

theorem told_of_good {U : Unicode} {t : Text} {s s' : St} (h : Good U t s) (e : step U s = .done s') : Told U t s' := by
  have hadv := step_done_advance U e
  obtain ⟨rfl, hch⟩ := step_done U e
  obtain ⟨pre, hp⟩ := h.pre
  rw [advance_eq] at hadv
  split at hadv
  · have hst : s.mark.adv = { s.mark with chars := [] } := by injection hadv with _ h2; exact h2.symm
    rw [hst]
    unfold St.push
    split
    · exact ⟨h.lies, h.chain⟩
    · have hpos : (s.line, s.col) = endPos pre := hp.2
      refine ⟨?_, ?_, h.chain⟩
      · intro k hk
        rcases List.mem_cons.mp hk with rfl | hk
        · refine ⟨pre, [], s.chars, by rw [List.append_nil]; exact hp.1, hpos, .inl ⟨⟨[], rfl, .inl rfl⟩, ?_⟩⟩
          rw [List.append_nil, ← hpos]
          rfl
        · exact h.lies k hk
      · intro k hk
        rcases h.head k hk with hb | hl | ⟨ho, _⟩
        · exact .behind hb
        · exact .long hl
        · exact .unclosed ho rfl
  · cases hadv

theorem told_of_scan {U : Unicode} (hU : KeepsLength U) {t : Text} {s : St} (h : scan U t = .ok s) : Told U t s := by
  unfold scan at h
  have h0 : Good U t (new t) := ⟨⟨[], rfl, rfl⟩, (fun _ h => nomatch h), trivial, (fun _ h => nomatch h)⟩
  revert h0 h
  generalize t.length + 1 = n
  generalize new t = a
  intro h h0
  induction n generalizing a with
  | zero => simp [loop] at h
  | succ n ih =>
    unfold loop at h
    split at h
    · rename_i s' e; exact ih s' h (good_step hU h0 e)
    · rename_i s' e; cases h; exact told_of_good h0 e
    · cases h
    · cases h

/-! ## C11 -/

/-- **C11.** Every token of a scanned text was read from a piece of the text, starts where the piece starts, prints as the
piece (up to upper and lower case), and its end is where the piece ends; or it deviates in one of ten described ways. -/
theorem C11_tokens_lie {U : Unicode} (hU : KeepsLength U) {t : Text} {s : St} (h : scan U t = .ok s) :
    ∀ k ∈ s.tokens, Lies U t k := fun k hk => (told_of_scan hU h).lies k (List.mem_reverse.mp hk)

theorem chain_adjacent {t : Text} {b : List Token} {k k' : Token} : ∀ {a : List Token}, Chain t (a ++ k' :: k :: b) → Clear t k k' := by
  intro a
  induction a with
  | nil => intro h; exact h.1 _ rfl
  | cons x a ih => intro h; exact ih h.2

/-- **C11.** No token reaches into the token that follows it, except in the four ways of `Clear`. -/
theorem C11_tokens_clear {U : Unicode} (hU : KeepsLength U) {t : Text} {s : St} (h : scan U t = .ok s) (a b : List Token)
    (k k' : Token) (hs : s.tokens = a ++ k :: k' :: b) : Clear t k k' := by
  have hc := (told_of_scan hU h).chain
  have : s.toks = s.tokens.reverse := (List.reverse_reverse _).symm
  rw [this, hs] at hc
  refine chain_adjacent (a := b.reverse) (b := a.reverse) ?_
  simpa using hc

/-- The pairs of consecutive tokens that may overlap. -/
def Exceptional (t : Text) (k k' : Token) : Prop :=
  TooLong t k ∨ (k'.t ∈ twins ∧ startPos k = startPos k') ∨ (k.t ∈ openKinds ∧ k'.t = .eof)

/-- The exceptional pairs of a text do not overlap. -/
def ExceptionsApart (t : Text) (tokens : List Token) : Prop :=
  (∀ a b k k', tokens = a ++ k :: k' :: b → Exceptional t k k' → Behind k (startPos k')) ∧
    ∀ k ∈ tokens, k.t = .hereDocEnd → k.label ≠ some []

theorem upto_of_posLe {a b : Nat × Nat} (h : posLe a b) : Upto (swapPos a) (swapPos b) := h

theorem spaced_of_pairs : ∀ {l : List Token}, (∀ k ∈ l, k.end ≠ none) →
    (∀ a b k k', l = a ++ k :: k' :: b → Behind k (startPos k')) → Spaced l
  | [], _, _ => trivial
  | [k], he, _ => by
    cases h : k.end with
    | none => exact absurd h (he k (.head _))
    | some e => exact ⟨e, h, start_le_end h⟩
  | k :: k' :: r, he, hp => by
    obtain ⟨e, h, hle⟩ := hp [] r k k' rfl
    refine ⟨⟨e, h, start_le_end h, hle⟩, spaced_of_pairs (fun x hx => he x (.tail _ hx)) ?_⟩
    intro a b x y hxy
    exact hp (k :: a) b x y (by rw [hxy]; rfl)

/-- **C11.** The tokens of a scanned text follow one another without overlap, if the exceptional pairs (heredocs, `yield from`,
`(float)`, `.5`, labels that are not ASCII, two tokens recorded with one start, an unclosed string or comment) do. -/
theorem C11_spaced_partial {U : Unicode} (hU : KeepsLength U) {t : Text} {s : St} (h : scan U t = .ok s)
    (hx : ExceptionsApart t s.tokens) : Spaced s.tokens := by
  refine spaced_of_pairs ?_ ?_
  · intro k hk h0
    have := ((C11_end_panics_only_for_empty_heredoc_marker U t s h k hk).2).mp h0
    exact hx.2 k hk this.1 this.2
  · intro a b k k' hs
    cases C11_tokens_clear hU h a b k k' hs with
    | behind h => exact h
    | long h => exact hx.1 a b k k' hs (.inl h)
    | twin h h' => exact hx.1 a b k k' hs (.inr (.inl ⟨h, h'⟩))
    | unclosed h h' => exact hx.1 a b k k' hs (.inr (.inr ⟨h, h'⟩))

/-! ## The properties of the tree for whole texts -/

section
open PhpLs.Suggester
variable {U : Unicode} {t : Text} {sc : St} {n : Nat} {nodes : List Node} {s : PSt}

/-- **C52** for a text: the range of a node covers the ranges of its children. -/
theorem C52_text_parents_cover (hU : KeepsLength U) (hsc : scan U t = .ok sc) (hx : ExceptionsApart t sc.tokens)
    (h : ast U n sc.tokens = .ok nodes s) (he : s.errors = []) {stmt m c : Node} (hst : stmt ∈ nodes) (hb : Below stmt m)
    (hc : c ∈ m.children) (hg : ¬ Gap Upto m c) (hp : Placed c) (hs : Fenced m ∨ ∀ d ∈ m.children, Placed d) {r r' : NodeRange}
    (hr : m.range = some r) (hr' : c.range = some r') : Upto r.start r'.start ∧ Upto r'.end r.end :=
  C52_parents_cover (C11_spaced_partial hU hsc hx) h he hst hb hc hg hp hs hr hr'

/-- **C52** for a text: the range of a node ends behind its start. -/
theorem C52_text_nodes_ordered (hU : KeepsLength U) (hsc : scan U t = .ok sc) (hx : ExceptionsApart t sc.tokens)
    (h : ast U n sc.tokens = .ok nodes s) (he : s.errors = []) {stmt m : Node} (hst : stmt ∈ nodes) (hb : Below stmt m)
    (hp : Placed m ∨ Fenced m) (hd : ¬ Parser.InDoc m) {r : NodeRange} (hr : m.range = some r) : Upto r.start r.end :=
  C52_nodes_ordered (C11_spaced_partial hU hsc hx) h he hst hb hp hd hr

/-- **C52** for a text: statements are in the order of the text. -/
theorem C52_text_statements_ordered (hU : KeepsLength U) (hsc : scan U t = .ok sc) (hx : ExceptionsApart t sc.tokens)
    (h : ast U n sc.tokens = .ok nodes s) (he : s.errors = []) :
    (∀ stmt ∈ nodes, Placed stmt → ∀ r, stmt.range = some r → Upto r.start r.end) ∧
    nodes.Pairwise fun a b => Placed a → Placed b → ∀ r r', a.range = some r → b.range = some r' →
      Upto r.start r'.start ∧ Upto r.end r'.end :=
  C52_statements_ordered (C11_spaced_partial hU hsc hx) h he

/-- **C46** for a text: the node found at a position is the innermost one. -/
theorem C46_text_innermost_partial (hU : KeepsLength U) (hsc : scan U t = .ok sc) (hx : ExceptionsApart t sc.tokens)
    (h : ast U n sc.tokens = .ok nodes s) (he : s.errors = []) (hreg : ∀ stmt ∈ nodes, Regular stmt) {p : Pos} {fuel : Nat}
    (hf : ∀ stmt ∈ nodes, sizeOf stmt < fuel) : ∃ o, findIn p fuel nodes = .ok o ∧ match o with
      | some (m, _) => (∃ stmt ∈ nodes, Below stmt m) ∧ Around p m ∧ ∀ c ∈ m.children, ∀ d, Below c d → ¬ Around p d
      | none => ∀ stmt ∈ nodes, ∀ d, Below stmt d → ¬ Around p d :=
  C46_innermost_partial (C11_spaced_partial hU hsc hx) h he hreg hf

end

/-! ## Examples -/

/-- `TooLong` as a test on the safe side. -/
def maybeLong (k : Token) : Bool :=
  decide (k.t ∈ [.hereDocStart, .hereDocEnd, .yieldFrom, .doubleCast]) ||
  (match k.label with
    | some l => (decide (k.t ∈ namedKinds) && l.any (fun c => decide (128 ≤ c.toNat))) || (k.t == .decimalNumber && l.take 2 == c!"0.")
    | none => false)

theorem maybeLong_of {t : Text} {k : Token} (h : TooLong t k) : maybeLong k = true := by
  unfold maybeLong
  cases h with
  | heredoc h => rcases h with h | h <;> simp [h]
  | yieldFrom h => simp [h]
  | float h => simp [h]
  | nonAscii h l hl ha =>
    unfold Ascii at ha
    rw [hl]
    simp only [Bool.or_eq_true, Bool.and_eq_true]
    refine .inr (.inl ⟨decide_eq_true h, ?_⟩)
    simp only [List.any_eq_true, decide_eq_true_eq]
    simp only [Classical.not_forall] at ha
    obtain ⟨c, hc, hn⟩ := ha
    exact ⟨c, hc, by omega⟩
  | point h p raw q v ht hp hw hl => rw [hl, h]; simp

/-- `ExceptionsApart` as a test on the safe side. -/
def apart : List Token → Bool
  | k :: k' :: r => (!(maybeLong k || (decide (k'.t ∈ twins) && (k.line, k.col) == (k'.line, k'.col)) ||
      (decide (k.t ∈ openKinds) && k'.t == .eof)) ||
    (match k.end with
      | some e => decide (e.2 < k'.line) || (e.2 == k'.line && decide (e.1 ≤ k'.col))
      | none => false)) && apart (k' :: r)
  | _ => true

theorem apart_of {t : Text} : ∀ {l : List Token}, apart l = true → ∀ a b k k', l = a ++ k :: k' :: b → Exceptional t k k' →
    Behind k (startPos k')
  | [], _, a, b, k, k', h, _ => by simp at h
  | [x], _, a, b, k, k', h, _ => by
    have := congrArg List.length h
    simp at this; omega
  | x :: y :: r, hap, a, b, k, k', h, hex => by
    unfold apart at hap
    rw [Bool.and_eq_true] at hap
    cases a with
    | cons z a =>
      injection h with _ h
      exact apart_of hap.2 a b k k' h hex
    | nil =>
      injection h with h1 h
      injection h with h2 _
      subst h1 h2
      have h1 := hap.1
      rw [Bool.or_eq_true] at h1
      rcases h1 with h1 | h1
      · exfalso
        simp only [Bool.not_eq_true', Bool.or_eq_false_iff, Bool.and_eq_false_iff, decide_eq_false_iff_not, beq_eq_false_iff_ne] at h1
        rcases hex with h | ⟨h, h'⟩ | ⟨h, h'⟩
        · rw [maybeLong_of h] at h1; cases h1.1.1
        · rcases h1.1.2 with h2 | h2
          · exact h2 h
          · exact h2 h'
        · rcases h1.2 with h2 | h2
          · exact h2 h
          · exact h2 h'
      · cases he : x.end with
        | none => rw [he] at h1; cases h1
        | some e =>
          rw [he] at h1
          simp only [Bool.or_eq_true, decide_eq_true_eq, Bool.and_eq_true, beq_iff_eq] at h1
          exact ⟨e, he, h1⟩

/-- A text with a string over two lines, comments of all three kinds, casts, numbers, an aliased keyword and CRLF line ends meets the
hypotheses of `C11_spaced_partial`; 53 tokens. -/
example : ∃ s, scan Unicode.ascii c!"<?php\r\n/* a\r\nb */ $x = (int) 'a\nb' . \"c\"; // d\n# e\nfunction f(boolean $a, ?B $b = .5 ): float {\n return INF and $a ** 1E+3 <=> 0x1F; }\n$y = (float) `ls` ?? -1.5; /* end */" = .ok s ∧
    ExceptionsApart c!"<?php\r\n/* a\r\nb */ $x = (int) 'a\nb' . \"c\"; // d\n# e\nfunction f(boolean $a, ?B $b = .5 ): float {\n return INF and $a ** 1E+3 <=> 0x1F; }\n$y = (float) `ls` ?? -1.5; /* end */" s.tokens ∧ s.tokens.length = 53 := by
  have h : (match scan Unicode.ascii c!"<?php\r\n/* a\r\nb */ $x = (int) 'a\nb' . \"c\"; // d\n# e\nfunction f(boolean $a, ?B $b = .5 ): float {\n return INF and $a ** 1E+3 <=> 0x1F; }\n$y = (float) `ls` ?? -1.5; /* end */" with
    | .ok s => apart s.tokens && s.tokens.all (fun k => k.t != .hereDocEnd) && s.tokens.length == 53
    | _ => false) = true := by decide +kernel
  split at h
  · rename_i s hs
    simp only [Bool.and_eq_true, List.all_eq_true, beq_iff_eq, bne_iff_ne] at h
    exact ⟨s, hs, ⟨apart_of h.1.1, fun k hk hd => absurd hd (h.1.2 k hk)⟩, h.2⟩
  · cases h

/-- **C11, violated.** Tokens that reach into the token behind them: a cast to float, `yield from`, `?-`, the closing tag of a
comment, an unclosed string. -/
theorem C11_violation_overlap :
    (∃ s, scan Unicode.ascii c!"<?= (float)$x" = .ok s ∧ s.tokens.map (fun k => (k.t, (k.col, k.line), k.end)) =
      [(.scriptStartEcho, (0, 0), some (3, 0)), (.doubleCast, (4, 0), some (12, 0)), (.variable, (11, 0), some (13, 0)),
        (.eof, (13, 0), some (13, 0))]) ∧
    (∃ s, scan Unicode.ascii c!"<?= yield  from $x" = .ok s ∧ s.tokens.map (fun k => (k.t, (k.col, k.line), k.end)) =
      [(.scriptStartEcho, (0, 0), some (3, 0)), (.yieldFrom, (11, 0), some (21, 0)), (.variable, (16, 0), some (18, 0)),
        (.eof, (18, 0), some (18, 0))]) ∧
    (∃ s, scan Unicode.ascii c!"<?= ?-1" = .ok s ∧ s.tokens.map (fun k => (k.t, (k.col, k.line), k.end)) =
      [(.scriptStartEcho, (0, 0), some (3, 0)), (.questionMark, (4, 0), some (5, 0)), (.minus, (4, 0), some (5, 0)),
        (.longNumber, (6, 0), some (7, 0)), (.eof, (7, 0), some (7, 0))]) ∧
    (∃ s, scan Unicode.ascii c!"<?= 1 // a?>b" = .ok s ∧ s.tokens.map (fun k => (k.t, (k.col, k.line), k.end)) =
      [(.scriptStartEcho, (0, 0), some (3, 0)), (.longNumber, (4, 0), some (5, 0)), (.lineComment, (6, 0), some (10, 0)),
        (.scriptEnd, (6, 0), some (8, 0))]) ∧
    (∃ s, scan Unicode.ascii c!"<?= 'ab" = .ok s ∧ s.tokens.map (fun k => (k.t, (k.col, k.line), k.end)) =
      [(.scriptStartEcho, (0, 0), some (3, 0)), (.constantEncapsedString, (4, 0), some (8, 0)), (.eof, (7, 0), some (7, 0))]) :=
  ⟨⟨_, rfl, by decide⟩, ⟨_, rfl, by decide⟩, ⟨_, rfl, by decide⟩, ⟨_, rfl, by decide⟩, ⟨_, rfl, by decide⟩⟩

end PhpLs.Scanner
