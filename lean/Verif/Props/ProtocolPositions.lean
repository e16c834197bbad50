import Verif.Props.ScannerEnds

/-!
# C64: positions are those of the protocol

The language server protocol counts lines by the line ends `\n`, `\r\n` and `\r`, and columns in UTF-16 units.
-/

namespace PhpLs.Scanner

/-! ## Specification -/

/-- A character that takes two UTF-16 units. -/
def wide (c : Char) : Bool := 0x10000 ≤ c.toNat

/-- The number of UTF-16 units of a character. -/
def units (c : Char) : Nat := if wide c then 2 else 1

/-- The position behind the first `n` characters of a text, as the protocol counts: line and column.  Between `\r` and `\n` there is
no position of its own, it is the end of the line. -/
def protocolFrom (pos : Nat × Nat) : Nat → Text → Nat × Nat
  | 0, _ => pos
  | _, [] => pos
  | n + 1, '\n' :: r => protocolFrom (pos.1 + 1, 0) n r
  | n + 1, '\r' :: '\n' :: r => protocolFrom pos n ('\n' :: r)
  | n + 1, '\r' :: r => protocolFrom (pos.1 + 1, 0) n r
  | n + 1, c :: r => protocolFrom (pos.1, pos.2 + units c) n r

/-- The position behind the first `n` characters of the text. -/
def protocolPos (n : Nat) (t : Text) : Nat × Nat := protocolFrom (0, 0) n t

/-- Every carriage return is followed by a line feed. -/
def UsualLines (t : Text) : Prop := ∀ p q, t = p ++ '\r' :: q → ∃ q', q = '\n' :: q'

/-- The characters behind the last line feed that take two units. -/
def wideInLine (t : Text) : Nat := ((t.reverse.takeWhile (· ≠ '\n')).filter wide).length

/-! ## Proofs -/

theorem wideInLine_nl (t : Text) : wideInLine (t ++ ['\n']) = 0 := by
  simp [wideInLine]

theorem wideInLine_snoc (t : Text) {c : Char} (h : c ≠ '\n') :
    wideInLine (t ++ [c]) = wideInLine t + if wide c then 1 else 0 := by
  unfold wideInLine
  rw [List.reverse_append, List.reverse_singleton, List.singleton_append, List.takeWhile_cons, if_pos (by simpa using h),
    List.filter_cons]
  split <;> simp

/-- Where the scanner is, in the units of the protocol. -/
def scannerPos (p : Text) : Nat × Nat := (endLine p, endCol p + wideInLine p)

theorem protocolFrom_eq {t : Text} (ht : UsualLines t) : ∀ (n : Nat) (p r : Text), t = p ++ r → n ≤ r.length →
    protocolFrom (scannerPos p) n r = scannerPos (p ++ r.take n)
  | 0, p, r, _, _ => by cases r <;> simp [protocolFrom]
  | n + 1, p, [], _, h => by simp at h
  | n + 1, p, c :: r, e, h => by
    have e' : t = (p ++ [c]) ++ r := by rw [e]; simp
    have h' : n ≤ r.length := by simpa using h
    have ih := protocolFrom_eq ht n (p ++ [c]) r e' h'
    rw [List.take_succ_cons, show p ++ c :: r.take n = p ++ [c] ++ r.take n by simp, ← ih]
    by_cases h1 : c = '\n'
    · subst h1
      have := endPos_snoc_nl p
      simp only [endPos, Prod.mk.injEq] at this
      simp only [protocolFrom, scannerPos, this.1, this.2, wideInLine_nl]
    · by_cases h2 : c = '\r'
      · subst h2
        obtain ⟨q, hq⟩ := ht p r e
        subst hq
        have := endPos_snoc_cr p
        simp only [endPos, Prod.mk.injEq] at this
        simp only [protocolFrom, scannerPos, this.1, this.2]
        rw [wideInLine_snoc p (by decide)]
        rfl
      · have := endPos_snoc p c h1 h2
        simp only [endPos, Prod.mk.injEq] at this
        rw [protocolFrom.eq_6]
        · simp only [scannerPos, this.1, this.2, wideInLine_snoc p h1, units]
          congr 2
          split <;> omega
        · rintro rfl
          exact h1 rfl
        · rintro r' rfl
          exact absurd rfl h2
        · rintro rfl
          exact absurd rfl h2

theorem protocolPos_eq {t : Text} (ht : UsualLines t) {p q : Text} (e : t = p ++ q) :
    protocolPos p.length t = (endLine p, endCol p + wideInLine p) := by
  have := protocolFrom_eq ht p.length [] t rfl (by rw [e]; simp)
  rw [e] at this
  simp only [List.nil_append, List.take_left] at this
  rw [protocolPos, e]
  exact this

/-- C64.  In a text with usual line ends every token starts on the line that the protocol counts, and in its column but for the
characters before it on the line that take two units: these are counted once.  The same holds for the end of every token that
is measured right (C11). -/
theorem C64_tokens {U : Unicode} (hU : KeepsLength U) {t : Text} {s : St} (h : scan U t = .ok s) (ht : UsualLines t) :
    ∀ k ∈ s.tokens, ∃ p raw q, t = p ++ raw ++ q ∧
      protocolPos p.length t = (k.line, k.col + wideInLine p) ∧
      ((Spells U k (noCr raw) ∧ ∃ e, k.end = some e ∧
        protocolPos (p ++ raw).length t = (e.2, e.1 + wideInLine (p ++ raw))) ∨ Deviates U k (noCr raw) q) := by
  intro k hk
  obtain ⟨p, raw, q, e, hs, hd⟩ := C11_tokens_lie hU h k hk
  simp only [startPos, endPos, Prod.mk.injEq] at hs
  refine ⟨p, raw, q, e, ?_, ?_⟩
  · rw [protocolPos_eq ht (q := raw ++ q) (by rw [e]; simp), hs.1, hs.2]
  · rcases hd with ⟨h1, h2⟩ | hd
    · exact .inl ⟨h1, _, h2, by rw [protocolPos_eq ht e]; rfl⟩
    · exact .inr hd

theorem wideInLine_zero {t : Text} (h : ∀ c ∈ t, wide c = false) : wideInLine t = 0 := by
  unfold wideInLine
  rw [List.length_eq_zero_iff, List.filter_eq_nil_iff]
  intro c hc
  have := (List.takeWhile_prefix _).subset hc
  simp [h c (by simpa using this)]

/-- C64, texts without wide characters.  There the positions of all tokens are those of the protocol. -/
theorem C64_exact_partial {U : Unicode} (hU : KeepsLength U) {t : Text} {s : St} (h : scan U t = .ok s) (ht : UsualLines t)
    (hw : ∀ c ∈ t, wide c = false) :
    ∀ k ∈ s.tokens, ∃ p raw q, t = p ++ raw ++ q ∧ protocolPos p.length t = startPos k ∧
      ((Spells U k (noCr raw) ∧ k.end = some (swapPos (protocolPos (p ++ raw).length t))) ∨ Deviates U k (noCr raw) q) := by
  intro k hk
  obtain ⟨p, raw, q, e, hs, hd⟩ := C64_tokens hU h ht k hk
  have hm : ∀ c ∈ p ++ raw, wide c = false := fun c hc => hw c (by rw [e]; exact List.mem_append_left _ hc)
  refine ⟨p, raw, q, e, ?_, ?_⟩
  · rw [hs, wideInLine_zero fun c hc => hm c (List.mem_append_left _ hc)]
    rfl
  · rcases hd with ⟨h1, x, h2, h3⟩ | hd
    · refine .inl ⟨h1, ?_⟩
      rw [h3, h2, wideInLine_zero hm]
      rfl
    · exact .inr hd

/-- C64, the range of the document.  Its end is the end of the text if the last line has no wide character. -/
theorem C64_document {U : Unicode} {t : Text} {s : St} (h : scan U t = .ok s) (ht : UsualLines t) :
    protocolPos t.length t = ((documentRange s).2.2, (documentRange s).2.1 + wideInLine t) := by
  rw [C02_document_range U t s h, protocolPos_eq ht (q := []) (by simp)]

/-- A text with a wide character in a comment and CRLF line ends meets the hypotheses. -/
example : UsualLines c!"<?= /* 😀 */\r\n1" ∧ ∃ s, scan Unicode.ascii c!"<?= /* 😀 */\r\n1" = .ok s ∧
    s.tokens.map (fun k => (k.line, k.col)) = [(0, 0), (0, 4), (0, 11), (1, 0), (1, 1)] := by
  refine ⟨?_, _, rfl, by decide⟩
  intro p q e
  have : ∀ n, n < 15 → (c!"<?= /* 😀 */\r\n1").drop n = '\r' :: q → ∃ q', q = '\n' :: q' := by
    intro n hn h
    have : n = 11 := by
      apply Classical.byContradiction
      intro hne
      have hh := congrArg List.head? h
      revert hh
      have : ∀ m < 15, m ≠ 11 → ((c!"<?= /* 😀 */\r\n1").drop m).head? ≠ some '\r' := by decide
      simpa using this n hn hne
    subst this
    refine ⟨_, (List.cons.inj h).2.symm⟩
  have hl : p.length < 15 := by
    have := congrArg List.length e
    simp at this
    omega
  exact this p.length hl (by rw [e, List.drop_left])

/-- C64 is violated: a character outside of the basic plane counts as one column, so everything behind it on the line is one column
too far to the left. -/
theorem C64_violated_wide : ∃ s, scan Unicode.ascii c!"<?= /* 😀 */ 1" = .ok s ∧
    (s.tokens.map fun k => (k.t, k.line, k.col)) = [(.scriptStartEcho, 0, 0), (.multilineComment, 0, 4), (.longNumber, 0, 12),
      (.eof, 0, 13)] ∧ (c!"<?= /* 😀 */ 1")[12]? = some '1' ∧ protocolPos 12 c!"<?= /* 😀 */ 1" = (0, 13) :=
  ⟨_, rfl, by decide, by decide, by decide⟩

/-- C64 is violated: a carriage return without a line feed is no line end for the scanner. -/
theorem C64_violated_return : ∃ s, scan Unicode.ascii c!"<?=\r1" = .ok s ∧
    (s.tokens.map fun k => (k.t, k.line, k.col)) = [(.scriptStartEcho, 0, 0), (.longNumber, 0, 3), (.eof, 0, 4)] ∧
    (c!"<?=\r1")[4]? = some '1' ∧ protocolPos 4 c!"<?=\r1" = (1, 0) :=
  ⟨_, rfl, by decide, by decide, by decide⟩

end PhpLs.Scanner
