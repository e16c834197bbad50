import Verif.Scanner

/-!
# Helper lemmas about the scanner

The central notion is `Reach`: every state change the scanner makes within one turn of its loop is a sequence of the
primitive changes `Prim` (read a character, push a token, switch the context, merge a cast, merge `yield from`).
Invariants of the scanner are proved once for the primitives.
-/

namespace PhpLs.Scanner

open PhpLs

/-! ## `advance` -/

/-- The text without leading carriage returns: what `advance` looks at. -/
def dropCr (t : Text) : Text := t.dropWhile (· = '\r')

/-- The effect of reading one character that is not a carriage return. -/
def readOne (s : St) (c : Char) (r : Text) : St :=
  if c = '\n' then { s.push .linebreak with line := s.line + 1, col := 0, chars := r }
  else { s with col := s.col + 1, chars := r }

theorem advanceOn_eq (s : St) (t : Text) :
    s.advanceOn t = match dropCr t with
      | [] => (none, { s with chars := [] })
      | c :: r => (some c, readOne s c r) := by
  induction t with
  | nil => rfl
  | cons c r ih =>
    unfold St.advanceOn dropCr
    by_cases h1 : c = '\n'
    · subst h1; simp [readOne]
    · by_cases h2 : c = '\r'
      · subst h2; simp [ih, dropCr]
      · simp [h1, h2, readOne]

theorem advance_eq (s : St) :
    s.advance = match dropCr s.chars with
      | [] => (none, { s with chars := [] })
      | c :: r => (some c, readOne s c r) := advanceOn_eq s s.chars

theorem adv_eq (s : St) :
    s.adv = match dropCr s.chars with
      | [] => { s with chars := [] }
      | c :: r => readOne s c r := by
  unfold St.adv; rw [advance_eq]; split <;> rfl

theorem advance_snd (s : St) : s.advance.2 = s.adv := rfl

theorem dropCr_suffix (t : Text) : dropCr t <:+ t := List.dropWhile_suffix _

theorem dropCr_head_ne {t : Text} {c : Char} {r : Text} (h : dropCr t = c :: r) : c ≠ '\r' := by
  intro hc; subst hc
  have := List.head?_dropWhile_not (p := fun x => decide (x = '\r')) (l := t)
  unfold dropCr at h
  rw [h] at this
  simp at this

theorem dropCr_of_ne {c : Char} {r : Text} (h : c ≠ '\r') : dropCr (c :: r) = c :: r := by
  simp [dropCr, h]

theorem readOne_chars (s : St) (c : Char) (r : Text) : (readOne s c r).chars = r := by
  unfold readOne; split <;> rfl

theorem adv_chars_suffix (s : St) : s.adv.chars <:+ s.chars := by
  rw [adv_eq]
  have h := dropCr_suffix s.chars
  split
  · exact List.nil_suffix
  · rename_i c r hc
    rw [readOne_chars]
    rw [hc] at h
    exact (List.suffix_cons c r).trans h

theorem adv_chars_length_lt (s : St) (h : s.chars ≠ []) : s.adv.chars.length < s.chars.length := by
  rw [adv_eq]
  have hs := (dropCr_suffix s.chars).length_le
  split
  · exact List.length_pos_iff.mpr h
  · rename_i c r hc
    rw [readOne_chars]
    rw [hc] at hs
    simp at hs; omega

/-- Reading when the next character is not a carriage return. -/
theorem advance_cons (s : St) (c : Char) (r : Text) (hs : s.chars = c :: r) (h : c ≠ '\r') :
    s.advance = (some c, readOne s c r) := by
  rw [advance_eq, hs, dropCr_of_ne h]

theorem adv_cons (s : St) (c : Char) (r : Text) (hs : s.chars = c :: r) (h : c ≠ '\r') :
    s.adv = readOne s c r := by
  unfold St.adv; rw [advance_cons s c r hs h]

theorem readOne_of_ne (s : St) (c : Char) (r : Text) (h : c ≠ '\n') :
    readOne s c r = { s with col := s.col + 1, chars := r } := by simp [readOne, h]

theorem peek_cons (s : St) (c : Char) (r : Text) (hs : s.chars = c :: r) : s.peek = some c := by
  simp [St.peek, hs]

theorem peek_eq_some {s : St} {c : Char} (h : s.peek = some c) : ∃ r, s.chars = c :: r := by
  unfold St.peek at h
  cases hs : s.chars with
  | nil => simp [hs] at h
  | cons d r => simp [hs] at h; exact ⟨r, by rw [h]⟩

theorem peek_eq_none {s : St} (h : s.peek = none) : s.chars = [] := by
  unfold St.peek at h
  simpa using h

/-! ## Primitive state changes -/

/-- Token types that carry a label when the scanner creates them. -/
def labelled : TT → Bool
  | .lineComment | .variable | .identifier | .multilineComment | .decimalNumber | .exponentialNumber | .longNumber
  | .hexNumber | .binaryNumber | .constantEncapsedString | .encapsedAndWhitespaceString | .shellEscape | .hereDocStart
  | .hereDocEnd => true
  | _ => false

/-- Labelled types whose printed form is the bare label and whose label is never empty. -/
def bare : TT → Bool
  | .identifier | .decimalNumber | .exponentialNumber | .longNumber | .hexNumber | .binaryNumber => true
  | _ => false

/-- Labelled types that only a heredoc produces outside of the script. -/
def hereKind : TT → Bool
  | .hereDocStart | .encapsedAndWhitespaceString | .hereDocEnd => true
  | _ => false

/-- One primitive change of the scanner state within a turn of the loop.  `Q` says whether it may belong to a heredoc. -/
inductive Prim (Q : Prop) : St → St → Prop where
  | adv (s : St) : Prim Q s s.adv
  | push (s : St) (t : TT) (h : t.display.isSome = true ∧ t ≠ .eof) : Prim Q s (s.push t)
  | named (s : St) (t : TT) (l : Text) (h : labelled t = true) (hb : bare t = true → l ≠ [])
      (hc : s.ctx = .inScript ∧ t ≠ .hereDocStart ∨ Q ∧ hereKind t = true) : Prim Q s (s.pushNamed t l)
  | enter (s : St) : Prim Q s { s with ctx := .inScript }
  | leave (s : St) (h : s.ctx = .inScript → ∃ k r, s.toks = k :: r ∧ k.t = .scriptEnd) : Prim Q s { s with ctx := .outScript }
  | cast (s : St) (q p : Token) (rest : List Token) (k : TT) (off : Nat)
      (hs : s.toks = q :: p :: rest) (hp : p.t = .openParenthesis) (hq : mapCast q.t = some k) (ho : off = rest.length) :
      Prim Q s { s with toks := { Token.new k s.sLine s.sCol off with line := p.line, col := p.col } :: rest }
  | yieldFrom (s : St) (y : Token) (rest : List Token) (hs : s.toks = y :: rest) (hy : y.t = .kwYield) :
      Prim Q s ({ s with toks := rest }.push .yieldFrom)

/-- Finite sequences of primitive changes. -/
inductive Reach (Q : Prop) (a : St) : St → Prop where
  | refl : Reach Q a a
  | tail {b c : St} : Reach Q a b → Prim Q b c → Reach Q a c

variable {Q : Prop}

namespace Reach

variable {a s : St}

theorem trans {a b c : St} (h : Reach Q a b) (h' : Reach Q b c) : Reach Q a c := by
  induction h' with
  | refl => exact h
  | tail _ p ih => exact ih.tail p

theorem adv (h : Reach Q a s) : Reach Q a s.adv := h.tail (.adv s)
theorem push (h : Reach Q a s) {t : TT} (ht : t.display.isSome = true ∧ t ≠ .eof) : Reach Q a (s.push t) :=
  h.tail (.push s t ht)
theorem enter (h : Reach Q a s) : Reach Q a { s with ctx := .inScript } := h.tail (.enter s)
theorem leave (h : Reach Q a (s.push .scriptEnd)) : Reach Q a { s.push .scriptEnd with ctx := .outScript } :=
  h.tail (.leave _ fun hc => by
    unfold St.push at hc ⊢
    split
    · rename_i hn
      rw [if_pos hn] at hc
      exact absurd hc hn
    · exact ⟨_, _, rfl, rfl⟩)
theorem here (hQ : Q) (h : Reach Q a s) {t : TT} {l : Text} (ht : hereKind t = true) : Reach Q a (s.pushNamed t l) :=
  h.tail (.named s t l (by cases t <;> simp_all [labelled, hereKind]) (by cases t <;> simp_all [bare, hereKind])
    (Or.inr ⟨hQ, ht⟩))
theorem named (h : Reach Q a s) {t : TT} {l : Text} (ht : labelled t = true) (hb : bare t = true → l ≠ [])
    (hc : s.ctx = .inScript) (hd : t ≠ .hereDocStart := by decide) : Reach Q a (s.pushNamed t l) :=
  h.tail (.named s t l ht hb (Or.inl ⟨hc, hd⟩))

theorem advance_snd (h : Reach Q a s) {c : Option Char} {s' : St} (e : s.advance = (c, s')) : Reach Q a s' := by
  have : s' = s.adv := by unfold St.adv; rw [e]
  rw [this]; exact h.adv

end Reach

/-! ### Reading never changes the context -/

theorem push_ctx (s : St) (t : TT) : (s.push t).ctx = s.ctx := by unfold St.push; split <;> rfl
theorem pushNamed_ctx (s : St) (t : TT) (l : Text) : (s.pushNamed t l).ctx = s.ctx := rfl
theorem readOne_ctx (s : St) (c : Char) (r : Text) : (readOne s c r).ctx = s.ctx := by
  unfold readOne; split <;> simp [push_ctx]
theorem adv_ctx (s : St) : s.adv.ctx = s.ctx := by
  rw [adv_eq]; split <;> simp [readOne_ctx]
theorem advance_ctx {s s' : St} {c : Option Char} (h : s.advance = (c, s')) : s'.ctx = s.ctx := by
  have : s' = s.adv := by unfold St.adv; rw [h]
  rw [this, adv_ctx]

theorem collectWhileN_ctx (p : Char → Bool) (n : Nat) (s : St) : (collectWhileN p n s).2.ctx = s.ctx := by
  induction n generalizing s with
  | zero => rfl
  | succ n ih =>
    unfold collectWhileN
    split
    · rfl
    · split
      · simp [ih, adv_ctx]
      · rfl

theorem collectWhile_ctx (p : Char → Bool) (s : St) : (collectWhile p s).2.ctx = s.ctx := collectWhileN_ctx _ _ _

theorem collectUntilEscapedN_ctx (q : Char) (n : Nat) (e : Bool) (s : St) :
    (collectUntilEscapedN q n e s).2.ctx = s.ctx := by
  induction n generalizing e s with
  | zero => rfl
  | succ n ih =>
    unfold collectUntilEscapedN
    split
    · rename_i h; exact advance_ctx h
    · rename_i c s' h
      split
      · simp [ih, advance_ctx h]
      · split
        · exact advance_ctx h
        · simp [ih, advance_ctx h]

theorem docCommentLoop_ctx (n : Nat) (s : St) : (docCommentLoop n s).2.ctx = s.ctx := by
  induction n generalizing s with
  | zero => rfl
  | succ n ih =>
    unfold docCommentLoop
    split
    · rename_i h; exact advance_ctx h
    · rename_i c s' h
      split
      · simp [adv_ctx, advance_ctx h]
      · simp [ih, advance_ctx h]

/-! ### The loops are sequences of primitive changes -/

theorem reach_collectWhileN (p : Char → Bool) (n : Nat) {a s : St} (h : Reach Q a s) :
    Reach Q a (collectWhileN p n s).2 := by
  induction n generalizing s with
  | zero => exact h
  | succ n ih =>
    unfold collectWhileN
    split
    · exact h
    · split
      · exact ih h.adv
      · exact h

theorem reach_collectWhile (p : Char → Bool) {a s : St} (h : Reach Q a s) : Reach Q a (collectWhile p s).2 :=
  reach_collectWhileN p _ h

theorem reach_collectUntilEscapedN (q : Char) (n : Nat) (e : Bool) {a s : St} (h : Reach Q a s) :
    Reach Q a (collectUntilEscapedN q n e s).2 := by
  induction n generalizing e s with
  | zero => exact h
  | succ n ih =>
    unfold collectUntilEscapedN
    split
    · rename_i hh; exact h.advance_snd hh
    · rename_i c s' hh
      split
      · exact ih _ (h.advance_snd hh)
      · split
        · exact h.advance_snd hh
        · exact ih _ (h.advance_snd hh)

theorem reach_collectUntilEscaped (q : Char) {a s : St} (h : Reach Q a s) : Reach Q a (collectUntilEscaped q s).2 :=
  reach_collectUntilEscapedN _ _ _ h

theorem reach_matchMarker (m : Text) {a s : St} (h : Reach Q a s) : Reach Q a (matchMarker m s).2.2 := by
  induction m generalizing s with
  | nil => exact h
  | cons c r ih =>
    unfold matchMarker
    split
    · rename_i hh
      split
      · exact ih (h.advance_snd hh)
      · exact h.advance_snd hh
    · rename_i hh
      exact ih (h.advance_snd hh)

theorem reach_hereDocLoop (m : Text) (n : Nat) (hd l : Text) (b : Bool) {a s : St} (h : Reach Q a s) :
    Reach Q a (hereDocLoop m n hd l b s).2.2 := by
  induction n generalizing hd l b s with
  | zero => exact h
  | succ n ih =>
    unfold hereDocLoop
    split
    · exact h
    · dsimp only
      split
      · exact ih _ _ _ h.adv
      · split
        · exact ih _ _ _ h.adv
        · have hm := reach_matchMarker m h
          split
          · rename_i e; rw [e] at hm; exact hm
          · rename_i e; rw [e] at hm; exact ih _ _ _ hm

theorem reach_hereDocMarker (U : Unicode) {a s : St} (h : Reach Q a s) : Reach Q a (hereDocMarker U s).2 := by
  unfold hereDocMarker
  split
  · exact reach_collectUntilEscaped _ h.adv
  · exact reach_collectUntilEscaped _ h.adv
  · exact reach_collectWhile _ h

theorem reach_tokenizeHereDoc (hQ : Q) (U : Unicode) {a s s' : St} (h : Reach Q a s) (e : tokenizeHereDoc U s = .ok s') :
    Reach Q a s' := by
  unfold tokenizeHereDoc at e
  dsimp only at e
  split at e
  · cases e
  · cases e
    refine Reach.here hQ (Reach.here hQ ?_ rfl) rfl
    apply reach_hereDocLoop
    refine Reach.here hQ ?_ rfl
    apply reach_hereDocMarker
    exact reach_collectWhile _ h

theorem reach_docCommentLoop (n : Nat) {a s : St} (h : Reach Q a s) : Reach Q a (docCommentLoop n s).2 := by
  induction n generalizing s with
  | zero => exact h
  | succ n ih =>
    unfold docCommentLoop
    split
    · rename_i hh; exact h.advance_snd hh
    · rename_i c s' hh
      split
      · exact (h.advance_snd hh).adv
      · exact ih (h.advance_snd hh)

theorem reach_collectDocComment {a s : St} (h : Reach Q a s) (hc : s.ctx = .inScript) :
    Reach Q a (collectDocComment s) := by
  unfold collectDocComment
  exact (reach_docCommentLoop _ h).named rfl (by intro h; cases h) (by rw [docCommentLoop_ctx, hc])

theorem reach_lineCommentLoop (n : Nat) (cm : Text) {a s s' : St} (h : Reach Q a s) (hc : s.ctx = .inScript)
    (e : lineCommentLoop n cm s = some s') : Reach Q a s' := by
  induction n generalizing cm s with
  | zero =>
    unfold lineCommentLoop at e; cases e
    exact h.named rfl (by intro h; cases h) hc
  | succ n ih =>
    unfold lineCommentLoop at e
    split at e
    · cases e; exact h.named rfl (by intro h; cases h) hc
    · split at e
      · cases e; exact h.named rfl (by intro h; cases h) hc
      · split at e
        · dsimp only at e
          split at e
          · cases e
            exact ((h.adv.adv.named rfl (by intro h; cases h) (by simp [adv_ctx, hc])).push (by decide)).leave
          · exact ih _ h.adv (by simp [adv_ctx, hc]) e
        · split at e
          · rename_i hh
            exact ih _ (h.advance_snd hh) (by rw [advance_ctx hh, hc]) e
          · cases e

theorem lineCommentLoop_isSome (n : Nat) (cm : Text) (s : St) : (lineCommentLoop n cm s).isSome = true := by
  induction n generalizing cm s with
  | zero => rfl
  | succ n ih =>
    unfold lineCommentLoop
    split
    · rfl
    · rename_i c hp
      split
      · rfl
      · rename_i hnl
        split
        · dsimp only
          split
          · rfl
          · exact ih _ _
        · obtain ⟨r, hr⟩ := peek_eq_some hp
          have hcr : c ≠ '\r' := fun h => hnl (Or.inr h)
          rw [advance_cons s c r hr hcr]
          exact ih _ _

theorem consumeLineComment_some (s : St) : ∃ s', consumeLineComment s = some s' :=
  Option.isSome_iff_exists.mp (lineCommentLoop_isSome _ _ _)

/-! ### Each branch of the big `match` -/

macro "reach" : tactic => `(tactic| repeat (first
  | assumption
  | exact Reach.refl
  | apply Reach.adv
  | apply Reach.enter
  | apply Reach.leave
  | refine Reach.push ?_ (by decide)))

theorem reach_scanColon {a s : St} (h : Reach Q a s) : Reach Q a (scanColon s) := by
  unfold scanColon; split <;> reach
theorem reach_scanAmp {a s : St} (h : Reach Q a s) : Reach Q a (scanAmp s) := by
  unfold scanAmp; split <;> reach
theorem reach_scanPercent {a s : St} (h : Reach Q a s) : Reach Q a (scanPercent s) := by
  unfold scanPercent; split <;> reach
theorem reach_scanPipe {a s : St} (h : Reach Q a s) : Reach Q a (scanPipe s) := by
  unfold scanPipe; split <;> reach
theorem reach_scanGreater {a s : St} (h : Reach Q a s) : Reach Q a (scanGreater s) := by
  unfold scanGreater; dsimp only; repeat' split
  all_goals reach
theorem reach_scanQuestion {a s : St} (h : Reach Q a s) : Reach Q a (scanQuestion s) := by
  unfold scanQuestion; dsimp only; repeat' split
  all_goals reach
theorem reach_scanBang {a s : St} (h : Reach Q a s) : Reach Q a (scanBang s) := by
  unfold scanBang; dsimp only; repeat' split
  all_goals reach
theorem reach_scanCaret {a s : St} (h : Reach Q a s) : Reach Q a (scanCaret s) := by
  unfold scanCaret; split <;> reach
theorem reach_scanPlus {a s : St} (h : Reach Q a s) : Reach Q a (scanPlus s) := by
  unfold scanPlus; split <;> reach
theorem reach_scanMinus {a s : St} (h : Reach Q a s) : Reach Q a (scanMinus s) := by
  unfold scanMinus; split <;> reach
theorem reach_scanStar {a s : St} (h : Reach Q a s) : Reach Q a (scanStar s) := by
  unfold scanStar; dsimp only; repeat' split
  all_goals reach
theorem reach_scanEquals {a s : St} (h : Reach Q a s) : Reach Q a (scanEquals s) := by
  unfold scanEquals; dsimp only; repeat' split
  all_goals reach

theorem reach_scanDot {a s : St} (h : Reach Q a s) (hc : s.ctx = .inScript) : Reach Q a (scanDot s) := by
  unfold scanDot; dsimp only; repeat' split
  all_goals first
    | reach; done
    | exact (reach_collectWhile _ h).named rfl (by simp) (by simp [collectWhile_ctx, hc])

theorem reach_scanDollar (U : Unicode) {a s : St} (h : Reach Q a s) (hc : s.ctx = .inScript) :
    Reach Q a (scanDollar U s) := by
  unfold scanDollar; dsimp only; split
  · exact (reach_collectWhile _ h).named rfl (by intro h; cases h) (by simp [collectWhile_ctx, hc])
  · exact (reach_collectWhile _ h).push (by decide)

theorem reach_numberFraction (num : Text) {a s : St} (h : Reach Q a s) : Reach Q a (numberFraction num s).2.2 := by
  unfold numberFraction; split
  · exact reach_collectWhile _ h.adv
  · exact h

theorem numberFraction_ctx (num : Text) (s : St) : (numberFraction num s).2.2.ctx = s.ctx := by
  unfold numberFraction; split
  · simp [collectWhile_ctx, adv_ctx]
  · rfl

theorem numberFraction_ne (num : Text) (s : St) (h : num ≠ []) : (numberFraction num s).1 ≠ [] := by
  unfold numberFraction; split
  · simp
  · exact h

theorem numberFraction_type (num : Text) (s : St) :
    (numberFraction num s).2.1 = .decimalNumber ∨ (numberFraction num s).2.1 = .longNumber := by
  unfold numberFraction; split
  · exact Or.inl rfl
  · exact Or.inr rfl

theorem reach_numberSign (num : Text) {a s : St} (h : Reach Q a s) : Reach Q a (numberSign num s).2 := by
  unfold numberSign; split <;> reach

theorem numberSign_ctx (num : Text) (s : St) : (numberSign num s).2.ctx = s.ctx := by
  unfold numberSign; split <;> simp [adv_ctx]

theorem numberSign_ne (num : Text) (s : St) (h : num ≠ []) : (numberSign num s).1 ≠ [] := by
  unfold numberSign; split <;> simp [h]

theorem reach_scanNumber (c : Char) {a s : St} (h : Reach Q a s) (hc : s.ctx = .inScript) :
    Reach Q a (scanNumber c s) := by
  unfold scanNumber; dsimp only; split
  · exact (reach_collectWhile _ h.adv).named rfl (by simp) (by simp [collectWhile_ctx, adv_ctx, hc])
  · split
    · exact (reach_collectWhile _ h.adv).named rfl (by simp) (by simp [collectWhile_ctx, adv_ctx, hc])
    · split
      · refine (reach_collectWhile _ (reach_numberSign _ (reach_numberFraction _ (reach_collectWhile _ h)).adv)).named rfl
          (by simp [numberSign_ne]) ?_
        simp [collectWhile_ctx, numberSign_ctx, adv_ctx, numberFraction_ctx, hc]
      · refine (reach_numberFraction _ (reach_collectWhile _ h)).named ?_ (fun _ => numberFraction_ne _ _ (by simp)) ?_ ?_
        · rcases numberFraction_type ([c] ++ (collectWhile isDigit s).1) (collectWhile isDigit s).2 with h | h <;>
            rw [h] <;> rfl
        · simp [collectWhile_ctx, numberFraction_ctx, hc]
        · rcases numberFraction_type ([c] ++ (collectWhile isDigit s).1) (collectWhile isDigit s).2 with h | h <;>
            rw [h] <;> decide

theorem reach_scanQuoted (q : Char) (t : TT) (ht : labelled t = true) (hb : bare t = false) {a s : St} (h : Reach Q a s)
    (hc : s.ctx = .inScript) (hd : t ≠ .hereDocStart := by decide) : Reach Q a (scanQuoted q t s) := by
  unfold scanQuoted
  exact (reach_collectUntilEscaped _ h).named ht (by intro h; simp [hb] at h)
    (by simp [collectUntilEscaped, collectUntilEscapedN_ctx, hc]) hd

theorem push_inScript (s : St) (t : TT) (h : s.ctx = .inScript) :
    s.push t = { s with toks := Token.new t s.sLine s.sCol s.toks.length :: s.toks } := by simp [St.push, h]

/-- `scanCloseParen` within the script: it continues, by primitive changes. -/
theorem reach_scanCloseParen {a s : St} (h : Reach Q a s) (hc : s.ctx = .inScript) :
    ∃ s', scanCloseParen s = .cont s' ∧ Reach Q a s' := by
  unfold scanCloseParen
  split
  · rename_i prev rest hs
    split
    · rename_i k hk
      split
      · rename_i p rest'
        split
        · rename_i hp
          rw [push_inScript _ _ (by simpa using hc)]
          exact ⟨_, rfl, h.tail (.cast s prev p rest' k _ hs hp hk rfl)⟩
        · exact ⟨_, rfl, h.push (by decide)⟩
      · exact ⟨_, rfl, h.push (by decide)⟩
    · exact ⟨_, rfl, h.push (by decide)⟩
  · exact ⟨_, rfl, h.push (by decide)⟩

theorem lookup_mem {α β : Type} [BEq α] [LawfulBEq α] {l : List (α × β)} {k : α} {v : β} (h : l.lookup k = some v) :
    (k, v) ∈ l := by
  induction l with
  | nil => simp at h
  | cons x r ih =>
    obtain ⟨a, b⟩ := x
    rw [List.lookup_cons] at h
    split at h
    · rename_i e
      have := eq_of_beq e
      subst this; cases h; simp
    · exact List.mem_cons_of_mem _ (ih h)

theorem keywordTable_display : ∀ x ∈ keywordTable, x.2.display.isSome = true ∧ x.2 ≠ .eof := by decide

theorem mapKeyword_display {U : Unicode} {w : Text} {t : TT} (h : mapKeyword U w = some t) :
    t.display.isSome = true ∧ t ≠ .eof := by
  unfold mapKeyword at h
  split at h
  · cases h; decide
  · split at h
    · cases h; decide
    · exact keywordTable_display _ (lookup_mem h)

theorem reach_scanWord (U : Unicode) (c : Char) {a s s' : St} (h : Reach Q a s) (hc : s.ctx = .inScript)
    (e : scanWord U c s = .cont s') : Reach Q a s' := by
  unfold scanWord at e
  split at e
  · dsimp only at e
    have hr := reach_collectWhile (isIdChar U) h
    have hctx : (collectWhile (isIdChar U) s).2.ctx = .inScript := by rw [collectWhile_ctx, hc]
    split at e
    · rename_i t ht
      cases e; exact hr.push (mapKeyword_display ht)
    · split at e
      · split at e
        · rename_i y rest hy
          split at e
          · rename_i hyt
            cases e; exact hr.tail (.yieldFrom _ y rest hy hyt)
          · cases e; exact hr.named rfl (by simp) hctx
        · cases e; exact hr.named rfl (by simp) hctx
      · cases e; exact hr.named rfl (by simp) hctx
  · cases e

theorem reach_scanHash {a s s' : St} (h : Reach Q a s) (hc : s.ctx = .inScript) (e : scanHash s = .cont s') :
    Reach Q a s' := by
  unfold scanHash at e
  split at e
  · cases e; exact h.adv.push (by decide)
  · split at e
    · rename_i s1 h1
      cases e; exact reach_lineCommentLoop _ _ h.adv (by simp [adv_ctx, hc]) h1
    · cases e

theorem reach_scanSlash {a s s' : St} (h : Reach Q a s) (hc : s.ctx = .inScript) (e : scanSlash s = .cont s') :
    Reach Q a s' := by
  unfold scanSlash at e
  split at e
  · split at e
    · rename_i s1 h1
      cases e; exact reach_lineCommentLoop _ _ h.adv (by simp [adv_ctx, hc]) h1
    · cases e
  · cases e; exact reach_collectDocComment h.adv (by simp [adv_ctx, hc])
  · cases e; exact h.adv.push (by decide)
  · cases e; exact h.push (by decide)

theorem reach_scanSmaller (hQ : Q) (U : Unicode) {a s s' : St} (h : Reach Q a s) (e : scanSmaller U s = .cont s') :
    Reach Q a s' := by
  unfold scanSmaller at e
  dsimp only at e
  repeat' split at e
  all_goals first
    | (cases e; reach; done)
    | (rename_i s1 h1; cases e; exact reach_tokenizeHereDoc hQ U h.adv.adv h1)
    | (cases e; done)

theorem singleTable_display : ∀ x ∈ singleTable, x.2.display.isSome = true ∧ x.2 ≠ .eof := by decide

theorem singleChar_display {c : Char} {t : TT} (h : singleChar c = some t) :
    t.display.isSome = true ∧ t ≠ .eof := singleTable_display _ (lookup_mem h)

/-- The branches of `scanChar`. -/
inductive Branch (U : Unicode) (c : Char) (s : St) : Step → Prop where
  | blank (h : c = ' ' ∨ c = '\t' ∨ c = '\r' ∨ c = '\n') : Branch U c s (.cont s)
  | colon (h : c = ':') : Branch U c s (.cont (scanColon s))
  | amp (h : c = '&') : Branch U c s (.cont (scanAmp s))
  | percent (h : c = '%') : Branch U c s (.cont (scanPercent s))
  | pipe (h : c = '|') : Branch U c s (.cont (scanPipe s))
  | greater (h : c = '>') : Branch U c s (.cont (scanGreater s))
  | smaller (h : c = '<') : Branch U c s (scanSmaller U s)
  | question (h : c = '?') : Branch U c s (.cont (scanQuestion s))
  | bang (h : c = '!') : Branch U c s (.cont (scanBang s))
  | dot (h : c = '.') : Branch U c s (.cont (scanDot s))
  | caret (h : c = '^') : Branch U c s (.cont (scanCaret s))
  | plus (h : c = '+') : Branch U c s (.cont (scanPlus s))
  | minus (h : c = '-') : Branch U c s (.cont (scanMinus s))
  | star (h : c = '*') : Branch U c s (.cont (scanStar s))
  | hash (h : c = '#') : Branch U c s (scanHash s)
  | slash (h : c = '/') : Branch U c s (scanSlash s)
  | equals (h : c = '=') : Branch U c s (.cont (scanEquals s))
  | dollar (h : c = '$') : Branch U c s (.cont (scanDollar U s))
  | number (h : isDigit c = true) : Branch U c s (.cont (scanNumber c s))
  | closeParen (h : c = ')') : Branch U c s (scanCloseParen s)
  | single (h : c = '\'') : Branch U c s (.cont (scanQuoted c .constantEncapsedString s))
  | backtick (h : c = '`') : Branch U c s (.cont (scanQuoted c .shellEscape s))
  | double (h : c = '"') : Branch U c s (.cont (scanQuoted c .encapsedAndWhitespaceString s))
  | char (t : TT) (h : singleChar c = some t) : Branch U c s (.cont (s.push t))
  | word (h : singleChar c = none) : Branch U c s (scanWord U c s)

theorem ite_branch {P : Step → Prop} {p : Prop} [Decidable p] {x y : Step} (h1 : p → P x) (h2 : P y) :
    P (if p then x else y) := by
  split
  · exact h1 ‹_›
  · exact h2

theorem scanChar_branch (U : Unicode) (c : Char) (s : St) : Branch U c s (scanChar U c s) := by
  unfold scanChar
  refine ite_branch (fun h => .blank h) ?_
  refine ite_branch (fun h => .colon h) ?_
  refine ite_branch (fun h => .amp h) ?_
  refine ite_branch (fun h => .percent h) ?_
  refine ite_branch (fun h => .pipe h) ?_
  refine ite_branch (fun h => .greater h) ?_
  refine ite_branch (fun h => .smaller h) ?_
  refine ite_branch (fun h => .question h) ?_
  refine ite_branch (fun h => .bang h) ?_
  refine ite_branch (fun h => .dot h) ?_
  refine ite_branch (fun h => .caret h) ?_
  refine ite_branch (fun h => .plus h) ?_
  refine ite_branch (fun h => .minus h) ?_
  refine ite_branch (fun h => .star h) ?_
  refine ite_branch (fun h => .hash h) ?_
  refine ite_branch (fun h => .slash h) ?_
  refine ite_branch (fun h => .equals h) ?_
  refine ite_branch (fun h => .dollar h) ?_
  refine ite_branch (fun h => .number h) ?_
  refine ite_branch (fun h => .closeParen h) ?_
  refine ite_branch (fun h => .single h) ?_
  refine ite_branch (fun h => .backtick h) ?_
  refine ite_branch (fun h => .double h) ?_
  cases h : singleChar c with
  | some t => exact .char t h
  | none => exact .word h

/-- Every continuing turn is a sequence of primitive changes. -/
theorem reach_scanChar (U : Unicode) (c : Char) {a s s' : St} (h : Reach Q a s) (hQ : c = '<' → Q)
    (hc : c = '<' ∨ s.ctx = .inScript) (e : scanChar U c s = .cont s') : Reach Q a s' := by
  by_cases hlt : c = '<'
  · subst hlt
    have : scanChar U '<' s = scanSmaller U s := by simp [scanChar]
    rw [this] at e
    exact reach_scanSmaller (hQ rfl) U h e
  · have hctx : s.ctx = .inScript := hc.resolve_left hlt
    have hb := scanChar_branch U c s
    rw [e] at hb
    generalize hx : Step.cont s' = x at hb
    cases hb with
    | blank => cases hx; exact h
    | colon => cases hx; exact reach_scanColon h
    | amp => cases hx; exact reach_scanAmp h
    | percent => cases hx; exact reach_scanPercent h
    | pipe => cases hx; exact reach_scanPipe h
    | greater => cases hx; exact reach_scanGreater h
    | smaller hh => exact absurd hh hlt
    | question => cases hx; exact reach_scanQuestion h
    | bang => cases hx; exact reach_scanBang h
    | dot => cases hx; exact reach_scanDot h hctx
    | caret => cases hx; exact reach_scanCaret h
    | plus => cases hx; exact reach_scanPlus h
    | minus => cases hx; exact reach_scanMinus h
    | star => cases hx; exact reach_scanStar h
    | hash => exact reach_scanHash h hctx hx.symm
    | slash => exact reach_scanSlash h hctx hx.symm
    | equals => cases hx; exact reach_scanEquals h
    | dollar => cases hx; exact reach_scanDollar U h hctx
    | number => cases hx; exact reach_scanNumber c h hctx
    | closeParen =>
      obtain ⟨s1, h1, h2⟩ := reach_scanCloseParen h hctx
      rw [h1] at hx; cases hx; exact h2
    | single => cases hx; exact reach_scanQuoted _ _ rfl rfl h hctx
    | backtick => cases hx; exact reach_scanQuoted _ _ rfl rfl h hctx
    | double => cases hx; exact reach_scanQuoted _ _ rfl rfl h hctx
    | char t ht => cases hx; exact h.push (singleChar_display ht)
    | word => exact reach_scanWord U c h hctx hx.symm

/-- No turn of the loop panics. -/
theorem scanChar_ne_panic (U : Unicode) (c : Char) (s : St) (hc : c = '<' ∨ s.ctx = .inScript) :
    scanChar U c s ≠ .panic := by
  intro e
  have hb := scanChar_branch U c s
  rw [e] at hb
  generalize hx : Step.panic = x at hb
  cases hb with
  | smaller hh =>
    unfold scanSmaller at hx
    dsimp only at hx
    repeat' split at hx
    all_goals cases hx
  | hash =>
    unfold scanHash at hx
    obtain ⟨x, hx'⟩ := consumeLineComment_some s.adv
    rw [hx'] at hx
    split at hx <;> cases hx
  | slash =>
    unfold scanSlash at hx
    obtain ⟨x, hx'⟩ := consumeLineComment_some s.adv
    rw [hx'] at hx
    split at hx <;> cases hx
  | closeParen hh =>
    have hctx : s.ctx = .inScript := hc.resolve_left (by rw [hh]; decide)
    obtain ⟨s1, h1, _⟩ := reach_scanCloseParen (Reach.refl (Q := True) (a := s)) hctx
    rw [h1] at hx; cases hx
  | word =>
    unfold scanWord at hx
    dsimp only at hx
    repeat' split at hx
    all_goals cases hx
  | _ => cases hx

/-- The state from which the turn of the loop interprets its character. -/
theorem step_cont_reach (U : Unicode) {s s' : St} (e : step U s = .cont s') : Reach True s.mark.adv s' := by
  unfold step at e
  split at e
  · cases e
  · rename_i c s1 h1
    have hs1 : s1 = s.mark.adv := by unfold St.adv; rw [h1]
    subst hs1
    split at e
    · cases e; exact .refl
    · rename_i hh
      refine reach_scanChar U c .refl (fun _ => trivial) ?_ e
      by_cases hlt : c = '<'
      · exact Or.inl hlt
      · right
        cases hctx : s.mark.adv.ctx with
        | inScript => rfl
        | outScript => exact absurd ⟨hctx, hlt⟩ hh

theorem step_ne_panic (U : Unicode) (s : St) : step U s ≠ .panic := by
  unfold step
  split
  · simp
  · rename_i c s1 h1
    split
    · simp
    · rename_i hh
      apply scanChar_ne_panic
      by_cases hlt : c = '<'
      · exact Or.inl hlt
      · right
        cases hctx : s1.ctx with
        | inScript => rfl
        | outScript => exact absurd ⟨hctx, hlt⟩ hh

/-! ## Progress -/

theorem push_chars (s : St) (t : TT) : (s.push t).chars = s.chars := by unfold St.push; split <;> rfl

theorem Prim.chars_suffix {a b : St} (h : Prim Q a b) : b.chars <:+ a.chars := by
  cases h with
  | adv => exact adv_chars_suffix a
  | push => rw [push_chars]; exact List.suffix_rfl
  | named => exact List.suffix_rfl
  | enter => exact List.suffix_rfl
  | leave => exact List.suffix_rfl
  | cast => exact List.suffix_rfl
  | yieldFrom => rw [push_chars]; exact List.suffix_rfl

theorem Reach.chars_suffix {a b : St} (h : Reach Q a b) : b.chars <:+ a.chars := by
  induction h with
  | refl => exact List.suffix_rfl
  | tail _ p ih => exact p.chars_suffix.trans ih

theorem step_cont_chars_lt (U : Unicode) {s s' : St} (e : step U s = .cont s') :
    s'.chars.length < s.chars.length := by
  have hr := (step_cont_reach U e).chars_suffix.length_le
  have hne : s.chars ≠ [] := by
    intro h
    unfold step at e
    have : s.mark.advance = (none, { s.mark with chars := [] }) := by
      rw [advance_eq]; simp [St.mark, h, dropCr]
    rw [this] at e
    cases e
  have := adv_chars_length_lt s.mark (by simpa [St.mark] using hne)
  have h2 : s.mark.chars = s.chars := rfl
  rw [h2] at this
  omega

theorem loop_ne_outOfFuel (U : Unicode) (n : Nat) (s : St) (h : s.chars.length < n) :
    (∀ r, loop U n s = r → r ≠ .outOfFuel) := by
  induction n generalizing s with
  | zero => omega
  | succ n ih =>
    intro r hr
    unfold loop at hr
    split at hr
    · rename_i s' e
      exact ih s' (by have := step_cont_chars_lt U e; omega) r hr
    · subst hr; simp
    · subst hr; simp
    · subst hr; simp

theorem loop_ne_panic (U : Unicode) (n : Nat) (s : St) : loop U n s ≠ .panic := by
  induction n generalizing s with
  | zero => simp [loop]
  | succ n ih =>
    unfold loop
    split
    · exact ih _
    · simp
    · simp
    · rename_i h; exact absurd h (step_ne_panic U s)

/-- More fuel does not change the outcome once there is enough. -/
theorem loop_fuel (U : Unicode) (n m : Nat) (s : St) (hn : s.chars.length < n) (hm : s.chars.length < m) :
    loop U n s = loop U m s := by
  induction n generalizing s m with
  | zero => omega
  | succ n ih =>
    cases m with
    | zero => omega
    | succ m =>
      unfold loop
      cases e : step U s with
      | cont s' =>
        have := step_cont_chars_lt U e
        exact ih m s' (by omega) (by omega)
      | done s' => rfl
      | err e' s' => rfl
      | panic => rfl

end PhpLs.Scanner
