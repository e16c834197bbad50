import Verif.Props.ScannerComments

/-!
# Simulation between two scans

`Sim E f s s'`: the two scanner states agree up to the position relation `E` and, if `f` holds, up to carriage returns that
are inserted directly before line feeds in the second text.  Every function of the scanner preserves it.
-/

namespace PhpLs.Scanner

open PhpLs

/-- Position relations preserved by reading a character. -/
structure PosRel (E : Nat × Nat → Nat × Nat → Prop) : Prop where
  right : ∀ l c l' c', E (l, c) (l', c') → E (l, c + 1) (l', c' + 1)
  nl : ∀ l c l' c', E (l, c) (l', c') → E (l + 1, 0) (l' + 1, 0)

/-- The second text is the first one with carriage returns inserted before some line feeds (only if `f`). -/
inductive Cr (f : Prop) : Text → Text → Prop where
  | nil : Cr f [] []
  | cons (c : Char) {a b : Text} : Cr f a b → Cr f (c :: a) (c :: b)
  | ins {a b : Text} : f → Cr f a b → Cr f ('\n' :: a) ('\r' :: '\n' :: b)

theorem Cr.eq_of_not {f : Prop} (hf : ¬ f) {a b : Text} (h : Cr f a b) : a = b := by
  induction h with
  | nil => rfl
  | cons c _ ih => rw [ih]
  | ins h => exact absurd h hf

theorem Cr.refl (f : Prop) (a : Text) : Cr f a a := by
  induction a with
  | nil => exact .nil
  | cons c a ih => exact .cons c ih

/-- Two tokens that differ at most in their positions. -/
structure TokRel (E : Nat × Nat → Nat × Nat → Prop) (k k' : Token) : Prop where
  t : k.t = k'.t
  label : k.label = k'.label
  offset : k.offset = k'.offset
  pos : E (k.line, k.col) (k'.line, k'.col)

/-- Elementwise `TokRel`. -/
inductive ToksRel (E : Nat × Nat → Nat × Nat → Prop) : List Token → List Token → Prop where
  | nil : ToksRel E [] []
  | cons {k k' : Token} {r r' : List Token} : TokRel E k k' → ToksRel E r r' → ToksRel E (k :: r) (k' :: r')

theorem ToksRel.length {E} {a b : List Token} (h : ToksRel E a b) : a.length = b.length := by
  induction h with
  | nil => rfl
  | cons _ _ ih => simp [ih]

theorem ToksRel.append {E} {a b c d : List Token} (h : ToksRel E a b) (h' : ToksRel E c d) : ToksRel E (a ++ c) (b ++ d) := by
  induction h with
  | nil => exact h'
  | cons k _ ih => exact .cons k ih

theorem ToksRel.reverse {E} {a b : List Token} (h : ToksRel E a b) : ToksRel E a.reverse b.reverse := by
  induction h with
  | nil => exact .nil
  | cons k _ ih => simp only [List.reverse_cons]; exact ih.append (.cons k .nil)

theorem ToksRel.map_t {E} {a b : List Token} (h : ToksRel E a b) :
    a.map (fun k => (k.t, k.label, k.offset)) = b.map (fun k => (k.t, k.label, k.offset)) := by
  induction h with
  | nil => rfl
  | cons k _ ih => simp [ih, k.t, k.label, k.offset]

theorem ToksRel.eq {a b : List Token} (h : ToksRel Eq a b) : a = b := by
  induction h with
  | nil => rfl
  | cons k _ ih =>
    rename_i x y _ _ _
    obtain ⟨h1, h2, h3, h4⟩ := k
    cases x; cases y; simp_all

structure Sim (E : Nat × Nat → Nat × Nat → Prop) (f : Prop) (s s' : St) : Prop where
  ctx : s.ctx = s'.ctx
  chars : Cr f s.chars s'.chars
  pos : E (s.line, s.col) (s'.line, s'.col)
  start : E (s.sLine, s.sCol) (s'.sLine, s'.sCol)
  toks : ToksRel E s.toks s'.toks

variable {E : Nat × Nat → Nat × Nat → Prop} {f : Prop} {s s' : St}

theorem Sim.push (h : Sim E f s s') (t : TT) : Sim E f (s.push t) (s'.push t) := by
  unfold St.push
  rw [h.ctx]
  split
  · exact h
  · exact ⟨rfl, h.chars, h.pos, h.start, .cons ⟨rfl, rfl, by simp [Token.new, h.toks.length], h.start⟩ h.toks⟩

theorem Sim.named (h : Sim E f s s') (t : TT) (l : Text) : Sim E f (s.pushNamed t l) (s'.pushNamed t l) :=
  ⟨h.ctx, h.chars, h.pos, h.start, .cons ⟨rfl, rfl, by simp [Token.named, h.toks.length], h.start⟩ h.toks⟩

theorem Sim.setCtx (h : Sim E f s s') (c : Ctx) : Sim E f { s with ctx := c } { s' with ctx := c } :=
  ⟨rfl, h.chars, h.pos, h.start, h.toks⟩

theorem Sim.mark (h : Sim E f s s') : Sim E f s.mark s'.mark := ⟨h.ctx, h.chars, h.pos, h.pos, h.toks⟩

theorem Sim.peek (h : Sim E f s s') :
    s.peek = s'.peek ∨ (f ∧ s.peek = some '\n' ∧ s'.peek = some '\r') := by
  unfold St.peek
  have hc := h.chars
  generalize s.chars = a at hc
  generalize s'.chars = b at hc
  cases hc with
  | nil => left; rfl
  | cons => left; rfl
  | ins hf => right; exact ⟨hf, rfl, rfl⟩

theorem Sim.readOne (hE : PosRel E) (h : Sim E f s s') (c : Char) {a b : Text} (hab : Cr f a b) :
    Sim E f (readOne s c a) (readOne s' c b) := by
  unfold Scanner.readOne
  split
  · have hp := h.push .linebreak
    exact ⟨hp.ctx, hab, hE.nl _ _ _ _ h.pos, hp.start, hp.toks⟩
  · exact ⟨h.ctx, hab, hE.right _ _ _ _ h.pos, h.start, h.toks⟩

theorem Cr.dropCr {a b : Text} (h : Cr f a b) : Cr f (dropCr a) (dropCr b) ∧
    (∀ c r, Scanner.dropCr a = c :: r → ∃ r', Scanner.dropCr b = c :: r' ∧ Cr f r r') ∧
    (Scanner.dropCr a = [] → Scanner.dropCr b = []) := by
  induction h with
  | nil => exact ⟨.nil, by simp [Scanner.dropCr], fun h => h⟩
  | cons c h ih =>
    rename_i a b
    by_cases hc : c = '\r'
    · subst hc
      have e1 : Scanner.dropCr ('\r' :: a) = Scanner.dropCr a := by simp [Scanner.dropCr]
      have e2 : Scanner.dropCr ('\r' :: b) = Scanner.dropCr b := by simp [Scanner.dropCr]
      rw [e1, e2]; exact ih
    · rw [dropCr_of_ne hc, dropCr_of_ne hc]
      refine ⟨.cons c h, ?_, by simp⟩
      intro d r hd; cases hd; exact ⟨_, rfl, h⟩
  | ins hf h ih =>
    rename_i a b
    have e2 : Scanner.dropCr ('\r' :: '\n' :: b) = '\n' :: b := by simp [Scanner.dropCr]
    rw [e2, dropCr_of_ne (by decide)]
    refine ⟨.cons _ h, ?_, by simp⟩
    intro d r hd; cases hd; exact ⟨_, rfl, h⟩

theorem Sim.advance (hE : PosRel E) (h : Sim E f s s') :
    s.advance.1 = s'.advance.1 ∧ Sim E f s.advance.2 s'.advance.2 := by
  rw [advance_eq, advance_eq]
  obtain ⟨_, h2, h3⟩ := h.chars.dropCr
  cases hd : Scanner.dropCr s.chars with
  | nil => rw [h3 hd]; exact ⟨rfl, h.ctx, .nil, h.pos, h.start, h.toks⟩
  | cons c r =>
    obtain ⟨r', hr', hcr⟩ := h2 c r hd
    rw [hr']
    exact ⟨rfl, h.readOne hE c hcr⟩

theorem Sim.adv (hE : PosRel E) (h : Sim E f s s') : Sim E f s.adv s'.adv := (h.advance hE).2

/-! ## Loops -/

theorem sim_collectWhileN (hE : PosRel E) (p : Char → Bool) (hp : p '\n' = false ∧ p '\r' = false) (n : Nat)
    (h : Sim E f s s') : (collectWhileN p n s).1 = (collectWhileN p n s').1 ∧
      Sim E f (collectWhileN p n s).2 (collectWhileN p n s').2 := by
  induction n generalizing s s' with
  | zero => exact ⟨rfl, h⟩
  | succ n ih =>
    unfold collectWhileN
    rcases h.peek with hq | ⟨_, h1, h2⟩
    · rw [hq]
      cases s'.peek with
      | none => exact ⟨rfl, h⟩
      | some c =>
        dsimp only
        split
        · have := ih (h.adv hE); exact ⟨by rw [this.1], this.2⟩
        · exact ⟨rfl, h⟩
    · rw [h1, h2]; simp only [hp.1, hp.2]; exact ⟨rfl, h⟩

theorem sim_collectWhile (hE : PosRel E) (p : Char → Bool) (hp : p '\n' = false ∧ p '\r' = false)
    (h : Sim E f s s') : (collectWhile p s).1 = (collectWhile p s').1 ∧
      Sim E f (collectWhile p s).2 (collectWhile p s').2 := by
  have hs := sim_collectWhileN hE p hp (max s.chars.length s'.chars.length) h
  unfold collectWhile
  rw [collectWhileN_fuel p s.chars.length (max s.chars.length s'.chars.length) s (Nat.le_refl _) (by omega),
    collectWhileN_fuel p s'.chars.length (max s.chars.length s'.chars.length) s' (Nat.le_refl _) (by omega)]
  exact hs

theorem sim_collectUntilEscapedN (hE : PosRel E) (q : Char) (n : Nat) (e : Bool)
    (h : Sim E f s s') : (collectUntilEscapedN q n e s).1 = (collectUntilEscapedN q n e s').1 ∧
      Sim E f (collectUntilEscapedN q n e s).2 (collectUntilEscapedN q n e s').2 := by
  induction n generalizing e s s' with
  | zero => exact ⟨rfl, h⟩
  | succ n ih =>
    unfold collectUntilEscapedN
    have ha := h.advance hE
    revert ha
    cases s.advance with
    | mk o s1 =>
      cases s'.advance with
      | mk o' s1' =>
        rintro ⟨rfl, ha⟩
        cases o with
        | none => exact ⟨rfl, ha⟩
        | some c =>
          dsimp only
          split
          · have := ih (!e) ha; exact ⟨by rw [this.1], this.2⟩
          · split
            · exact ⟨rfl, ha⟩
            · have := ih false ha; exact ⟨by rw [this.1], this.2⟩

theorem sim_collectUntilEscaped (hE : PosRel E) (q : Char) (h : Sim E f s s') :
    (collectUntilEscaped q s).1 = (collectUntilEscaped q s').1 ∧
      Sim E f (collectUntilEscaped q s).2 (collectUntilEscaped q s').2 := by
  have hs := sim_collectUntilEscapedN hE q (max s.chars.length s'.chars.length + 1) false h
  unfold collectUntilEscaped
  rw [collectUntilEscapedN_fuel q (s.chars.length + 1) (max s.chars.length s'.chars.length + 1) _ s (by omega) (by omega),
    collectUntilEscapedN_fuel q (s'.chars.length + 1) (max s.chars.length s'.chars.length + 1) _ s' (by omega) (by omega)]
  exact hs

theorem sim_docCommentLoop (hE : PosRel E) (n : Nat) (h : Sim E f s s') :
    (docCommentLoop n s).1 = (docCommentLoop n s').1 ∧ Sim E f (docCommentLoop n s).2 (docCommentLoop n s').2 := by
  induction n generalizing s s' with
  | zero => exact ⟨rfl, h⟩
  | succ n ih =>
    unfold docCommentLoop
    have ha := h.advance hE
    revert ha
    cases s.advance with
    | mk o s1 =>
      cases s'.advance with
      | mk o' s1' =>
        rintro ⟨rfl, ha⟩
        cases o with
        | none => exact ⟨rfl, ha⟩
        | some c =>
          dsimp only at ha ⊢
          have hp : (s1.peek = some '/') = (s1'.peek = some '/') := by
            rcases ha.peek with hq | ⟨_, h1, h2⟩
            · rw [hq]
            · rw [h1, h2]; simp
          simp only [hp]
          split
          · exact ⟨rfl, ha.adv hE⟩
          · have := ih ha; exact ⟨by rw [this.1], this.2⟩

theorem sim_collectDocComment (hE : PosRel E) (h : Sim E f s s') : Sim E f (collectDocComment s) (collectDocComment s') := by
  have hs := sim_docCommentLoop hE (max s.chars.length s'.chars.length + 1) h
  unfold collectDocComment
  rw [docCommentLoop_fuel (s.chars.length + 1) (max s.chars.length s'.chars.length + 1) s (by omega) (by omega),
    docCommentLoop_fuel (s'.chars.length + 1) (max s.chars.length s'.chars.length + 1) s' (by omega) (by omega)]
  dsimp only
  rw [hs.1]
  exact hs.2.named _ _

/-- Both undefined, or both defined and related. -/
def OptSim (E : Nat × Nat → Nat × Nat → Prop) (f : Prop) : Option St → Option St → Prop
  | none, none => True
  | some s, some s' => Sim E f s s'
  | _, _ => False

theorem sim_lineCommentLoop (hE : PosRel E) (n : Nat) (cm : Text) (h : Sim E f s s') :
    OptSim E f (lineCommentLoop n cm s) (lineCommentLoop n cm s') := by
  induction n generalizing cm s s' with
  | zero => exact h.named _ _
  | succ n ih =>
    unfold lineCommentLoop
    rcases h.peek with hq | ⟨_, h1, h2⟩
    · rw [hq]
      cases s'.peek with
      | none => exact h.named _ _
      | some c =>
        dsimp only
        split
        · exact h.named _ _
        · split
          · have ha := h.adv hE
            have hp : (s.adv.peek = some '>') = (s'.adv.peek = some '>') := by
              rcases ha.peek with hq | ⟨_, h1, h2⟩
              · rw [hq]
              · rw [h1, h2]; simp
            simp only [hp]
            split
            · exact (((ha.adv hE).named _ _).push _).setCtx _
            · exact ih _ ha
          · have ha := h.advance hE
            revert ha
            cases s.advance with
            | mk o s1 =>
              cases s'.advance with
              | mk o' s1' =>
                rintro ⟨rfl, ha⟩
                cases o with
                | none => trivial
                | some c => exact ih _ ha
    · rw [h1, h2]; exact h.named _ _

theorem sim_consumeLineComment (hE : PosRel E) (h : Sim E f s s') :
    OptSim E f (consumeLineComment s) (consumeLineComment s') := by
  have hs := sim_lineCommentLoop hE (max s.chars.length s'.chars.length + 1) [] h
  unfold consumeLineComment
  rw [lineCommentLoop_fuel (s.chars.length + 1) (max s.chars.length s'.chars.length + 1) _ s (by omega) (by omega),
    lineCommentLoop_fuel (s'.chars.length + 1) (max s.chars.length s'.chars.length + 1) _ s' (by omega) (by omega)]
  exact hs

/-! ## Heredoc (only without carriage return differences) -/

theorem Sim.peek_eq (hf : ¬ f) (h : Sim E f s s') : s.peek = s'.peek := by
  rcases h.peek with h | ⟨h, _⟩
  · exact h
  · exact absurd h hf

theorem sim_matchMarker (hE : PosRel E) (m : Text) (h : Sim E f s s') :
    (matchMarker m s).1 = (matchMarker m s').1 ∧ (matchMarker m s).2.1 = (matchMarker m s').2.1 ∧
      Sim E f (matchMarker m s).2.2 (matchMarker m s').2.2 := by
  induction m generalizing s s' with
  | nil => exact ⟨rfl, rfl, h⟩
  | cons c r ih =>
    unfold matchMarker
    have ha := h.advance hE
    revert ha
    cases s.advance with
    | mk o s1 =>
      cases s'.advance with
      | mk o' s1' =>
        rintro ⟨rfl, ha⟩
        cases o with
        | none => exact ih ha
        | some d =>
          dsimp only
          split
          · have := ih ha; exact ⟨by rw [this.1], this.2⟩
          · exact ⟨rfl, rfl, ha⟩

theorem sim_hereDocLoop (hE : PosRel E) (hf : ¬ f) (m : Text) (n : Nat) (hd l : Text) (b : Bool) (h : Sim E f s s') :
    (hereDocLoop m n hd l b s).1 = (hereDocLoop m n hd l b s').1 ∧
      (hereDocLoop m n hd l b s).2.1 = (hereDocLoop m n hd l b s').2.1 ∧
      Sim E f (hereDocLoop m n hd l b s).2.2 (hereDocLoop m n hd l b s').2.2 := by
  induction n generalizing hd l b s s' with
  | zero => exact ⟨rfl, rfl, h⟩
  | succ n ih =>
    unfold hereDocLoop
    rw [h.peek_eq hf]
    cases s'.peek with
    | none => exact ⟨rfl, rfl, h⟩
    | some c =>
      dsimp only
      split
      · exact ih _ _ _ (h.adv hE)
      · split
        · exact ih _ _ _ (h.adv hE)
        · have hm := sim_matchMarker hE m h
          revert hm
          cases matchMarker m s with
          | mk p x =>
            obtain ⟨ok, s1⟩ := x
            cases matchMarker m s' with
            | mk p' x' =>
              obtain ⟨ok', s1'⟩ := x'
              rintro ⟨h1, h2, h3⟩
              dsimp only at h1 h2 h3
              subst h1 h2
              cases ok with
              | true => exact ⟨rfl, rfl, h3⟩
              | false => exact ih _ _ _ h3

theorem idChar_breaks (U : Unicode) : isIdChar U '\n' = false ∧ isIdChar U '\r' = false := by
  rw [isIdChar_ascii U _ (by decide), isIdChar_ascii U _ (by decide)]; decide

theorem sim_hereDocMarker (U : Unicode) (hE : PosRel E) (hf : ¬ f) (h : Sim E f s s') :
    (hereDocMarker U s).1 = (hereDocMarker U s').1 ∧ Sim E f (hereDocMarker U s).2 (hereDocMarker U s').2 := by
  unfold hereDocMarker
  rw [h.peek_eq hf]
  split
  · exact sim_collectUntilEscaped hE _ (h.adv hE)
  · exact sim_collectUntilEscaped hE _ (h.adv hE)
  · exact sim_collectWhile hE _ (idChar_breaks U) h

/-- Related outcomes of a heredoc. -/
def ExSim (E : Nat × Nat → Nat × Nat → Prop) (f : Prop) : Except ScanError St → Except ScanError St → Prop
  | .ok s, .ok s' => Sim E f s s'
  | .error e, .error e' => e = .unterminatedHeredoc ∧ e' = .unterminatedHeredoc
  | _, _ => False

theorem sim_tokenizeHereDoc (U : Unicode) (hE : PosRel E) (hf : ¬ f) (h : Sim E f s s') :
    ExSim E f (tokenizeHereDoc U s) (tokenizeHereDoc U s') := by
  unfold tokenizeHereDoc
  have h1 : Sim E f (skipBlanks s) (skipBlanks s') := (sim_collectWhile hE (fun c => decide (c = ' ')) (by decide) h).2
  have h2 := sim_hereDocMarker U hE hf h1
  dsimp only
  have h3 := h2.2.named .hereDocStart (hereDocMarker U (skipBlanks s)).1
  have hch : (hereDocMarker U (skipBlanks s)).2.chars = (hereDocMarker U (skipBlanks s')).2.chars :=
    h2.2.chars.eq_of_not hf
  have h4 := sim_hereDocLoop hE hf (hereDocMarker U (skipBlanks s)).1
    ((hereDocMarker U (skipBlanks s)).2.chars.length + 1) [] [] false h3
  have hlen : ((hereDocMarker U (skipBlanks s)).2.pushNamed TT.hereDocStart (hereDocMarker U (skipBlanks s)).1).chars.length
      = (hereDocMarker U (skipBlanks s)).2.chars.length := rfl
  have hlen' : ((hereDocMarker U (skipBlanks s')).2.pushNamed TT.hereDocStart (hereDocMarker U (skipBlanks s')).1).chars.length
      = (hereDocMarker U (skipBlanks s)).2.chars.length := by rw [hch]; rfl
  rw [hlen, hlen']
  have hm : (hereDocMarker U (skipBlanks s)).1 = (hereDocMarker U (skipBlanks s')).1 := h2.1
  rw [← hm]
  obtain ⟨e1, e2, e3⟩ := h4
  rw [e3.peek_eq hf]
  split
  · exact ⟨rfl, rfl⟩
  · rw [e1, e2]
    exact (e3.named _ _).named _ _

/-! ## The branches of `scan` -/

/-- Related results of a turn. -/
def StepSim (E : Nat × Nat → Nat × Nat → Prop) (f : Prop) : Step → Step → Prop
  | .cont s, .cont s' => Sim E f s s'
  | .done s, .done s' => Sim E f s s'
  | .err (.unexpectedChar c l k) _, .err (.unexpectedChar c' l' k') _ => c = c' ∧ E (l, k) (l', k')
  | .err .unterminatedHeredoc _, .err .unterminatedHeredoc _ => True
  | .panic, .panic => True
  | _, _ => False

/-- Closes goals made of pushes and reads. -/
macro "sim" h:ident hE:ident : tactic => `(tactic| repeat (first
  | assumption
  | apply Sim.push
  | apply Sim.setCtx
  | apply Sim.adv $hE
  | exact $h))

theorem sim_scanColon (hE : PosRel E) (h : Sim E f s s') : Sim E f (scanColon s) (scanColon s') := by
  unfold scanColon
  rcases h.peek with hq | ⟨_, h1, h2⟩
  · rw [hq]; split <;> sim h hE
  · rw [h1, h2]; sim h hE
theorem sim_scanAmp (hE : PosRel E) (h : Sim E f s s') : Sim E f (scanAmp s) (scanAmp s') := by
  unfold scanAmp
  rcases h.peek with hq | ⟨_, h1, h2⟩
  · rw [hq]; split <;> sim h hE
  · rw [h1, h2]; sim h hE
theorem sim_scanPercent (hE : PosRel E) (h : Sim E f s s') : Sim E f (scanPercent s) (scanPercent s') := by
  unfold scanPercent
  rcases h.peek with hq | ⟨_, h1, h2⟩
  · rw [hq]; split <;> sim h hE
  · rw [h1, h2]; sim h hE
theorem sim_scanPipe (hE : PosRel E) (h : Sim E f s s') : Sim E f (scanPipe s) (scanPipe s') := by
  unfold scanPipe
  rcases h.peek with hq | ⟨_, h1, h2⟩
  · rw [hq]; split <;> sim h hE
  · rw [h1, h2]; sim h hE
theorem sim_scanCaret (hE : PosRel E) (h : Sim E f s s') : Sim E f (scanCaret s) (scanCaret s') := by
  unfold scanCaret
  rcases h.peek with hq | ⟨_, h1, h2⟩
  · rw [hq]; split <;> sim h hE
  · rw [h1, h2]; sim h hE
theorem sim_scanPlus (hE : PosRel E) (h : Sim E f s s') : Sim E f (scanPlus s) (scanPlus s') := by
  unfold scanPlus
  rcases h.peek with hq | ⟨_, h1, h2⟩
  · rw [hq]; split <;> sim h hE
  · rw [h1, h2]; sim h hE
theorem sim_scanMinus (hE : PosRel E) (h : Sim E f s s') : Sim E f (scanMinus s) (scanMinus s') := by
  unfold scanMinus
  rcases h.peek with hq | ⟨_, h1, h2⟩
  · rw [hq]; split <;> sim h hE
  · rw [h1, h2]; sim h hE

theorem sim_peekIs (h : Sim E f s s') (t : Char) (ht : t ≠ '\n' ∧ t ≠ '\r') :
    (s.peek = some t) = (s'.peek = some t) := by
  rcases h.peek with hq | ⟨_, h1, h2⟩
  · rw [hq]
  · rw [h1, h2]
    simp only [Option.some.injEq]
    simp [ht.1.symm, ht.2.symm]

theorem sim_scanGreater (hE : PosRel E) (h : Sim E f s s') : Sim E f (scanGreater s) (scanGreater s') := by
  unfold scanGreater
  have ha := h.adv hE
  rcases h.peek with hq | ⟨_, h1, h2⟩
  · rw [hq]
    split
    · dsimp only
      rcases ha.peek with hq | ⟨_, h1, h2⟩
      · rw [hq]; split <;> sim h hE
      · rw [h1, h2]; sim h hE
    all_goals sim h hE
  · rw [h1, h2]; sim h hE
theorem sim_scanQuestion (hE : PosRel E) (h : Sim E f s s') : Sim E f (scanQuestion s) (scanQuestion s') := by
  unfold scanQuestion
  have ha := h.adv hE
  rcases h.peek with hq | ⟨_, h1, h2⟩
  · rw [hq]
    split
    · exact ((h.adv hE).push _).setCtx _
    · dsimp only
      rcases ha.peek with hq | ⟨_, h1, h2⟩
      · rw [hq]; split <;> sim h hE
      · rw [h1, h2]; sim h hE
    · dsimp only
      rcases ha.peek with hq | ⟨_, h1, h2⟩
      · rw [hq]; split <;> sim h hE
      · rw [h1, h2]; sim h hE
    all_goals sim h hE
  · rw [h1, h2]; sim h hE
theorem sim_scanBang (hE : PosRel E) (h : Sim E f s s') : Sim E f (scanBang s) (scanBang s') := by
  unfold scanBang
  have ha := h.adv hE
  rcases h.peek with hq | ⟨_, h1, h2⟩
  · rw [hq]
    split
    · dsimp only
      rcases ha.peek with hq | ⟨_, h1, h2⟩
      · rw [hq]; split <;> sim h hE
      · rw [h1, h2]; sim h hE
    all_goals sim h hE
  · rw [h1, h2]; sim h hE
theorem sim_scanStar (hE : PosRel E) (h : Sim E f s s') : Sim E f (scanStar s) (scanStar s') := by
  unfold scanStar
  have ha := h.adv hE
  rcases h.peek with hq | ⟨_, h1, h2⟩
  · rw [hq]
    split
    · dsimp only
      rcases ha.peek with hq | ⟨_, h1, h2⟩
      · rw [hq]; split <;> sim h hE
      · rw [h1, h2]; sim h hE
    all_goals sim h hE
  · rw [h1, h2]; sim h hE
theorem sim_scanEquals (hE : PosRel E) (h : Sim E f s s') : Sim E f (scanEquals s) (scanEquals s') := by
  unfold scanEquals
  have ha := h.adv hE
  rcases h.peek with hq | ⟨_, h1, h2⟩
  · rw [hq]
    split
    · dsimp only
      rcases ha.peek with hq | ⟨_, h1, h2⟩
      · rw [hq]; split <;> sim h hE
      · rw [h1, h2]; sim h hE
    all_goals sim h hE
  · rw [h1, h2]; sim h hE

theorem digit_breaks : isDigit '\n' = false ∧ isDigit '\r' = false := by decide

theorem sim_scanDot (hE : PosRel E) (h : Sim E f s s') : Sim E f (scanDot s) (scanDot s') := by
  unfold scanDot
  have ha := h.adv hE
  rcases h.peek with hq | ⟨_, h1, h2⟩
  · rw [hq]
    split
    · split
      · dsimp only
        rcases ha.peek with hq | ⟨_, h1, h2⟩
        · rw [hq]; split <;> sim h hE
        · rw [h1, h2]; sim h hE
      · split
        · sim h hE
        · split
          · have hw := sim_collectWhile hE isDigit digit_breaks h
            dsimp only
            rw [hw.1]
            exact hw.2.named _ _
          · sim h hE
    · sim h hE
  · rw [h1, h2]
    simp [isDigit]
    sim h hE

theorem sim_scanHash (hE : PosRel E) (h : Sim E f s s') : StepSim E f (scanHash s) (scanHash s') := by
  have hc := sim_consumeLineComment hE (h.adv hE)
  have key : StepSim E f (match consumeLineComment s.adv with | some s => .cont s | none => .panic)
      (match consumeLineComment s'.adv with | some s => .cont s | none => .panic) := by
    revert hc
    cases consumeLineComment s.adv <;> cases consumeLineComment s'.adv <;> intro hc <;> first | exact hc | trivial
  unfold scanHash
  rcases h.peek with hq | ⟨_, h1, h2⟩
  · rw [hq]
    split
    · exact (h.adv hE).push _
    · exact key
  · rw [h1, h2]; exact key

theorem sim_scanSlash (hE : PosRel E) (h : Sim E f s s') : StepSim E f (scanSlash s) (scanSlash s') := by
  have hc := sim_consumeLineComment hE (h.adv hE)
  have key : StepSim E f (match consumeLineComment s.adv with | some s => .cont s | none => .panic)
      (match consumeLineComment s'.adv with | some s => .cont s | none => .panic) := by
    revert hc
    cases consumeLineComment s.adv <;> cases consumeLineComment s'.adv <;> intro hc <;> first | exact hc | trivial
  unfold scanSlash
  rcases h.peek with hq | ⟨_, h1, h2⟩
  · rw [hq]
    split
    · exact key
    · exact sim_collectDocComment hE (h.adv hE)
    · exact (h.adv hE).push _
    · exact h.push _
  · rw [h1, h2]; exact h.push _

theorem sim_scanDollar (U : Unicode) (hE : PosRel E) (h : Sim E f s s') : Sim E f (scanDollar U s) (scanDollar U s') := by
  unfold scanDollar
  have hw := sim_collectWhile hE (isIdChar U) (idChar_breaks U) h
  dsimp only
  rw [hw.1]
  split
  · exact hw.2.named _ _
  · exact hw.2.push _

theorem sim_numberFraction (hE : PosRel E) (num : Text) (h : Sim E f s s') :
    (numberFraction num s).1 = (numberFraction num s').1 ∧ (numberFraction num s).2.1 = (numberFraction num s').2.1 ∧
      Sim E f (numberFraction num s).2.2 (numberFraction num s').2.2 := by
  unfold numberFraction
  have hp := sim_peekIs h '.' (by decide)
  simp only [hp]
  have hw := sim_collectWhile hE isDigit digit_breaks (h.adv hE)
  split
  · dsimp only; rw [hw.1]; exact ⟨rfl, rfl, hw.2⟩
  · exact ⟨rfl, rfl, h⟩

theorem sim_numberSign (hE : PosRel E) (num : Text) (h : Sim E f s s') :
    (numberSign num s).1 = (numberSign num s').1 ∧ Sim E f (numberSign num s).2 (numberSign num s').2 := by
  unfold numberSign
  rcases h.peek with hq | ⟨_, h1, h2⟩
  · rw [hq]
    split
    · exact ⟨rfl, h.adv hE⟩
    · exact ⟨rfl, h.adv hE⟩
    · exact ⟨rfl, h⟩
  · rw [h1, h2]; exact ⟨rfl, h⟩

theorem sim_scanNumber (hE : PosRel E) (c : Char) (h : Sim E f s s') : Sim E f (scanNumber c s) (scanNumber c s') := by
  unfold scanNumber
  simp only [sim_peekIs h 'x' (by decide), sim_peekIs h 'b' (by decide)]
  split
  · have hw := sim_collectWhile hE isHexDigit (by decide) (h.adv hE)
    rw [hw.1]; exact hw.2.named _ _
  · split
    · have hw := sim_collectWhile hE isBinDigit (by decide) (h.adv hE)
      rw [hw.1]; exact hw.2.named _ _
    · have hw := sim_collectWhile hE isDigit digit_breaks h
      have hfr := sim_numberFraction hE ([c] ++ (collectWhile isDigit s).1) hw.2
      rw [← hw.1]
      simp only [sim_peekIs hfr.2.2 'e' (by decide), sim_peekIs hfr.2.2 'E' (by decide)]
      split
      · have hsg := sim_numberSign hE ((numberFraction ([c] ++ (collectWhile isDigit s).1) (collectWhile isDigit s).2).1 ++ ['e'])
          (hfr.2.2.adv hE)
        have hd := sim_collectWhile hE isDigit digit_breaks hsg.2
        rw [← hfr.1, ← hsg.1, hd.1]
        exact hd.2.named _ _
      · rw [hfr.1, hfr.2.1]
        exact hfr.2.2.named _ _

theorem sim_scanQuoted (hE : PosRel E) (q : Char) (t : TT) (h : Sim E f s s') :
    Sim E f (scanQuoted q t s) (scanQuoted q t s') := by
  unfold scanQuoted
  have hw := sim_collectUntilEscaped hE q h
  dsimp only
  rw [hw.1]
  exact hw.2.named _ _

theorem sim_scanCloseParen (h : Sim E f s s') : StepSim E f (scanCloseParen s) (scanCloseParen s') := by
  have hpush : Sim E f (s.push .closeParenthesis) (s'.push .closeParenthesis) := h.push _
  have ht := h.toks
  have hctx := h.ctx
  unfold scanCloseParen
  generalize hs : s.toks = a at ht
  generalize hs' : s'.toks = b at ht
  cases ht with
  | nil => exact hpush
  | cons k kr =>
    rename_i x x' r r'
    dsimp only
    rw [k.t]
    cases mapCast x'.t with
    | none => exact hpush
    | some castTo =>
      cases kr with
      | nil => exact hpush
      | cons p pr =>
        rename_i y y' q q'
        dsimp only
        rw [p.t]
        split
        · unfold St.push
          dsimp only
          rw [hctx]
          cases s'.ctx with
          | inScript =>
            simp only [ne_eq, not_true_eq_false, if_false]
            exact ⟨by simp, h.chars, h.pos, h.start,
              .cons ⟨rfl, rfl, by simp [Token.new, pr.length], p.pos⟩ pr⟩
          | outScript =>
            simp only [ne_eq, reduceCtorEq, not_false_iff, if_true]
            cases pr with
            | nil => trivial
            | cons z zr => exact ⟨by simp, h.chars, h.pos, h.start,
              .cons ⟨z.t, z.label, z.offset, p.pos⟩ zr⟩
        · exact hpush

theorem sim_scanWord (U : Unicode) (hE : PosRel E) (c : Char) (h : Sim E f s s') :
    StepSim E f (scanWord U c s) (scanWord U c s') := by
  unfold scanWord
  split
  · have hw := sim_collectWhile hE (isIdChar U) (idChar_breaks U) h
    dsimp only
    rw [hw.1]
    split
    · exact hw.2.push _
    · split
      · have ht := hw.2.toks
        generalize (collectWhile (isIdChar U) s).2 = a at hw ht
        generalize (collectWhile (isIdChar U) s').2 = b at hw ht
        generalize hs : a.toks = at' at ht
        generalize hs' : b.toks = bt at ht
        cases ht with
        | nil => exact hw.2.named _ _
        | cons k kr =>
          dsimp only
          rw [k.t]
          split
          · refine Sim.push (s := { a with toks := _ }) (s' := { b with toks := _ }) ?_ _
            exact ⟨hw.2.ctx, hw.2.chars, hw.2.pos, hw.2.start, kr⟩
          · exact hw.2.named _ _
      · exact hw.2.named _ _
  · exact ⟨rfl, h.pos⟩

theorem sim_scanSmaller (U : Unicode) (hE : PosRel E) (h : Sim E f s s') (hf : ¬ f ∨ ¬ c!"<<" <+: s.chars) :
    StepSim E f (scanSmaller U s) (scanSmaller U s') := by
  unfold scanSmaller
  have ha := h.adv hE
  rcases h.peek with hq | ⟨_, h1, h2⟩
  · have hq' := hq
    rw [hq]
    split
    · rename_i hp
      rw [hp] at hq'
      dsimp only
      have hnp : f → s.adv.peek ≠ some '<' := by
        intro hff hadv
        rcases hf with hf | hf
        · exact hf hff
        · obtain ⟨r, hr⟩ := peek_eq_some hq'
          rw [adv_cons s '<' r hr (by decide)] at hadv
          unfold St.peek at hadv
          rw [readOne_chars] at hadv
          cases r with
          | nil => cases hadv
          | cons d r => cases hadv; exact hf ⟨r, by rw [hr]; rfl⟩
      rcases ha.peek with hq | ⟨_, h1, h2⟩
      · have hq2 := hq
        rw [hq]
        split
        · rename_i hp2
          have hnf : ¬ f := fun hff => hnp hff (by rw [hq2, hp2])
          have := sim_tokenizeHereDoc U hE hnf (ha.adv hE)
          revert this
          cases tokenizeHereDoc U s.adv.adv <;> cases tokenizeHereDoc U s'.adv.adv <;> intro this
          · obtain ⟨rfl, rfl⟩ := this; trivial
          · exact absurd this (by simp [ExSim])
          · exact absurd this (by simp [ExSim])
          · exact this
        · exact (ha.adv hE).push _
        · exact ha.push _
      · rw [h1, h2]; exact ha.push _
    · dsimp only
      rcases ha.peek with hq | ⟨_, h1, h2⟩
      · rw [hq]
        have hb := ha.adv hE
        have hc := hb.adv hE
        have p1 := sim_peekIs hb 'h' (by decide)
        have p2 := sim_peekIs hc 'p' (by decide)
        split
        · exact (ha.setCtx _).push _
        · exact (ha.setCtx _).push _
        · exact (ha.setCtx _).push _
        · exact (ha.setCtx _).push _
        · exact ((ha.adv hE).setCtx _).push _
        · simp only [p1]
          split
          · simp only [p2]
            split
            · exact ((hc.adv hE).setCtx _).push _
            · exact hc
          · exact hb
        · exact ha
      · rw [h1, h2]; exact (ha.setCtx _).push _
    · dsimp only
      rcases ha.peek with hq | ⟨_, h1, h2⟩
      · rw [hq]
        split
        · exact (ha.adv hE).push _
        · exact ha.push _
      · rw [h1, h2]; exact ha.push _
    · exact ha.push _
    · exact h.push _
  · rw [h1, h2]; exact h.push _

theorem ite_sim {p : Prop} [Decidable p] {x y x' y' : Step} (h1 : p → StepSim E f x x') (h2 : StepSim E f y y') :
    StepSim E f (if p then x else y) (if p then x' else y') := by
  by_cases hp : p
  · rw [if_pos hp, if_pos hp]; exact h1 hp
  · rw [if_neg hp, if_neg hp]; exact h2

theorem sim_scanChar (U : Unicode) (hE : PosRel E) (c : Char) (h : Sim E f s s')
    (hf : c = '<' → (¬ f ∨ ¬ c!"<<" <+: s.chars)) : StepSim E f (scanChar U c s) (scanChar U c s') := by
  unfold scanChar
  refine ite_sim (fun _ => h) ?_
  refine ite_sim (fun _ => sim_scanColon hE h) ?_
  refine ite_sim (fun _ => sim_scanAmp hE h) ?_
  refine ite_sim (fun _ => sim_scanPercent hE h) ?_
  refine ite_sim (fun _ => sim_scanPipe hE h) ?_
  refine ite_sim (fun _ => sim_scanGreater hE h) ?_
  refine ite_sim (fun hc => sim_scanSmaller U hE h (hf hc)) ?_
  refine ite_sim (fun _ => sim_scanQuestion hE h) ?_
  refine ite_sim (fun _ => sim_scanBang hE h) ?_
  refine ite_sim (fun _ => sim_scanDot hE h) ?_
  refine ite_sim (fun _ => sim_scanCaret hE h) ?_
  refine ite_sim (fun _ => sim_scanPlus hE h) ?_
  refine ite_sim (fun _ => sim_scanMinus hE h) ?_
  refine ite_sim (fun _ => sim_scanStar hE h) ?_
  refine ite_sim (fun _ => sim_scanHash hE h) ?_
  refine ite_sim (fun _ => sim_scanSlash hE h) ?_
  refine ite_sim (fun _ => sim_scanEquals hE h) ?_
  refine ite_sim (fun _ => sim_scanDollar U hE h) ?_
  refine ite_sim (fun _ => sim_scanNumber hE c h) ?_
  refine ite_sim (fun _ => sim_scanCloseParen h) ?_
  refine ite_sim (fun _ => sim_scanQuoted hE _ _ h) ?_
  refine ite_sim (fun _ => sim_scanQuoted hE _ _ h) ?_
  refine ite_sim (fun _ => sim_scanQuoted hE _ _ h) ?_
  cases singleChar c with
  | some t => exact h.push t
  | none => exact sim_scanWord U hE c h

theorem dropCr_cons_suffix {a : Text} {c : Char} {r : Text} (h : dropCr a = c :: r) : c :: r <:+ a := by
  rw [← h]; exact dropCr_suffix a

theorem sim_step (U : Unicode) (hE : PosRel E) (h : Sim E f s s') (hf : ¬ f ∨ ¬ c!"<<<" <:+: s.chars) :
    StepSim E f (step U s) (step U s') := by
  unfold step
  have ha := h.mark.advance hE
  have hadv := advance_eq s.mark
  revert ha hadv
  cases s.mark.advance with
  | mk o s1 =>
    cases s'.mark.advance with
    | mk o' s1' =>
      rintro ⟨h1, ha⟩ hadv
      dsimp only at h1 ha
      subst h1
      cases o with
      | none => exact ha.push _
      | some c =>
        dsimp only
        rw [ha.ctx]
        split
        · exact ha
        · refine sim_scanChar U hE c ha ?_
          rintro rfl
          rcases hf with hf | hf
          · exact Or.inl hf
          · right
            intro hpre
            apply hf
            split at hadv
            · cases hadv
            · rename_i d r hd
              cases hadv
              rw [readOne_chars] at hpre
              have hsuf := dropCr_cons_suffix hd
              have hpre' : c!"<<<" <+: '<' :: r := by
                obtain ⟨w, hw⟩ := hpre
                exact ⟨w, by rw [← hw]; rfl⟩
              exact hpre'.isInfix.trans hsuf.isInfix

/-- Related outcomes of a scan. -/
def OutSim (E : Nat × Nat → Nat × Nat → Prop) (f : Prop) : Outcome → Outcome → Prop
  | .ok s, .ok s' => Sim E f s s'
  | .err (.unexpectedChar c l k) _, .err (.unexpectedChar c' l' k') _ => c = c' ∧ E (l, k) (l', k')
  | .err .unterminatedHeredoc _, .err .unterminatedHeredoc _ => True
  | .panic, .panic => True
  | .outOfFuel, .outOfFuel => True
  | _, _ => False

theorem sim_loop (U : Unicode) (hE : PosRel E) (n : Nat) (h : Sim E f s s') (hf : ¬ f ∨ ¬ c!"<<<" <:+: s.chars) :
    OutSim E f (loop U n s) (loop U n s') := by
  induction n generalizing s s' with
  | zero => trivial
  | succ n ih =>
    unfold loop
    have hs := sim_step U hE h hf
    have hsuf : ∀ s1, step U s = .cont s1 → s1.chars <:+ s.chars := fun s1 e => (C01_progress U s s1 e).1
    revert hs
    cases h1 : step U s with
    | cont s1 =>
      cases step U s' with
      | cont s1' =>
        intro hs
        refine ih hs ?_
        rcases hf with hf | hf
        · exact Or.inl hf
        · right; intro hi; exact hf (hi.trans (hsuf s1 h1).isInfix)
      | _ => intro hs; exact absurd hs (by simp [StepSim])
    | done s1 =>
      cases step U s' with
      | done s1' => exact fun hs => hs
      | _ => intro hs; exact absurd hs (by simp [StepSim])
    | err e s1 =>
      cases step U s' with
      | err e' s1' =>
        cases e <;> cases e' <;> exact fun hs => hs
      | _ => intro hs; cases e <;> exact absurd hs (by simp [StepSim])
    | panic =>
      cases step U s' with
      | panic => exact fun _ => trivial
      | _ => intro hs; exact absurd hs (by simp [StepSim])

end PhpLs.Scanner
