import Verif.ScannerLemmas

/-!
# Scanner properties that are invariants of the whole scan: C01, C02, C03, C10, C11 (first part)
-/

namespace PhpLs.Scanner

open PhpLs

/-! ## Specification (independent of the scanner) -/

/-- Number of line feeds of a text: the zero based line number of its end. -/
def endLine (t : Text) : Nat := t.count '\n'

/-- Number of characters after the last line feed, not counting carriage returns: the column of the end of a text. -/
def endCol (t : Text) : Nat := ((t.reverse.takeWhile (· ≠ '\n')).filter (· ≠ '\r')).length

/-- Position (line, column) of the end of a text. -/
def endPos (t : Text) : Nat × Nat := (endLine t, endCol t)

/-- Lexicographic order of (line, column) positions. -/
def posLe (a b : Nat × Nat) : Prop := a.1 < b.1 ∨ (a.1 = b.1 ∧ a.2 ≤ b.2)

/-- Start position of a token as (line, column). -/
def startPos (k : Token) : Nat × Nat := (k.line, k.col)

/-! ## Lemmas about the specification -/

theorem endPos_nil : endPos [] = (0, 0) := rfl

theorem endPos_snoc_nl (t : Text) : endPos (t ++ ['\n']) = (endLine t + 1, 0) := by
  simp [endPos, endLine, endCol]

theorem endPos_snoc_cr (t : Text) : endPos (t ++ ['\r']) = endPos t := by
  simp [endPos, endLine, endCol]

theorem endPos_snoc (t : Text) (c : Char) (h1 : c ≠ '\n') (h2 : c ≠ '\r') :
    endPos (t ++ [c]) = (endLine t, endCol t + 1) := by
  simp [endPos, endLine, endCol, h1, h2, List.count_append]

theorem endPos_append_crs (t cs : Text) (h : ∀ c ∈ cs, c = '\r') : endPos (t ++ cs) = endPos t := by
  induction cs generalizing t with
  | nil => simp
  | cons c r ih =>
    have hc := h c (by simp)
    subst hc
    have : t ++ '\r' :: r = (t ++ ['\r']) ++ r := by simp
    rw [this, ih _ (fun x hx => h x (by simp [hx])), endPos_snoc_cr]

theorem posLe_refl (a : Nat × Nat) : posLe a a := Or.inr ⟨rfl, Nat.le_refl _⟩
theorem posLe_trans {a b c : Nat × Nat} (h : posLe a b) (h' : posLe b c) : posLe a c := by
  unfold posLe at *; omega

/-! ## The run invariant principle -/

/-- The last turn of the loop. -/
theorem step_done (U : Unicode) {a s : St} (e : step U a = .done s) :
    s = a.mark.adv.push .eof ∧ a.mark.adv.chars = [] := by
  unfold step at e
  split at e
  · rename_i s1 h1
    cases e
    have hs1 : s1 = a.mark.adv := by unfold St.adv; rw [h1]
    have hch : s1.chars = [] := by
      rw [advance_eq] at h1
      split at h1 <;> cases h1
      rfl
    rw [← hs1]
    exact ⟨rfl, hch⟩
  · split at e
    · cases e
    · exfalso
      have hb := scanChar_branch U ‹Char› ‹St›
      rw [e] at hb
      generalize hx : Step.done s = x at hb
      cases hb with
      | smaller hh =>
        unfold scanSmaller at hx
        dsimp only at hx
        repeat' split at hx
        all_goals cases hx
      | hash => unfold scanHash at hx; repeat' split at hx
                all_goals cases hx
      | slash => unfold scanSlash at hx; repeat' split at hx
                 all_goals cases hx
      | closeParen hh =>
        unfold scanCloseParen at hx
        dsimp only at hx
        repeat' split at hx
        all_goals cases hx
      | word =>
        unfold scanWord at hx
        dsimp only at hx
        repeat' split at hx
        all_goals cases hx
      | _ => cases hx

/-- A property of states that holds initially and is preserved by every turn of the loop holds for the final state. -/
theorem scan_ok_step_induct (U : Unicode) (P : St → Prop) (t : Text) (s : St)
    (h0 : P (new t)) (hstep : ∀ s s', P s → step U s = .cont s' → P s')
    (hdone : ∀ s, P s → s.mark.adv.chars = [] → P (s.mark.adv.push .eof)) (h : scan U t = .ok s) : P s := by
  unfold scan at h
  generalize hn : t.length + 1 = n at h
  clear hn
  revert h h0
  generalize new t = a
  intro h0 h
  induction n generalizing a with
  | zero => simp [loop] at h
  | succ n ih =>
    unfold loop at h
    split at h
    · rename_i s' e
      exact ih s' (hstep a s' h0 e) h
    · rename_i s' e
      cases h
      obtain ⟨rfl, hch⟩ := step_done U e
      exact hdone a h0 hch
    · cases h
    · cases h

/-- A property of states that holds initially, is preserved by marking the start of a token and by every primitive
change, and by the final `Eof` token, holds for the final state. -/
theorem scan_ok_induct (U : Unicode) (P : St → Prop) (t : Text) (s : St)
    (h0 : P (new t)) (hmark : ∀ s, P s → P s.mark) (hprim : ∀ s s', P s → Prim True s s' → P s')
    (heof : ∀ s, P s → s.chars = [] → P (s.push .eof)) (h : scan U t = .ok s) : P s := by
  refine scan_ok_step_induct U P t s h0 ?_ ?_ h
  · intro a s' h0 e
    have hr := step_cont_reach U e
    have hadv : P a.mark.adv := hprim _ _ (hmark _ h0) (.adv _)
    clear e h
    induction hr with
    | refl => exact hadv
    | tail _ p ih => exact hprim _ _ ih p
  · intro a h0 hch
    exact heof _ (hprim _ _ (hmark _ h0) (.adv _)) hch

/-- The final state of a successful scan has read the whole text. -/
theorem scan_ok_chars (U : Unicode) (t : Text) (s : St) (h : scan U t = .ok s) : s.chars = [] := by
  unfold scan at h
  generalize t.length + 1 = n at h
  revert h
  generalize new t = a
  intro h
  induction n generalizing a with
  | zero => simp [loop] at h
  | succ n ih =>
    unfold loop at h
    split at h
    · exact ih _ h
    · rename_i s' e
      cases h
      unfold step at e
      split at e
      · rename_i s1 h1
        cases e
        rw [push_chars]
        rw [advance_eq] at h1
        split at h1 <;> cases h1
        rfl
      · split at e
        · cases e
        · exfalso
          have hb := scanChar_branch U ‹Char› ‹St›
          rw [e] at hb
          generalize hx : Step.done s = x at hb
          cases hb with
          | smaller hh =>
            unfold scanSmaller at hx
            dsimp only at hx
            repeat' split at hx
            all_goals cases hx
          | hash => unfold scanHash at hx; repeat' split at hx
                    all_goals cases hx
          | slash => unfold scanSlash at hx; repeat' split at hx
                     all_goals cases hx
          | closeParen hh =>
            unfold scanCloseParen at hx
            dsimp only at hx
            repeat' split at hx
            all_goals cases hx
          | word =>
            unfold scanWord at hx
            dsimp only at hx
            repeat' split at hx
            all_goals cases hx
          | _ => cases hx
    · cases h
    · cases h

/-! ## C01: scanning always ends -/

/-- **C01.** Scanning any text ends with a token list or an error: it neither panics nor runs forever (the fuel of the
model is never exhausted). -/
theorem C01_scan_total (U : Unicode) (t : Text) :
    (∃ s, scan U t = .ok s) ∨ (∃ e s, scan U t = .err e s) := by
  have h1 := loop_ne_outOfFuel U (t.length + 1) (new t) (by simp [new]) _ rfl
  have h2 := loop_ne_panic U (t.length + 1) (new t)
  unfold scan
  cases h : loop U (t.length + 1) (new t) with
  | ok s => exact Or.inl ⟨s, rfl⟩
  | err e s => exact Or.inr ⟨e, s, rfl⟩
  | panic => exact absurd h h2
  | outOfFuel => exact absurd h h1

/-- **C01.** Every turn of the scan loop that continues has consumed at least one character of the text. -/
theorem C01_progress (U : Unicode) (s s' : St) (h : step U s = .cont s') :
    s'.chars <:+ s.chars ∧ s'.chars.length < s.chars.length := by
  refine ⟨?_, step_cont_chars_lt U h⟩
  exact (step_cont_reach U h).chars_suffix.trans (adv_chars_suffix s.mark)

/-- **C01.** The amount of fuel of the model is irrelevant: any number of turns above the length of the text gives the
same outcome, so the bounded loop of the model is the unbounded loop of the code. -/
theorem C01_fuel_irrelevant (U : Unicode) (t : Text) (n : Nat) (h : t.length < n) :
    loop U n (new t) = scan U t := loop_fuel U n (t.length + 1) (new t) h (by simp [new])

example : ∃ s, scan Unicode.ascii c!"<p><?php echo 'x';" = .ok s := ⟨_, rfl⟩
example : ∃ e s, scan Unicode.ascii c!"<?php \u0001" = .err e s := ⟨_, _, rfl⟩

/-! ### The inner loops satisfy the loop equations of the Rust code -/

theorem collectWhileN_fuel (p : Char → Bool) (n m : Nat) (s : St) (hn : s.chars.length ≤ n) (hm : s.chars.length ≤ m) :
    collectWhileN p n s = collectWhileN p m s := by
  induction n generalizing m s with
  | zero =>
    have hnil : s.chars = [] := by simpa using hn
    cases m with
    | zero => rfl
    | succ m => unfold collectWhileN; simp [St.peek, hnil]
  | succ n ih =>
    cases m with
    | zero =>
      have hnil : s.chars = [] := by simpa using hm
      unfold collectWhileN; simp [St.peek, hnil]
    | succ m =>
      unfold collectWhileN
      cases hp : s.peek with
      | none => rfl
      | some c =>
        have hne : s.chars ≠ [] := by
          obtain ⟨r, hr⟩ := peek_eq_some hp; simp [hr]
        have := adv_chars_length_lt s hne
        simp only
        rw [ih m s.adv (by omega) (by omega)]

/-- Loop equation of `collect_identifer` and its siblings. -/
theorem C01_collectWhile_eq (p : Char → Bool) (s : St) :
    collectWhile p s = match s.peek with
      | none => ([], s)
      | some c => if p c then (c :: (collectWhile p s.adv).1, (collectWhile p s.adv).2) else ([], s) := by
  unfold collectWhile
  cases hp : s.peek with
  | none => rw [peek_eq_none hp]; rfl
  | some c =>
    obtain ⟨r, hr⟩ := peek_eq_some hp
    have hne : s.chars ≠ [] := by simp [hr]
    have hlt := adv_chars_length_lt s hne
    have hl : s.chars.length = r.length + 1 := by simp [hr]
    rw [hl]
    conv => lhs; unfold collectWhileN
    rw [hp]
    simp only
    rw [collectWhileN_fuel p r.length s.adv.chars.length s.adv (by omega) (Nat.le_refl _)]

theorem advance_none_chars {s s' : St} (h : s.advance = (none, s')) : s'.chars = [] := by
  rw [advance_eq] at h
  split at h <;> cases h
  rfl

theorem advance_some_lt {s s' : St} {c : Char} (h : s.advance = (some c, s')) : s'.chars.length < s.chars.length := by
  have hne : s.chars ≠ [] := by
    intro hnil
    rw [advance_eq, hnil] at h
    cases h
  have := adv_chars_length_lt s hne
  unfold St.adv at this
  rw [h] at this
  exact this

theorem collectUntilEscapedN_fuel (q : Char) (n m : Nat) (e : Bool) (s : St) (hn : s.chars.length < n)
    (hm : s.chars.length < m) : collectUntilEscapedN q n e s = collectUntilEscapedN q m e s := by
  induction n generalizing m e s with
  | zero => omega
  | succ n ih =>
    cases m with
    | zero => omega
    | succ m =>
      unfold collectUntilEscapedN
      cases h : s.advance with
      | mk o s' =>
        cases o with
        | none => rfl
        | some c =>
          have := advance_some_lt h
          simp only
          rw [ih m (!e) s' (by omega) (by omega), ih m false s' (by omega) (by omega)]

/-- Loop equation of `collect_until_escaped`. -/
theorem C01_collectUntilEscaped_eq (q : Char) (n : Nat) (e : Bool) (s : St) (hn : s.chars.length < n) :
    collectUntilEscapedN q n e s = match s.advance with
      | (none, s) => ([], s)
      | (some c, s) =>
        if c = '\\' then (c :: (collectUntilEscapedN q n (!e) s).1, (collectUntilEscapedN q n (!e) s).2)
        else if c = q ∧ e = false then ([], s)
        else (c :: (collectUntilEscapedN q n false s).1, (collectUntilEscapedN q n false s).2) := by
  cases n with
  | zero => omega
  | succ n =>
    conv => lhs; unfold collectUntilEscapedN
    cases h : s.advance with
    | mk o s' =>
      cases o with
      | none => rfl
      | some c =>
        have := advance_some_lt h
        simp only
        rw [collectUntilEscapedN_fuel q n (n + 1) (!e) s' (by omega) (by omega),
          collectUntilEscapedN_fuel q n (n + 1) false s' (by omega) (by omega)]

theorem docCommentLoop_fuel (n m : Nat) (s : St) (hn : s.chars.length < n) (hm : s.chars.length < m) :
    docCommentLoop n s = docCommentLoop m s := by
  induction n generalizing m s with
  | zero => omega
  | succ n ih =>
    cases m with
    | zero => omega
    | succ m =>
      unfold docCommentLoop
      cases h : s.advance with
      | mk o s' =>
        cases o with
        | none => rfl
        | some c =>
          have := advance_some_lt h
          simp only
          rw [ih m s' (by omega) (by omega)]

theorem lineCommentLoop_fuel (n m : Nat) (cm : Text) (s : St) (hn : s.chars.length < n) (hm : s.chars.length < m) :
    lineCommentLoop n cm s = lineCommentLoop m cm s := by
  induction n generalizing m cm s with
  | zero => omega
  | succ n ih =>
    cases m with
    | zero => omega
    | succ m =>
      unfold lineCommentLoop
      cases hp : s.peek with
      | none => rfl
      | some c =>
        have hne : s.chars ≠ [] := by
          obtain ⟨r, hr⟩ := peek_eq_some hp; simp [hr]
        have h1 := adv_chars_length_lt s hne
        simp only
        split
        · rfl
        · split
          · split
            · rfl
            · exact ih m _ _ (by omega) (by omega)
          · cases h : s.advance with
            | mk o s' =>
              cases o with
              | none => rfl
              | some c =>
                have := advance_some_lt h
                exact ih m _ _ (by omega) (by omega)

theorem matchMarker_chars_le (m : Text) (s : St) : (matchMarker m s).2.2.chars.length ≤ s.chars.length :=
  (reach_matchMarker m (Reach.refl (Q := True) (a := s))).chars_suffix.length_le

theorem matchMarker_false_lt (m : Text) (s : St) (h : (matchMarker m s).2.1 = false) :
    (matchMarker m s).2.2.chars.length < s.chars.length := by
  induction m generalizing s with
  | nil => simp [matchMarker] at h
  | cons c r ih =>
    unfold matchMarker at h ⊢
    cases ha : s.advance with
    | mk o s' =>
      cases o with
      | none =>
        simp only [ha] at h ⊢
        have h1 := ih s' h
        have h2 := advance_none_chars ha
        simp [h2] at h1
      | some d =>
        have hlt := advance_some_lt ha
        simp only [ha] at h ⊢
        split at h
        · rename_i hd
          simp only [hd, if_true]
          have := ih s' h
          omega
        · rename_i hd
          simp only [hd, if_false]
          exact hlt

theorem hereDocLoop_fuel (mk : Text) (n m : Nat) (hd l : Text) (b : Bool) (s : St) (hn : s.chars.length < n)
    (hm : s.chars.length < m) : hereDocLoop mk n hd l b s = hereDocLoop mk m hd l b s := by
  induction n generalizing m hd l b s with
  | zero => omega
  | succ n ih =>
    cases m with
    | zero => omega
    | succ m =>
      unfold hereDocLoop
      cases hp : s.peek with
      | none => rfl
      | some c =>
        have hne : s.chars ≠ [] := by
          obtain ⟨r, hr⟩ := peek_eq_some hp; simp [hr]
        have h1 := adv_chars_length_lt s hne
        simp only
        split
        · exact ih m _ _ _ _ (by omega) (by omega)
        · split
          · exact ih m _ _ _ _ (by omega) (by omega)
          · have hf := matchMarker_false_lt mk s
            cases hmm : matchMarker mk s with
            | mk part x =>
              obtain ⟨ok, s'⟩ := x
              cases ok with
              | true => rfl
              | false =>
                have := hf (by rw [hmm])
                rw [hmm] at this
                have hlt : s'.chars.length < s.chars.length := this
                exact ih m _ _ _ _ (by omega) (by omega)

/-! ## Position invariant -/

/-- `s` has read the prefix `pre` of the text. -/
def AtPrefix (t : Text) (s : St) (pre : Text) : Prop :=
  t = pre ++ s.chars ∧ (s.line, s.col) = endPos pre

theorem push_pos (s : St) (t : TT) : (s.push t).line = s.line ∧ (s.push t).col = s.col := by
  unfold St.push; split <;> exact ⟨rfl, rfl⟩

theorem push_start (s : St) (t : TT) : (s.push t).sLine = s.sLine ∧ (s.push t).sCol = s.sCol := by
  unfold St.push; split <;> exact ⟨rfl, rfl⟩

theorem takeWhile_cr_append (t : Text) : t.takeWhile (· = '\r') ++ dropCr t = t := List.takeWhile_append_dropWhile ..

theorem adv_atPrefix {t : Text} {s : St} {pre : Text} (h : AtPrefix t s pre) : ∃ pre', AtPrefix t s.adv pre' := by
  obtain ⟨h1, h2⟩ := h
  have hcr := takeWhile_cr_append s.chars
  have hall : ∀ c ∈ s.chars.takeWhile (· = '\r'), c = '\r' := by
    intro c hc; simpa using List.all_eq_true.mp (List.all_takeWhile (p := (· = '\r')) (l := s.chars)) c hc
  rw [adv_eq]
  split
  · rename_i hd
    refine ⟨pre ++ s.chars.takeWhile (· = '\r'), ?_, ?_⟩
    · rw [hd] at hcr
      rw [h1]
      conv => lhs; rw [← hcr]
      simp
    · simp only
      rw [h2, endPos_append_crs _ _ hall]
  · rename_i c r hd
    refine ⟨pre ++ s.chars.takeWhile (· = '\r') ++ [c], ?_, ?_⟩
    · rw [readOne_chars]
      rw [hd] at hcr
      rw [h1]
      conv => lhs; rw [← hcr]
      simp
    · have he := endPos_append_crs pre _ hall
      have hl : endLine (pre ++ s.chars.takeWhile (· = '\r')) = s.line := by
        have := congrArg Prod.fst (he.trans h2.symm); exact this
      have hc' : endCol (pre ++ s.chars.takeWhile (· = '\r')) = s.col := by
        have := congrArg Prod.snd (he.trans h2.symm); exact this
      unfold readOne
      by_cases hnl : c = '\n'
      · subst hnl
        rw [endPos_snoc_nl, hl]
        simp
      · rw [endPos_snoc _ _ hnl (dropCr_head_ne hd), hl, hc']
        simp [hnl]

theorem prim_atPrefix {t : Text} {s s' : St} (h : Prim True s s') (hp : ∃ pre, AtPrefix t s pre) :
    ∃ pre, AtPrefix t s' pre := by
  obtain ⟨pre, h1, h2⟩ := hp
  cases h with
  | adv => exact adv_atPrefix ⟨h1, h2⟩
  | push => exact ⟨pre, by rw [push_chars]; exact h1, by rw [(push_pos ..).1, (push_pos ..).2]; exact h2⟩
  | named => exact ⟨pre, h1, h2⟩
  | enter => exact ⟨pre, h1, h2⟩
  | leave => exact ⟨pre, h1, h2⟩
  | cast => exact ⟨pre, h1, h2⟩
  | yieldFrom => exact ⟨pre, by rw [push_chars]; exact h1, by rw [(push_pos ..).1, (push_pos ..).2]; exact h2⟩

/-! ## C02: the document range -/

/-- **C02.** After a successful scan the document range starts at `(0, 0)` and ends at the position of the end of the
text (as `(column, line)`). -/
theorem C02_document_range (U : Unicode) (t : Text) (s : St) (h : scan U t = .ok s) :
    documentRange s = ((0, 0), (endCol t, endLine t)) := by
  have hp : ∃ pre, AtPrefix t s pre := by
    refine scan_ok_induct U (fun s => ∃ pre, AtPrefix t s pre) t s ⟨[], rfl, rfl⟩ ?_ ?_ ?_ h
    · intro s hs; exact hs
    · intro s s' hs hprim; exact prim_atPrefix hprim hs
    · rintro s ⟨pre, h1, h2⟩ _
      exact ⟨pre, by rw [push_chars]; exact h1, by rw [(push_pos ..).1, (push_pos ..).2]; exact h2⟩
  obtain ⟨pre, h1, h2⟩ := hp
  have hc := scan_ok_chars U t s h
  rw [hc, List.append_nil] at h1
  subst h1
  unfold documentRange
  have e1 : s.line = endLine t := congrArg Prod.fst h2
  have e2 : s.col = endCol t := congrArg Prod.snd h2
  rw [e1, e2]

example : ∃ s, scan Unicode.ascii c!"<?php\r\n$a = 'x\ny';\r\n  " = .ok s ∧ documentRange s = ((0, 0), (2, 3)) :=
  ⟨_, rfl, rfl⟩

/-! ## C03: token positions -/

theorem endPos_mono (a b : Text) : posLe (endPos a) (endPos (a ++ b)) := by
  induction b generalizing a with
  | nil => simp [posLe_refl]
  | cons c r ih =>
    have : a ++ c :: r = (a ++ [c]) ++ r := by simp
    rw [this]
    refine posLe_trans ?_ (ih (a ++ [c]))
    by_cases h1 : c = '\n'
    · subst h1; rw [endPos_snoc_nl]; left; simp [endPos]
    · by_cases h2 : c = '\r'
      · subst h2; rw [endPos_snoc_cr]; exact posLe_refl _
      · rw [endPos_snoc _ _ h1 h2]; right; simp [endPos]

/-- The invariant behind C03: tokens (newest first) start at ends of prefixes of the text, in descending order, and not
behind the start of the current token. -/
structure PosInv (t : Text) (s : St) : Prop where
  pre : ∃ pre, AtPrefix t s pre
  start : ∃ p q, t = p ++ q ∧ (s.sLine, s.sCol) = endPos p ∧ s.chars <:+ q
  le : ∀ k ∈ s.toks, posLe (startPos k) (s.sLine, s.sCol)
  sorted : (s.toks.map startPos).Pairwise (fun a b => posLe b a)
  real : ∀ k ∈ s.toks, ∃ p q, t = p ++ q ∧ startPos k = endPos p

theorem PosInv.push {t : Text} {s : St} (h : PosInv t s) (k : TT) : PosInv t (s.push k) := by
  unfold St.push
  split
  · exact h
  · refine ⟨h.pre, h.start, ?_, ?_, ?_⟩
    · intro x hx
      rcases List.mem_cons.mp hx with rfl | hx
      · exact posLe_refl _
      · exact h.le x hx
    · simp only [List.map_cons, List.pairwise_cons]
      refine ⟨?_, h.sorted⟩
      intro b hb
      obtain ⟨x, hx, rfl⟩ := List.mem_map.mp hb
      exact h.le x hx
    · intro x hx
      rcases List.mem_cons.mp hx with rfl | hx
      · obtain ⟨p, q, h1, h2, _⟩ := h.start
        exact ⟨p, q, h1, h2⟩
      · exact h.real x hx

theorem PosInv.drop {t : Text} {s : St} (h : PosInv t s) {y : Token} {rest : List Token} (hs : s.toks = y :: rest) :
    PosInv t { s with toks := rest } := by
  obtain ⟨h1, h2, h3, h4, h5⟩ := h
  refine ⟨h1, h2, ?_, ?_, ?_⟩
  · intro x hx; exact h3 x (by rw [hs]; exact List.mem_cons_of_mem _ hx)
  · rw [hs] at h4; exact (List.pairwise_cons.mp h4).2
  · intro x hx; exact h5 x (by rw [hs]; exact List.mem_cons_of_mem _ hx)

theorem PosInv.prim {t : Text} {s s' : St} (h : PosInv t s) (hp : Prim True s s') : PosInv t s' := by
  have hpre := prim_atPrefix hp h.pre
  cases hp with
  | adv =>
    have hst : s.adv.sLine = s.sLine ∧ s.adv.sCol = s.sCol := by
      rw [adv_eq]; split
      · exact ⟨rfl, rfl⟩
      · unfold readOne; split
        · simp [push_start]
        · exact ⟨rfl, rfl⟩
    have key : ∀ s1 : St, PosInv t s1 → (∃ pre, AtPrefix t s.adv pre) → s.adv.toks = s1.toks → s1.sLine = s.sLine →
        s1.sCol = s.sCol → PosInv t s.adv := by
      intro s1 hs1 hpre ht h1 h2
      refine ⟨hpre, ?_, ?_, ?_, ?_⟩
      · obtain ⟨p, q, a, b, c⟩ := h.start
        exact ⟨p, q, a, by rw [hst.1, hst.2]; exact b, (adv_chars_suffix s).trans c⟩
      · rw [ht, hst.1, hst.2, ← h1, ← h2]; exact hs1.le
      · rw [ht]; exact hs1.sorted
      · rw [ht]; exact hs1.real
    by_cases hnl : ∃ r, dropCr s.chars = '\n' :: r
    · obtain ⟨r, hr⟩ := hnl
      refine key (s.push .linebreak) (h.push _) hpre ?_ (push_start ..).1 (push_start ..).2
      rw [adv_eq, hr]; simp [readOne]
    · refine key s h hpre ?_ rfl rfl
      rw [adv_eq]
      split
      · rfl
      · rename_i c r hr
        unfold readOne
        split
        · rename_i hc; subst hc; exact absurd ⟨r, hr⟩ hnl
        · rfl
  | push t' => exact h.push t'
  | named t' l =>
    refine ⟨hpre, h.start, ?_, ?_, ?_⟩
    · intro x hx
      rcases List.mem_cons.mp hx with rfl | hx
      · exact posLe_refl _
      · exact h.le x hx
    · show ((Token.named t' s.sLine s.sCol s.toks.length l :: s.toks).map startPos).Pairwise _
      simp only [List.map_cons, List.pairwise_cons]
      refine ⟨?_, h.sorted⟩
      intro b hb
      obtain ⟨x, hx, rfl⟩ := List.mem_map.mp hb
      exact h.le x hx
    · intro x hx
      rcases List.mem_cons.mp hx with rfl | hx
      · obtain ⟨p, q, h1, h2, _⟩ := h.start
        exact ⟨p, q, h1, h2⟩
      · exact h.real x hx
  | enter => exact ⟨hpre, h.start, h.le, h.sorted, h.real⟩
  | leave => exact ⟨hpre, h.start, h.le, h.sorted, h.real⟩
  | cast q p rest k off hs hpt hq ho =>
    have hd := (h.drop hs).drop (y := p) (rest := rest) rfl
    have hpm : p ∈ s.toks := by rw [hs]; simp
    refine ⟨hpre, h.start, ?_, ?_, ?_⟩
    · intro x hx
      rcases List.mem_cons.mp hx with rfl | hx
      · exact h.le p hpm
      · exact hd.le x hx
    · simp only [List.map_cons, List.pairwise_cons]
      refine ⟨?_, hd.sorted⟩
      intro b hb
      have h4 := h.sorted
      rw [hs] at h4
      simp only [List.map_cons, List.pairwise_cons] at h4
      exact h4.2.1 b hb
    · intro x hx
      rcases List.mem_cons.mp hx with rfl | hx
      · exact h.real p hpm
      · exact hd.real x hx
  | yieldFrom y rest hs hy => exact (h.drop hs).push _

theorem PosInv.mark {t : Text} {s : St} (h : PosInv t s) : PosInv t s.mark := by
  obtain ⟨pre, hp1, hp2⟩ := h.pre
  refine ⟨⟨pre, hp1, hp2⟩, ⟨pre, s.chars, hp1, hp2, List.suffix_rfl⟩, ?_, h.sorted, h.real⟩
  intro k hk
  refine posLe_trans (h.le k hk) ?_
  obtain ⟨p, q, h1, h2, h3⟩ := h.start
  rw [h2]
  show posLe (endPos p) (s.line, s.col)
  rw [hp2]
  -- `p` is a prefix of `pre`
  obtain ⟨w, hw⟩ := h3
  have : t = p ++ w ++ s.chars := by rw [h1, ← hw]; simp
  have hpre : pre = p ++ w := by
    have := hp1.symm.trans this
    exact List.append_cancel_right this
  rw [hpre]
  exact endPos_mono _ _

theorem posInv_scan (U : Unicode) (t : Text) (s : St) (h : scan U t = .ok s) : PosInv t s := by
  refine scan_ok_induct U (PosInv t) t s ?_ (fun s hs => hs.mark) (fun s s' hs hp => hs.prim hp)
    (fun s hs _ => hs.push _) h
  exact ⟨⟨[], rfl, rfl⟩, ⟨[], t, rfl, rfl, List.suffix_rfl⟩, by simp [new], by simp [new], by simp [new]⟩

/-- **C03.** The tokens of a file start in text order: start positions are non-decreasing. -/
theorem C03_positions_sorted (U : Unicode) (t : Text) (s : St) (h : scan U t = .ok s) :
    s.tokens.Pairwise (fun a b => posLe (startPos a) (startPos b)) := by
  have hs := (posInv_scan U t s h).sorted
  rw [List.pairwise_map] at hs
  unfold St.tokens
  rw [List.pairwise_reverse]
  exact hs

/-- **C03.** Every token starts at a position inside of the document: there is a prefix of the text that ends exactly at
the start of the token; in particular it does not lie behind the end of the document. -/
theorem C03_positions_in_text (U : Unicode) (t : Text) (s : St) (h : scan U t = .ok s) :
    ∀ k ∈ s.tokens, (∃ p q, t = p ++ q ∧ startPos k = endPos p) ∧ posLe (startPos k) (endPos t) := by
  intro k hk
  have hk' : k ∈ s.toks := by simpa [St.tokens] using hk
  obtain ⟨p, q, h1, h2⟩ := (posInv_scan U t s h).real k hk'
  refine ⟨⟨p, q, h1, h2⟩, ?_⟩
  rw [h2, h1]
  exact endPos_mono _ _

example : ∃ s, scan Unicode.ascii c!"<?php (int) $a;\n yield from $b;" = .ok s ∧
    s.tokens.map startPos = [(0, 0), (0, 6), (0, 12), (0, 14), (0, 15), (1, 7), (1, 12), (1, 14), (1, 15)] :=
  ⟨_, rfl, rfl⟩

/-! ## C10: offsets -/

/-- Each token (newest first) carries the number of tokens before it. -/
def OffInv : List Token → Prop
  | [] => True
  | k :: r => k.offset = some r.length ∧ OffInv r

theorem offInv_push {s : St} (h : OffInv s.toks) (t : TT) : OffInv (s.push t).toks := by
  unfold St.push; split
  · exact h
  · exact ⟨rfl, h⟩

theorem offInv_prim {s s' : St} (h : OffInv s.toks) (hp : Prim True s s') : OffInv s'.toks := by
  cases hp with
  | adv =>
    rw [adv_eq]; split
    · exact h
    · unfold readOne; split
      · exact offInv_push h _
      · exact h
  | push t => exact offInv_push h t
  | named => exact ⟨rfl, h⟩
  | enter => exact h
  | leave => exact h
  | cast q p rest k off hs hpt hq ho =>
    rw [hs] at h
    exact ⟨by rw [ho]; rfl, h.2.2⟩
  | yieldFrom y rest hs hy =>
    rw [hs] at h
    exact offInv_push (s := { s with toks := rest }) h.2 _

theorem offInv_get (l : List Token) (h : OffInv l) (i : Nat) (hi : i < l.reverse.length) :
    (l.reverse[i]).offset = some i := by
  induction l with
  | nil => simp at hi
  | cons k r ih =>
    simp only [List.reverse_cons]
    by_cases hlt : i < r.reverse.length
    · rw [List.getElem_append_left hlt]
      exact ih h.2 hlt
    · have hi' : i = r.reverse.length := by simp at hi hlt ⊢; omega
      subst hi'
      rw [List.getElem_append_right (by simp)]
      simpa using h.1

/-- **C10.** The offset recorded in each token is its index in the token list. -/
theorem C10_offset_is_index (U : Unicode) (t : Text) (s : St) (h : scan U t = .ok s) (i : Nat)
    (hi : i < s.tokens.length) : (s.tokens[i]).offset = some i := by
  have hinv : OffInv s.toks :=
    scan_ok_induct U (fun s => OffInv s.toks) t s trivial (fun _ hs => hs) (fun _ _ hs hp => offInv_prim hs hp)
      (fun _ hs _ => offInv_push hs _) h
  exact offInv_get s.toks hinv i hi

example : ∃ s, scan Unicode.ascii c!"<?php (int) $a; yield from $b;" = .ok s ∧ s.tokens.length = 8 ∧
    s.tokens.map (·.offset) = [some 0, some 1, some 2, some 3, some 4, some 5, some 6, some 7] :=
  ⟨_, rfl, rfl, rfl⟩

/-! ## Token shapes: which tokens can occur, and when printing or measuring them is safe -/

/-- Shape of a token the scanner creates. -/
def ShapeOk (k : Token) : Prop :=
  match k.label with
  | none => k.t.display.isSome = true
  | some l => labelled k.t = true ∧ (bare k.t = true → l ≠ [])

theorem shape_push {s : St} (h : ∀ k ∈ s.toks, ShapeOk k) {t : TT} (ht : t.display.isSome = true) :
    ∀ k ∈ (s.push t).toks, ShapeOk k := by
  unfold St.push; split
  · exact h
  · intro k hk
    rcases List.mem_cons.mp hk with rfl | hk
    · exact ht
    · exact h k hk

theorem mapCast_display {a b : TT} (h : mapCast a = some b) : b.display.isSome = true := by
  unfold mapCast at h
  split at h <;> cases h <;> rfl

theorem shape_prim {s s' : St} (h : ∀ k ∈ s.toks, ShapeOk k) (hp : Prim True s s') : ∀ k ∈ s'.toks, ShapeOk k := by
  cases hp with
  | adv =>
    rw [adv_eq]; split
    · exact h
    · unfold readOne; split
      · exact shape_push h rfl
      · exact h
  | push t ht => exact shape_push h ht.1
  | named t l h1 h2 =>
    intro k hk
    rcases List.mem_cons.mp hk with rfl | hk
    · exact ⟨h1, h2⟩
    · exact h k hk
  | enter => exact h
  | leave => exact h
  | cast q p rest k off hs hpt hq ho =>
    intro x hx
    rcases List.mem_cons.mp hx with rfl | hx
    · exact mapCast_display hq
    · exact h x (by rw [hs]; simp [hx])
  | yieldFrom y rest hs hy =>
    refine shape_push (s := { s with toks := rest }) ?_ rfl
    intro x hx; exact h x (by rw [hs]; simp [hx])

theorem scan_shape (U : Unicode) (t : Text) (s : St) (h : scan U t = .ok s) : ∀ k ∈ s.tokens, ShapeOk k := by
  have := scan_ok_induct U (fun s => ∀ k ∈ s.toks, ShapeOk k) t s (by simp [new]) (fun _ hs => hs)
    (fun _ _ hs hp => shape_prim hs hp) (fun _ hs _ => shape_push hs rfl) h
  intro k hk; exact this k (by simpa [St.tokens] using hk)

theorem rustLines_ne_nil (t : Text) (h : t ≠ []) : rustLines t ≠ [] := by
  unfold rustLines
  have hs : splitNl t ≠ [] := by
    cases t with
    | nil => exact absurd rfl h
    | cons c r => unfold splitNl; split <;> (try split) <;> simp
  dsimp only
  cases hl : (splitNl t).getLast? with
  | none => exact absurd (List.getLast?_eq_none_iff.mp hl) hs
  | some l =>
    cases l with
    | cons a b => simp
    | nil =>
      -- the last piece is empty, so there is a newline and hence at least two pieces
      have : (splitNl t).dropLast ≠ [] := by
        cases t with
        | nil => exact absurd rfl h
        | cons c r =>
          intro hd
          unfold splitNl at hl hd
          split at hl
          · rename_i hc
            simp only [hc, if_true] at hd
            have : splitNl r ≠ [] := by
              cases r with
              | nil => simp [splitNl]
              | cons c r => unfold splitNl; split <;> (try split) <;> simp
            cases hr : splitNl r with
            | nil => exact this hr
            | cons x y => rw [hr] at hd; simp at hd
          · rename_i hc
            simp only [hc, if_false] at hd
            cases hr : splitNl r with
            | nil => rw [hr] at hl; simp at hl
            | cons x y =>
              rw [hr] at hl hd
              simp only at hl hd
              cases y with
              | nil => simp at hl
              | cons y1 y2 => simp at hd
      intro h0
      apply this
      have := congrArg List.length h0
      simp at this
      apply List.eq_nil_of_length_eq_zero
      simp; omega

/-- **C11 (first half).** Printing a scanned token never panics, and computing its end panics exactly for a heredoc end
token with an empty marker. -/
theorem C11_end_panics_only_for_empty_heredoc_marker (U : Unicode) (t : Text) (s : St) (h : scan U t = .ok s) :
    ∀ k ∈ s.tokens, k.display.isSome = true ∧ (k.end = none ↔ k.t = .hereDocEnd ∧ k.label = some []) := by
  intro k hk
  have hsh := scan_shape U t s h k hk
  unfold ShapeOk at hsh
  cases hl : k.label with
  | none =>
    rw [hl] at hsh
    have hd : k.display = k.t.display := by unfold Token.display; rw [hl]
    refine ⟨by rw [hd]; exact hsh, ?_⟩
    obtain ⟨me, hme⟩ := Option.isSome_iff_exists.mp hsh
    simp [Token.end, hd, hme, hl]
  | some l =>
    rw [hl] at hsh
    obtain ⟨h1, h2⟩ := hsh
    have hd : ∃ me, k.display = some me ∧ (me = [] ↔ k.t = .hereDocEnd ∧ l = []) := by
      unfold Token.display
      rw [hl]
      cases ht : k.t <;> rw [ht] at h1 h2 <;> simp [labelled] at h1 <;> simp [bare] at h2 ⊢
      all_goals exact h2
    obtain ⟨me, hme, hmt⟩ := hd
    refine ⟨by rw [hme]; rfl, ?_⟩
    have hend : k.end = none ↔ me = [] := by
      unfold Token.end
      rw [hme, hl]
      simp only [Option.isSome_some, if_true, Option.bind_eq_bind, Option.bind_some]
      constructor
      · intro hh
        split at hh
        · cases hh
        · cases hlast : (rustLines me).getLast? with
          | some x => rw [hlast] at hh; cases hh
          | none =>
            have := List.getLast?_eq_none_iff.mp hlast
            apply Classical.byContradiction
            intro hne; exact rustLines_ne_nil me hne this
      · rintro rfl; rfl
    rw [hend, hmt]
    simp

/-- **C11, violated.** The end of a token of an error-free scan can panic: a heredoc with an empty marker produces an
end token with an empty label. -/
theorem C11_violation_end_panics :
    ∃ s, scan Unicode.ascii c!"<?php <<<\n x" = .ok s ∧ ∃ k ∈ s.tokens, k.end = none :=
  ⟨_, rfl, Token.named .hereDocEnd 0 6 4 [], by decide, by decide⟩

/-! ## Heredoc markers are closed -/

/-- Every heredoc start marker has an end marker behind it (the list is reversed, as in the scanner's state). -/
def Closed (l : List Token) : Prop :=
  ∀ a k b, l = a ++ k :: b → k.t = .hereDocStart → ∃ e ∈ a, e.t = .hereDocEnd

theorem closed_nil : Closed [] := by intro a k b h; simp at h

theorem closed_cons {x : Token} {l : List Token} (h : Closed l) (hx : x.t ≠ .hereDocStart) : Closed (x :: l) := by
  intro a k b e hk
  cases a with
  | nil => cases e; exact absurd hk hx
  | cons y a =>
    cases e
    obtain ⟨e, he, ht⟩ := h a k b rfl hk
    exact ⟨e, List.mem_cons_of_mem _ he, ht⟩

theorem closed_tail {x : Token} {l : List Token} (h : Closed (x :: l)) (hx : x.t ≠ .hereDocEnd) : Closed l := by
  intro a k b e hk
  subst e
  obtain ⟨e, he, ht⟩ := h (x :: a) k b rfl hk
  rcases List.mem_cons.1 he with rfl | he
  · exact absurd ht hx
  · exact ⟨e, he, ht⟩

theorem closed_end {x : Token} (l : List Token) (hx : x.t = .hereDocEnd) : Closed (x :: l) := by
  intro a k b e hk
  cases a with
  | nil => cases e; rw [hx] at hk; cases hk
  | cons y a => cases e; exact ⟨_, List.mem_cons_self .., hx⟩

theorem closed_push {s : St} {t : TT} (h : Closed s.toks) (ht : t ≠ .hereDocStart) : Closed (s.push t).toks := by
  unfold St.push; split
  · exact h
  · exact closed_cons h ht

theorem closed_prim {s s' : St} (h : Closed s.toks) (hp : Prim False s s') : Closed s'.toks := by
  cases hp with
  | adv =>
    rw [adv_eq]; split
    · exact h
    · unfold readOne; split
      · exact closed_push h (by decide)
      · exact h
  | push t ht => exact closed_push h (by rintro rfl; cases ht.1)
  | named t l h1 h2 h3 =>
    rcases h3 with h3 | h3
    · exact closed_cons h h3.2
    · exact absurd h3.1 id
  | enter => exact h
  | leave => exact h
  | cast q p rest k off hs hpt hq ho =>
    rw [hs] at h
    refine closed_cons (closed_tail (closed_tail h ?_) (by rw [hpt]; decide)) ?_
    · intro hh; rw [hh] at hq; cases hq
    · intro hh
      have : k = .hereDocStart := hh
      rw [this] at hq
      unfold mapCast at hq
      split at hq <;> cases hq
  | yieldFrom y rest hs hy =>
    rw [hs] at h
    exact closed_push (s := { s with toks := rest }) (closed_tail h (by rw [hy]; decide)) (by decide)

theorem closed_reach {s s' : St} (h : Closed s.toks) (hr : Reach False s s') : Closed s'.toks := by
  induction hr with
  | refl => exact h
  | tail _ p ih => exact closed_prim ih p

theorem closed_tokenizeHereDoc (U : Unicode) {s s' : St} (e : tokenizeHereDoc U s = .ok s') : Closed s'.toks := by
  unfold tokenizeHereDoc at e
  dsimp only at e
  split at e
  · cases e
  · cases e; exact closed_end _ rfl

theorem closed_step (U : Unicode) {s s' : St} (h : Closed s.toks) (e : step U s = .cont s') : Closed s'.toks := by
  unfold step at e
  split at e
  · cases e
  · rename_i c s1 h1
    have hs1 : s1 = s.mark.adv := by unfold St.adv; rw [h1]
    have hc1 : Closed s1.toks := by rw [hs1]; exact closed_prim (s := s.mark) h (.adv _)
    split at e
    · cases e; exact hc1
    · rename_i hh
      by_cases hlt : c = '<'
      · subst hlt
        rw [show scanChar U '<' s1 = scanSmaller U s1 by simp [scanChar]] at e
        unfold scanSmaller at e
        dsimp only at e
        repeat' split at e
        all_goals first
          | (rename_i s2 h2; cases e; exact closed_tokenizeHereDoc U h2)
          | (cases e; refine closed_reach hc1 ?_; reach; done)
          | (cases e; done)
      · refine closed_reach hc1 (reach_scanChar U c .refl (fun hc => absurd hc hlt) (.inr ?_) e)
        cases hctx : s1.ctx with
        | inScript => rfl
        | outScript => exact absurd ⟨hctx, hlt⟩ hh

/-- In the result of a scan every heredoc start marker is followed by an end marker. -/
theorem scan_closed (U : Unicode) (t : Text) (s : St) (h : scan U t = .ok s) : Closed s.toks :=
  scan_ok_step_induct U (fun s => Closed s.toks) t s closed_nil (fun _ _ hs e => closed_step U hs e)
    (fun s hs _ => closed_push (closed_prim (s := s.mark) hs (.adv _)) (by decide)) h

end PhpLs.Scanner
