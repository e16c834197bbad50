import Verif.Props.ScannerText

/-!
# C12: every heredoc

Together with `C12_heredoc` this decides for every text without carriage returns how a heredoc is read.
-/

namespace PhpLs.Scanner

/-- A text has a first line feed, or none. -/
theorem first_break (z : Text) : '\n' ∉ z ∨ ∃ a y, z = a ++ '\n' :: y ∧ '\n' ∉ a := by
  induction z with
  | nil => exact .inl (by simp)
  | cons c z ih =>
    by_cases hc : c = '\n'
    · exact .inr ⟨[], z, by simp [hc], by simp⟩
    · rcases ih with h | ⟨a, y, h1, h2⟩
      · exact .inl (by simp [h, Ne.symm hc])
      · exact .inr ⟨c :: a, y, by simp [h1], by simp [h2, Ne.symm hc]⟩

/-- How far two texts agree. -/
theorem common (m r : Text) : (∃ x, r = m ++ x) ∨ ∃ p e q, m = p ++ e :: q ∧ (r = p ∨ ∃ d y, d ≠ e ∧ r = p ++ d :: y) := by
  induction m generalizing r with
  | nil => exact .inl ⟨r, rfl⟩
  | cons e q ih =>
    cases r with
    | nil => exact .inr ⟨[], e, q, rfl, .inl rfl⟩
    | cons d y =>
      by_cases hd : d = e
      · subst hd
        rcases ih y with ⟨x, h⟩ | ⟨p, e', q', h1, h2⟩
        · exact .inl ⟨x, by simp [h]⟩
        · refine .inr ⟨d :: p, e', q', by simp [h1], ?_⟩
          rcases h2 with h2 | ⟨d', y', h3, h4⟩
          · exact .inl (by simp [h2])
          · exact .inr ⟨d', y', h3, by simp [h4]⟩
      · exact .inr ⟨[], e, q, rfl, .inr ⟨d, y, hd, rfl⟩⟩

/-- The last line, if it cannot be the terminator any more. -/
theorem hereDoc_restEof (m y : Text) (hy : '\n' ∉ y ∧ '\r' ∉ y) (n : Nat) (hn : y.length ≤ n) (hd pre : Text) (s : St)
    (hs : s.chars = y) (hc : s.ctx = .inScript) : (hereDocLoop m n hd pre false s).2.2.chars = [] := by
  induction y generalizing n pre s with
  | nil =>
    cases n with
    | zero => exact hs
    | succ n =>
      have hp : s.peek = none := by unfold St.peek; rw [hs]; rfl
      unfold hereDocLoop
      simp only [hp]
      exact hs
  | cons c y ih =>
    obtain ⟨n, rfl⟩ : ∃ k, n = k + 1 := ⟨n - 1, by simp at hn; omega⟩
    have hp : s.peek = some c := by unfold St.peek; rw [hs]; rfl
    have h1 : c ≠ '\n' := fun h => hy.1 (by simp [h])
    have h2 : c ≠ '\r' := fun h => hy.2 (by simp [h])
    unfold hereDocLoop
    simp only [hp, h1, if_false, true_or, if_true]
    rw [adv_text s c y hs h2 hc]
    exact ih ⟨fun h => hy.1 (by simp [h]), fun h => hy.2 (by simp [h])⟩ n (by simpa using hn) _ _ rfl
      (by simp [(readText_fields s [c]).1, hc])

/-- The marker is cut off by the end of the text. -/
theorem matchMarker_eof (p q : Text) (hp : '\r' ∉ p) (s : St) (hs : s.chars = p) (hc : s.ctx = .inScript) :
    (matchMarker (p ++ q) s).2.1 = true ∧ (matchMarker (p ++ q) s).2.2.chars = [] := by
  induction p generalizing s with
  | nil =>
    rw [List.nil_append]
    clear hp
    induction q generalizing s with
    | nil => exact ⟨rfl, hs⟩
    | cons e q ih =>
      have ha : s.advance = (none, s.advance.2) ∧ s.advance.2.chars = [] ∧ s.advance.2.ctx = .inScript := by
        unfold St.advance
        rw [hs]
        exact ⟨rfl, rfl, hc⟩
      unfold matchMarker
      rw [ha.1]
      exact ih _ ha.2.1 ha.2.2
  | cons c p ih =>
    change (matchMarker (c :: (p ++ q)) s).2.1 = true ∧ (matchMarker (c :: (p ++ q)) s).2.2.chars = []
    unfold matchMarker
    rw [advance_text s c p hs (fun h => hp (by simp [h])) hc]
    dsimp only
    rw [if_pos rfl]
    exact ih (fun h => hp (by simp [h])) _ rfl (by simp [(readText_fields s [c]).1, hc])

/-- The rest of a line in which the marker failed to match: it is finished, or the text ends. -/
theorem hereDoc_bent_eof {b p q y : Text} {c d e : Char} (hb : ∀ x ∈ b, x = ' ' ∨ x = '\t') (hd : d ≠ e) (hdr : d ≠ '\r')
    (hp : ∀ x ∈ c :: p, x ≠ '\n' ∧ x ≠ '\r' ∧ x ≠ ' ' ∧ x ≠ '\t') (hy : '\n' ∉ y ∧ '\r' ∉ y) (n : Nat) (hn : y.length ≤ n) (hd0 : Text)
    (s : St) (hs : s.chars = b ++ c :: p ++ d :: y) (hc : s.ctx = .inScript) :
    (hereDocLoop (c :: p ++ e :: q) (n + 1 + b.length) hd0 [] true s).2.2.chars = [] := by
  rw [hereDoc_blanks _ b (c :: p ++ d :: y) hb (n + 1) hd0 [] s (by rw [hs]; simp) hc]
  unfold hereDocLoop
  have hpk : ({ readText s b with chars := c :: p ++ d :: y } : St).peek = some c := rfl
  obtain ⟨h1, h2, h3, h4⟩ := hp c (by simp)
  have hmm := matchMarker_fails (p := c :: p) (q := q) (e := e) (d := d) y (fun h => (hp _ h).2.1 rfl) hd hdr
    { readText s b with chars := c :: p ++ d :: y } (by simp) ((readText_fields s b).1.trans hc)
  rw [readText_set] at hmm
  simp only [hpk, h1, h3, h4, if_false, reduceCtorEq, or_self, hmm]
  exact hereDoc_restEof _ y hy n hn _ _ _ rfl ((readText_fields s (b ++ (c :: p ++ [d]))).1.trans hc)

/-- What is behind the opening line has a terminator, as the code finds it, or all of it is read. -/
theorem hereDoc_total {m : Text} (hm0 : m ≠ []) (hm : ∀ x ∈ m, x ≠ '\n' ∧ x ≠ '\r' ∧ x ≠ ' ' ∧ x ≠ '\t') (z : Text) (hz : '\r' ∉ z) (n : Nat)
    (hn : z.length ≤ n) (hd : Text) (s : St) (hs : s.chars = z) (hc : s.ctx = .inScript) :
    (∃ ls t b x, (∀ c ∈ b, c = ' ' ∨ c = '\t') ∧ Reads m ls t ∧ z = joinLines ls ++ (b ++ (m ++ x))) ∨
      (hereDocLoop m n hd [] true s).2.2.chars = [] := by
  induction hk : z.length using Nat.strongRecOn generalizing z n hd s with
  | _ k ih =>
  subst hk
  obtain ⟨b, r, hbr, hb, hr⟩ : ∃ b r, z = b ++ r ∧ (∀ c ∈ b, c = ' ' ∨ c = '\t') ∧
      ∀ c r', r = c :: r' → c ≠ ' ' ∧ c ≠ '\t' := by
    refine ⟨z.takeWhile (fun c => c = ' ' || c = '\t'), z.dropWhile (fun c => c = ' ' || c = '\t'),
      (List.takeWhile_append_dropWhile ..).symm, ?_, ?_⟩
    · intro c hc
      have := List.all_eq_true.mp (List.all_takeWhile (p := fun c => decide (c = ' ') || decide (c = '\t')) (l := z)) c hc
      simpa using this
    · intro d r' e
      have := List.head?_dropWhile_not (p := fun c => decide (c = ' ') || decide (c = '\t')) (l := z)
      rw [e] at this
      simpa using this
  have hbn : '\n' ∉ b := fun h => by rcases hb _ h with h | h <;> cases h
  have hbr' : '\r' ∉ b := fun h => by rcases hb _ h with h | h <;> cases h
  have hdrop : z.dropWhile (fun c => c = ' ' || c = '\t') = r := by
    rw [hbr, List.dropWhile_append_of_pos (fun c hc => by simpa using hb c hc)]
    cases r with
    | nil => rfl
    | cons c r => exact List.dropWhile_cons_of_neg (by simpa using hr c r rfl)
  -- one more line in front of a decomposition of the rest
  have more : ∀ (l y : Text) (n' : Nat) (hd' : Text) (s' : St), z.length = l.length + 1 + y.length → '\r' ∉ y → y.length ≤ n' → s'.chars = y →
      s'.ctx = .inScript → (∃ ls t b x, (∀ c ∈ b, c = ' ' ∨ c = '\t') ∧ Reads m ls t ∧ y = joinLines ls ++ (b ++ (m ++ x))) ∨
      (hereDocLoop m n' hd' [] true s').2.2.chars = [] :=
    fun l y n' hd' s' h1 h2 h3 h4 h5 => ih y.length (by omega) y h2 n' h3 hd' s' h4 h5 rfl
  -- a line that is kept
  have keep : ∀ l y, BodyLine m l → z = l ++ '\n' :: y → (∃ ls t b x, (∀ c ∈ b, c = ' ' ∨ c = '\t') ∧ Reads m ls t ∧
      z = joinLines ls ++ (b ++ (m ++ x))) ∨ (hereDocLoop m n hd [] true s).2.2.chars = [] := by
    intro l y hl e
    have hlen : z.length = l.length + 1 + y.length := by rw [e]; simp; omega
    obtain ⟨k, rfl⟩ : ∃ k, n = k + (l.length + 1) := ⟨n - (l.length + 1), by omega⟩
    rw [hereDoc_line m l y hm0 hl k hd s (hs.trans e) hc]
    rcases more l y k (hd ++ (l ++ ['\n'])) { readText s (l ++ ['\n']) with chars := y } hlen (fun h => hz (by rw [e]; simp [h])) (by omega) rfl
      ((readText_fields s (l ++ ['\n'])).1.trans hc) with ⟨ls, t, b, x, h1, h2, h3⟩ | h
    · refine .inl ⟨l :: ls, _, b, x, h1, .plain hl h2, ?_⟩
      rw [e, h3]
      simp [joinLines]
    · exact .inr h
  cases r with
  | nil =>
    refine .inr ?_
    obtain ⟨k, rfl⟩ : ∃ k, n = k + b.length := ⟨n - b.length, by rw [hbr] at hn; simp at hn; omega⟩
    rw [hereDoc_blanks m b [] hb k hd [] s (by rw [hs, hbr]) hc]
    cases k with
    | zero => rfl
    | succ k => rfl
  | cons c r =>
    obtain ⟨hc1, hc2⟩ := hr c r rfl
    by_cases hcn : c = '\n'
    · subst hcn
      refine keep b r ⟨hbn, hbr', ?_⟩ hbr
      intro c h
      have : b.dropWhile (fun c => c = ' ' || c = '\t') = [] := by
        rw [← List.append_nil b, List.dropWhile_append_of_pos (fun c hc => by simpa using hb c hc)]
        rfl
      rw [this] at h
      cases h
    · have hcr : c ≠ '\r' := fun h => hz (by rw [hbr, h]; simp)
      rcases common m (c :: r) with ⟨x, h⟩ | ⟨p, e, q, h1, h2⟩
      · exact .inl ⟨[], [], b, x, hb, .nil, by rw [hbr, h]; rfl⟩
      · rcases h2 with h2 | ⟨d, y, hde, h2⟩
        · -- the text ends within the marker
          refine .inr ?_
          obtain ⟨k, rfl⟩ : ∃ k, n = k + 1 + b.length := ⟨n - 1 - b.length, by rw [hbr] at hn; simp at hn; omega⟩
          rw [hereDoc_blanks m b (c :: r) hb (k + 1) hd [] s (by rw [hs, hbr]) hc]
          unfold hereDocLoop
          have hpk : ({ readText s b with chars := c :: r } : St).peek = some c := rfl
          have hpm : ∀ x ∈ p, x ∈ m := fun x hx => by rw [h1]; simp [hx]
          obtain ⟨g1, g2⟩ := matchMarker_eof p (e :: q) (fun h => (hm _ (hpm _ h)).2.1 rfl) { readText s b with chars := c :: r } h2
            ((readText_fields s b).1.trans hc)
          rw [← h1] at g1 g2
          simp only [hpk, hcn, hc1, hc2, if_false, reduceCtorEq, or_self]
          generalize matchMarker m _ = mm at g1 g2 ⊢
          obtain ⟨u, v, w⟩ := mm
          cases g1
          exact g2
        · have hdr : d ≠ '\r' := fun h => hz (by rw [hbr, h2, h]; simp)
          cases p with
          | nil =>
            -- the first character differs
            cases h2
            rcases first_break r with hr1 | ⟨a, y, hr1, hr2⟩
            · refine .inr ?_
              obtain ⟨k, rfl⟩ : ∃ k, n = k + 1 + b.length := ⟨n - 1 - b.length, by rw [hbr] at hn; simp at hn; omega⟩
              rw [hereDoc_blanks m b (c :: r) hb (k + 1) hd [] s (by rw [hs, hbr]) hc]
              unfold hereDocLoop
              have hpk : ({ readText s b with chars := c :: r } : St).peek = some c := rfl
              have hmm := matchMarker_fails (p := []) (q := q) (e := e) (d := c) r (by simp) hde hcr { readText s b with chars := c :: r } rfl
                ((readText_fields s b).1.trans hc)
              rw [readText_set, ← h1] at hmm
              simp only [hpk, hcn, hc1, hc2, if_false, reduceCtorEq, or_self, hmm]
              refine hereDoc_restEof _ r ⟨hr1, fun h => hz (by rw [hbr]; simp [h])⟩ k ?_ _ _ _ rfl
                ((readText_fields s (b ++ ([] ++ [c]))).1.trans hc)
              rw [hbr] at hn
              simp at hn
              omega
            · refine keep (b ++ c :: a) y ⟨?_, ?_, ?_⟩ (by rw [hbr, hr1]; simp)
              · simp [hbn, hr2, Ne.symm hcn]
              · intro h
                refine hz ?_
                rw [hbr, hr1]
                simp only [List.mem_append, List.mem_cons] at h ⊢
                rcases h with h | h | h
                · exact .inl h
                · exact .inr (.inl h)
                · exact .inr (.inr (.inl h))
              · intro x hx
                rw [List.dropWhile_append_of_pos (fun c hc => by simpa using hb c hc),
                  List.dropWhile_cons_of_neg (by simp [hc1, hc2])] at hx
                cases hx
                rw [h1]
                intro h
                cases h
                exact hde rfl
          | cons c' p =>
            cases h2
            have hp : ∀ x ∈ c :: p, x ≠ '\n' ∧ x ≠ '\r' ∧ x ≠ ' ' ∧ x ≠ '\t' := fun x hx => hm x (by rw [h1]; exact List.mem_append_left _ hx)
            have hzy : '\r' ∉ y := fun h => hz (by rw [hbr]; simp [h])
            subst h1
            rcases first_break y with hy1 | ⟨a, y', hy1, hy2⟩
            · -- the text ends within the line behind the marker
              refine .inr ?_
              obtain ⟨k, rfl⟩ : ∃ k, n = k + 1 + b.length := ⟨n - 1 - b.length, by rw [hbr] at hn; simp at hn; omega⟩
              refine hereDoc_bent_eof hb hde hdr hp ⟨hy1, hzy⟩ k ?_ hd s (by rw [hs, hbr]; simp) hc
              rw [hbr] at hn
              simp at hn
              omega
            · have hzlen : z.length = (b ++ c :: p ++ d :: a).length + 1 + y'.length := by rw [hbr, hy1]; simp; omega
              obtain ⟨k, rfl⟩ : ∃ k, n = k + a.length + 1 + 1 + b.length := ⟨n - a.length - 2 - b.length, by simp at hzlen; omega⟩
              have ha : '\r' ∉ a := fun h => hzy (by rw [hy1]; simp [h])
              have hch : s.chars = b ++ c :: p ++ d :: a ++ '\n' :: y' := by rw [hs, hbr, hy1]; simp
              rw [hereDoc_bent y' hb hde hdr hp ⟨hy2, ha⟩ k hd s hch hc]
              rcases more (b ++ c :: p ++ d :: a) y' k (hd ++ (b ++ c :: c :: p ++ a ++ ['\n']))
                { readText s (b ++ c :: p ++ d :: a ++ ['\n']) with chars := y' } hzlen (fun h => hzy (by rw [hy1]; simp [h]))
                (by simp at hzlen; omega) rfl ((readText_fields s (b ++ c :: p ++ d :: a ++ ['\n'])).1.trans hc)
                with ⟨ls, t, b', x, g1, g2, g3⟩ | h
              · refine .inl ?_
                by_cases hdn : d = '\n'
                · subst hdn
                  refine ⟨(b ++ c :: p) :: a :: ls, _, b', x, g1, .joined hb rfl ⟨hy2, ha⟩ g2, ?_⟩
                  rw [hbr, hy1, g3]
                  simp [joinLines]
                · refine ⟨(b ++ c :: p ++ d :: a) :: ls, _, b', x, g1, .bent hb rfl hde ⟨?_, ?_⟩ g2, ?_⟩
                  · simp [hy2, Ne.symm hdn]
                  · simp [ha, Ne.symm hdr]
                  · rw [hbr, hy1, g3]
                    simp [joinLines]
              · exact .inr h

/-- The way from the opening of a heredoc to its body. -/
theorem hereDoc_enter (U : Unicode) (m w b0 z : Text) (hw : w ∈ markerForms m)
    (hm : ∀ c ∈ m, isIdChar U c = true) (hm0 : m ≠ []) (hb0 : ∀ c ∈ b0, c = ' ') (s : St) (hc : s.ctx = .inScript)
    (hs : s.chars = c!"<<<" ++ b0 ++ w ++ ['\n'] ++ z) :
    ∃ s1 s2 : St, s2.chars = '\n' :: z ∧ s2.ctx = .inScript ∧
      ((hereDocLoop m (s2.chars.length + 1) [] [] false s2).2.2.chars = [] → step U s = .err .unterminatedHeredoc s1) := by
  have hbody : s.chars = '<' :: '<' :: '<' :: (b0 ++ (w ++ '\n' :: z)) := by rw [hs]; simp
  rw [step_script U s '<' _ hbody (by decide) (by decide) hc]
  obtain ⟨s1, hs1⟩ : ∃ s1 : St, s1 = { s with sLine := s.line, sCol := s.col, col := s.col + 3, chars := b0 ++ (w ++ '\n' :: z) } :=
    ⟨_, rfl⟩
  have hsc : scanChar U '<' { s with sLine := s.line, sCol := s.col, col := s.col + 1, chars := '<' :: '<' :: (b0 ++ (w ++ '\n' :: z)) } =
      match tokenizeHereDoc U s1 with
      | .ok s => .cont s
      | .error e => .err e s1 := by
    have h1 : ∀ st, scanChar U '<' st = scanSmaller U st := fun st => by simp [scanChar]
    rw [h1, hs1]
    unfold scanSmaller
    simp only [peek_mk, List.head?_cons, adv_mk _ _ _ _ _ _ '<' _ (by decide) (by decide)]
    rfl
  rw [hsc]
  have hctx1 : s1.ctx = .inScript := by rw [hs1]; exact hc
  have hblank := collectWhile_run (fun c => decide (c = ' ')) b0 (w ++ '\n' :: z) s1 (by rw [hs1])
    (fun c hc => by rw [hb0 c hc]; decide) (by
      intro c r e
      have : c ≠ ' ' := by
        rintro rfl
        simp only [markerForms, List.mem_cons, List.not_mem_nil, or_false] at hw
        rcases hw with rfl | rfl | rfl
        · cases w with
          | nil => exact hm0 rfl
          | cons d w => cases e; exact (wordChar_ne U (hm ' ' (by simp))).2.2.1 rfl
        · cases e
        · cases e
      simpa using this)
  have hskip : skipBlanks s1 = { s1 with col := s1.col + b0.length, chars := w ++ '\n' :: z } := by unfold skipBlanks; rw [hblank]
  have hmark := hereDocMarker_ok U m w z hw hm hm0 (skipBlanks s1) (by rw [hskip]) (by rw [hskip]; exact hctx1)
  have hf := readText_fields (skipBlanks s1) w
  refine ⟨s1, ({ readText (skipBlanks s1) w with chars := '\n' :: z } : St).pushNamed .hereDocStart m, rfl, ?_, ?_⟩
  · simp only [St.pushNamed]
    rw [hf.1, hskip]
    exact hctx1
  · intro h
    have htok : tokenizeHereDoc U s1 = .error .unterminatedHeredoc := by
      unfold tokenizeHereDoc
      simp only [hmark]
      split
      · rfl
      · rename_i c hp
        unfold St.peek at hp
        rw [h] at hp
        cases hp
    rw [htok]

/-- Where the code sees the end of a heredoc: behind lines that are read as `Reads` says, there are blanks, the marker and at least
one more character. -/
def Ends (m z : Text) : Prop :=
  ∃ (ls : List Text) (t b x : Text), x ≠ [] ∧ (∀ c ∈ b, c = ' ' ∨ c = '\t') ∧ Reads m ls t ∧ z = joinLines ls ++ (b ++ (m ++ x))

/-- **C12**, decided: for every text without carriage returns behind the opening line, a heredoc is read, as `C12_heredoc` says, or
it is unterminated, and this is so exactly if there is no place of the form `Ends`. -/
theorem C12_decided (U : Unicode) (m w b0 z : Text) (hw : w ∈ markerForms m)
    (hm : ∀ c ∈ m, isIdChar U c = true) (hm0 : m ≠ []) (hb0 : ∀ c ∈ b0, c = ' ') (hz : '\r' ∉ z) (s : St) (hc : s.ctx = .inScript)
    (hs : s.chars = c!"<<<" ++ b0 ++ w ++ ['\n'] ++ z) :
    (Ends m z ∧ ∃ s', step U s = .cont s') ∨ (¬ Ends m z ∧ ∃ s', step U s = .err .unterminatedHeredoc s') := by
  by_cases he : Ends m z
  · refine .inl ⟨he, ?_⟩
    obtain ⟨ls, t, b, x, h1, h2, h3, h4⟩ := he
    obtain ⟨s', _, h, _⟩ := C12_heredoc U m w b0 b x t ls hw hm hm0 hb0 h2 h3 h1 s hc (by rw [hs, h4]; simp)
    exact ⟨s', h⟩
  · refine .inr ⟨he, ?_⟩
    obtain ⟨s1, s2, h1, h2, h3⟩ := hereDoc_enter U m w b0 z hw hm hm0 hb0 s hc hs
    refine ⟨s1, h3 ?_⟩
    have hmc : ∀ y ∈ m, y ≠ '\n' ∧ y ≠ '\r' ∧ y ≠ ' ' ∧ y ≠ '\t' := by
      intro y hy
      obtain ⟨g1, g2, g3, g4, _⟩ := wordChar_ne U (hm y hy)
      exact ⟨g1, g2, g3, g4⟩
    have e1 := hereDoc_restOfLine m [] z (by simp) (z.length + 1) [] [] s2 h1 h2
    simp only [List.length_nil, Nat.add_zero, List.nil_append] at e1
    rw [h1, show ('\n' :: z).length + 1 = z.length + 1 + 1 from rfl, e1]
    have hc2 : ({ readText s2 ['\n'] with chars := z } : St).ctx = .inScript := (readText_fields s2 ['\n']).1.trans h2
    rcases hereDoc_total hm0 hmc z hz (z.length + 1) (by omega) ['\n'] { readText s2 ['\n'] with chars := z } rfl hc2 with
      ⟨ls, t, b, x, g1, g2, g3⟩ | h
    · cases x with
      | cons y x => exact absurd ⟨ls, t, b, y :: x, by simp, g1, g2, g3⟩ he
      | nil =>
        rw [List.append_nil] at g3
        obtain ⟨n', hn', e2⟩ := hereDoc_lines g2 (b ++ m) hm0 hmc (m.length + 1 + b.length) ['\n'] { readText s2 ['\n'] with chars := z }
          g3 hc2
        obtain ⟨k, rfl⟩ : ∃ k, n' = k + 1 + b.length := ⟨n' - 1 - b.length, by omega⟩
        have hlen : z.length + 1 = m.length + 1 + b.length + (joinLines ls).length := by rw [g3]; simp; omega
        rw [hlen, e2, readText_set]
        have hc3 : ({ readText s2 (['\n'] ++ joinLines ls) with chars := b ++ m } : St).ctx = .inScript :=
          (readText_fields s2 (['\n'] ++ joinLines ls)).1.trans h2
        rw [hereDoc_blanks m b m g1 (k + 1) _ _ _ rfl hc3, readText_set]
        unfold hereDocLoop
        cases m with
        | nil => exact absurd rfl hm0
        | cons m0 ms =>
          have hp : ({ readText s2 (['\n'] ++ joinLines ls ++ b) with chars := m0 :: ms } : St).peek = some m0 := rfl
          obtain ⟨f1, f2, f3, f4⟩ := hmc m0 (by simp)
          have hmm := matchMarker_ok (m0 :: ms) [] (fun h => (hmc _ h).2.1 rfl)
            { readText s2 (['\n'] ++ joinLines ls ++ b) with chars := m0 :: ms } (by simp)
            ((readText_fields s2 (['\n'] ++ joinLines ls ++ b)).1.trans h2)
          simp only [hp, f1, f3, f4, if_false, reduceCtorEq, or_self, hmm]
    · exact h

/-- The hypotheses are met, with each way to read a line: one is kept, one is bent, one is joined with the next one, which would be
the end. -/
example : Reads c!"EOF" [c!"a", c!"\tEO b", c!"E", c!"EOF;", c!"x"] c!"a\n\tEEOb\nEEEOF;\nx\n" :=
  .plain ⟨by decide, by decide, by intro c h; cases h; decide⟩ <|
  .bent (b := c!"\t") (p := c!"O") (q := []) (r := c!"b") (c := 'E') (d := ' ') (e := 'F') (by decide) rfl (by decide) (by decide) <|
  .joined (b := []) (p := []) (q := c!"F") (l := c!"EOF;") (c := 'E') (e := 'O') (by decide) rfl (by decide) <|
  .plain ⟨by decide, by decide, by intro c h; cases h; decide⟩ .nil

example : labels (scan Unicode.ascii c!"<?php <<<EOF\na\n\tEO b\nE\nEOF;\nx\nEOF;\n") = some
    [(.scriptStartRegular, none), (.hereDocStart, some c!"EOF"),
      (.encapsedAndWhitespaceString, some c!"\na\n\tEEOb\nEEEOF;\nx\n"), (.hereDocEnd, some c!"EOF"), (.semicolon, none), (.eof, none)] :=
  rfl

/-- The end is not seen: the line before it is a part of the marker. -/
example : ¬ Ends c!"EOF" c!"EO\nEOF;\n" := by
  intro h
  have := C12_decided Unicode.ascii c!"EOF" c!"EOF" [] c!"EO\nEOF;\n" (by decide) (by decide) (by decide) (by decide) (by decide)
    { new c!"<<<EOF\nEO\nEOF;\n" with ctx := .inScript } rfl rfl
  rcases this with ⟨_, s', h1⟩ | ⟨h1, _⟩
  · have e : (match step Unicode.ascii { new c!"<<<EOF\nEO\nEOF;\n" with ctx := .inScript } with | .cont _ => true | _ => false) = false := by
      decide +kernel
    rw [h1] at e
    cases e
  · exact h1 h

end PhpLs.Scanner
