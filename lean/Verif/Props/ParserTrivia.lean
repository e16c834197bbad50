import Verif.Props.ParserTotal

/-!
# C16: line comments and line breaks are transparent to the parser; the outcome does not depend on the fuel
-/

namespace PhpLs.Parser

open PhpLs

/-! ## More fuel never changes an outcome -/

theorem relR_refl {α : Type} [Val α] (x : Res α) : RelR (fun _ => True) (fun s t => s = t) True x x := by
  cases x with
  | ok a s => exact ⟨fun _ _ => trivial, s, rfl, rfl⟩
  | err e s => exact ⟨fun _ _ => trivial, s, rfl, rfl⟩
  | panic => exact ⟨trivial, rfl⟩
  | diverge x => trivial

theorem relP_refl {α : Type} [Val α] (p : P α) : RelP (fun _ => True) (fun s t => s = t) True p p := by
  rintro s _ rfl; exact relR_refl _

/-- Equality as a logical relation. -/
def eqLR : LR where
  T := fun _ => True
  S := fun s t => s = t
  panicOk := True
  hNext := relP_refl _
  hPeek := relP_refl _
  hTakeIf _ := relP_refl _
  hTakeOr _ := relP_refl _
  hTakeOrMissing _ := relP_refl _
  hFfBefore _ := relP_refl _
  hFfAfter _ := relP_refl _
  hPushErr _ _ := relP_refl _
  hSetCtx _ := relP_refl _
  hGetCtx := relP_refl _
  hLookahead _ _ := relP_refl _
  hHereDocBody := relP_refl _
  missingOk _ _ _ _ := trivial
  endOk _ _ _ := trivial

/-- If the parser comes to an end with some amount of fuel, it comes to the same end with every larger amount: the fuel
of the model stands for nothing but time. -/
theorem ast_fuel (U : Unicode) (n m : Nat) (h : n ≤ m) (tokens : List Token)
    (hd : ∀ site, ast U n tokens ≠ .diverge site) : ast U m tokens = ast U n tokens := by
  unfold ast at hd ⊢
  split
  · rfl
  · rename_i hne
    simp only [hne] at hd
    have hr := LR.rel_astLoop (L := eqLR)
      (LR.rel_knot (L := eqLR) (doc := DocBlock.docNode U) (relP_refl (popDoc _)) (relP_refl (drainDocs _)) h)
    have := hr (new tokens) (new tokens) rfl
    cases hx : astLoop (knot (DocBlock.docNode U) n) (new tokens) with
    | ok a s =>
      change RelR _ _ _ (astLoop _ _) (astLoop _ _) at this
      rw [hx] at this
      obtain ⟨-, s2, h1, h2⟩ := this
      rw [h1, h2]
    | err e s =>
      change RelR _ _ _ (astLoop _ _) (astLoop _ _) at this
      rw [hx] at this
      obtain ⟨-, s2, h1, h2⟩ := this
      rw [h1, h2]
    | panic =>
      change RelR _ _ _ (astLoop _ _) (astLoop _ _) at this
      rw [hx] at this
      exact this.2
    | diverge x => exact absurd hx (hd x)

/-! ## Specification -/

/-- A token stream without its line comments and line breaks. -/
def strip (l : List Token) : List Token := l.filter (fun k => !(k.t == .lineComment || k.t == .linebreak))

/-! ## Streams that agree up to trivia -/

/-- Two states that differ only in line comments and line breaks. -/
structure Sim (s t : PSt) : Prop where
  toks : strip s.toks = strip t.toks
  docs : s.docs = t.docs
  errors : s.errors = t.errors
  ctx : s.ctx = t.ctx
  eof : s.eof = t.eof
  prev : s.endPrev = t.endPrev ∨ strip s.toks = []

theorem strip_nil {l : List Token} (h : strip l = []) : ∀ k ∈ l, isTrivia k = true := by
  intro k hk
  have := (List.filter_eq_nil_iff.1 h) k hk
  simp [isTrivia] at this ⊢
  exact Decidable.or_iff_not_imp_left.2 this

theorem strip_cons {l : List Token} {k : Token} {x : List Token} (h : strip l = k :: x) :
    ∃ tr r, l = tr ++ k :: r ∧ (∀ a ∈ tr, isTrivia a = true) ∧ strip r = x ∧ isTrivia k = false := by
  obtain ⟨l1, l2, h1, h2, h3, h4⟩ := List.filter_eq_cons_iff.1 h
  refine ⟨l1, l2, h1, ?_, h4, ?_⟩
  · intro a ha
    have := h2 a ha
    simp [isTrivia] at this ⊢
    exact Decidable.or_iff_not_imp_left.2 this
  · simpa [isTrivia] using h3

theorem trivia_ne {k : Token} (h : isTrivia k = true) : k.t ≠ .eof ∧ k.t ≠ .multilineComment := by
  simp only [isTrivia, Bool.or_eq_true, beq_iff_eq] at h
  rcases h with h | h <;> rw [h] <;> decide

theorem peekOn_tr {tr : List Token} (h : ∀ a ∈ tr, isTrivia a = true) (l : List Token) (s : PSt) :
    peekOn (tr ++ l) s = peekOn l s := by
  induction tr with
  | nil => rfl
  | cons a tr ih =>
    have ha := h a (List.mem_cons_self ..)
    obtain ⟨h1, h2⟩ := trivia_ne ha
    show peekOn (a :: (tr ++ l)) s = _
    rw [peekOn]
    simp only [h1, h2, ha, if_false, if_true]
    exact ih fun b hb => h b (List.mem_cons_of_mem _ hb)

theorem ffBeforeOn_tr (stop : List TT) {tr : List Token} (h : ∀ a ∈ tr, isTrivia a = true) (l : List Token) (s : PSt) :
    ffBeforeOn stop (tr ++ l) s = ffBeforeOn stop l s := by
  induction tr with
  | nil => rfl
  | cons a tr ih =>
    have ha := h a (List.mem_cons_self ..)
    obtain ⟨h1, h2⟩ := trivia_ne ha
    show ffBeforeOn stop (a :: (tr ++ l)) s = _
    rw [ffBeforeOn]
    simp only [h1, h2, ha, if_false, if_true]
    exact ih fun b hb => h b (List.mem_cons_of_mem _ hb)

theorem nextOn_tr {tr : List Token} (h : ∀ a ∈ tr, isTrivia a = true) (hr : ∀ a ∈ tr, a.range ≠ none) (l : List Token)
    (s : PSt) : ∃ ep, nextOn (tr ++ l) s = nextOn l { s with endPrev := ep } := by
  induction tr generalizing s with
  | nil => exact ⟨s.endPrev, rfl⟩
  | cons a tr ih =>
    have ha := h a (List.mem_cons_self ..)
    obtain ⟨h1, h2⟩ := trivia_ne ha
    cases hra : a.range with
    | none => exact absurd hra (hr a (List.mem_cons_self ..))
    | some rg =>
      obtain ⟨ep, he⟩ := ih (fun b hb => h b (List.mem_cons_of_mem _ hb)) (fun b hb => hr b (List.mem_cons_of_mem _ hb))
        { s with endPrev := rg }
      refine ⟨ep, ?_⟩
      show nextOn (a :: (tr ++ l)) s = _
      rw [nextOn]
      simp only [hra, h2, ha, if_false, if_true]
      exact he

theorem ffAfterOn_tr (stop : List TT) {tr : List Token} (h : ∀ a ∈ tr, isTrivia a = true) (hr : ∀ a ∈ tr, a.range ≠ none)
    (l : List Token) (s : PSt) : ∃ ep, ffAfterOn stop (tr ++ l) s = ffAfterOn stop l { s with endPrev := ep } := by
  induction tr generalizing s with
  | nil => exact ⟨s.endPrev, rfl⟩
  | cons a tr ih =>
    have ha := h a (List.mem_cons_self ..)
    obtain ⟨h1, h2⟩ := trivia_ne ha
    cases hra : a.range with
    | none => exact absurd hra (hr a (List.mem_cons_self ..))
    | some rg =>
      obtain ⟨ep, he⟩ := ih (fun b hb => h b (List.mem_cons_of_mem _ hb)) (fun b hb => hr b (List.mem_cons_of_mem _ hb))
        { s with endPrev := rg }
      refine ⟨ep, ?_⟩
      show ffAfterOn stop (a :: (tr ++ l)) s = _
      rw [ffAfterOn]
      simp only [hra, h2, ha, if_false, if_true]
      exact he

/-- The states agree except for the tokens and the last range. -/
structure Core (s t : PSt) : Prop where
  docs : s.docs = t.docs
  errors : s.errors = t.errors
  ctx : s.ctx = t.ctx
  eof : s.eof = t.eof

theorem peekOn_sim : ∀ (x l m : List Token) (s t : PSt), strip l = x → strip m = x → Core s t →
    (s.endPrev = t.endPrev ∨ x = []) →
    (peekOn l s).1 = (peekOn m t).1 ∧ Sim (peekOn l s).2 (peekOn m t).2
  | [], l, m, s, t, hl, hm, hc, hp => by
    have h1 := peekOn_tr (strip_nil hl) [] s
    have h2 := peekOn_tr (strip_nil hm) [] t
    rw [List.append_nil] at h1 h2
    rw [h1, h2]
    exact ⟨rfl, ⟨rfl, hc.docs, hc.errors, hc.ctx, hc.eof, .inr rfl⟩⟩
  | k :: x, l, m, s, t, hl, hm, hc, hp => by
    obtain ⟨tr, r, rfl, h1, h2, h3⟩ := strip_cons hl
    obtain ⟨tr', r', rfl, h1', h2', -⟩ := strip_cons hm
    rw [peekOn_tr h1, peekOn_tr h1']
    have hp : s.endPrev = t.endPrev := hp.resolve_right (by simp)
    unfold peekOn
    split
    · exact ⟨rfl, ⟨by rw [h2, h2'], hc.docs, hc.errors, hc.ctx, hc.eof, .inl hp⟩⟩
    · split
      · exact peekOn_sim x r r' _ _ h2 h2' ⟨by simp [hc.docs], hc.errors, hc.ctx, hc.eof⟩ (.inl hp)
      · rw [h3]
        refine ⟨rfl, ⟨?_, hc.docs, hc.errors, hc.ctx, hc.eof, .inl hp⟩⟩
        show strip (k :: r) = strip (k :: r')
        unfold strip at h2 h2' ⊢
        rw [List.filter_cons, List.filter_cons, h2, h2']

/-- Outcomes that agree up to trivia. -/
def SimR {α : Type} : Res α → Res α → Prop
  | .ok a s, .ok b t => a = b ∧ Sim s t
  | .err e s, .err f t => e = f ∧ Sim s t
  | .panic, .panic => True
  | .diverge x, .diverge y => x = y
  | _, _ => False

/-- All line comments and line breaks have an end. -/
def TriviaOk (l : List Token) : Prop := ∀ k ∈ l, isTrivia k = true → k.range ≠ none

theorem TriviaOk.right {a b : List Token} (h : TriviaOk (a ++ b)) : TriviaOk b :=
  fun k hk => h k (List.mem_append_right _ hk)

theorem nextOn_sim : ∀ (x l m : List Token) (s t : PSt), strip l = x → strip m = x → Core s t → TriviaOk l → TriviaOk m →
    SimR (nextOn l s) (nextOn m t)
  | [], l, m, s, t, hl, hm, hc, hol, hom => by
    obtain ⟨ep, h1⟩ := nextOn_tr (strip_nil hl) (fun a ha => hol a ha (strip_nil hl a ha)) [] s
    obtain ⟨ep', h2⟩ := nextOn_tr (strip_nil hm) (fun a ha => hom a ha (strip_nil hm a ha)) [] t
    rw [List.append_nil] at h1 h2
    rw [h1, h2]
    exact ⟨rfl, ⟨rfl, hc.docs, hc.errors, hc.ctx, hc.eof, .inr rfl⟩⟩
  | k :: x, l, m, s, t, hl, hm, hc, hol, hom => by
    obtain ⟨tr, r, rfl, h1, h2, h3⟩ := strip_cons hl
    obtain ⟨tr', r', rfl, h1', h2', -⟩ := strip_cons hm
    obtain ⟨ep, e1⟩ := nextOn_tr h1 (fun a ha => hol a (List.mem_append_left _ ha) (h1 a ha)) (k :: r) s
    obtain ⟨ep', e2⟩ := nextOn_tr h1' (fun a ha => hom a (List.mem_append_left _ ha) (h1' a ha)) (k :: r') t
    rw [e1, e2]
    have hor : TriviaOk r := TriviaOk.right (a := [k]) hol.right
    have hor' : TriviaOk r' := TriviaOk.right (a := [k]) hom.right
    unfold nextOn
    cases k.range with
    | none => trivial
    | some rg =>
      dsimp only
      split
      · exact nextOn_sim x r r' _ _ h2 h2' ⟨by simp [hc.docs], hc.errors, hc.ctx, hc.eof⟩ hor hor'
      · rw [h3]
        exact ⟨rfl, ⟨by rw [h2, h2'], hc.docs, hc.errors, hc.ctx, hc.eof, .inl rfl⟩⟩

theorem ffBeforeOn_sim (stop : List TT) : ∀ (x l m : List Token) (s t : PSt), strip l = x → strip m = x → Core s t →
    (s.endPrev = t.endPrev ∨ x = []) → SimR (ffBeforeOn stop l s) (ffBeforeOn stop m t)
  | [], l, m, s, t, hl, hm, hc, hp => by
    have h1 := ffBeforeOn_tr stop (strip_nil hl) [] s
    have h2 := ffBeforeOn_tr stop (strip_nil hm) [] t
    rw [List.append_nil] at h1 h2
    rw [h1, h2]
    exact ⟨rfl, ⟨rfl, hc.docs, hc.errors, hc.ctx, hc.eof, .inr rfl⟩⟩
  | k :: x, l, m, s, t, hl, hm, hc, hp => by
    obtain ⟨tr, r, rfl, h1, h2, h3⟩ := strip_cons hl
    obtain ⟨tr', r', rfl, h1', h2', -⟩ := strip_cons hm
    rw [ffBeforeOn_tr stop h1, ffBeforeOn_tr stop h1']
    have hp : s.endPrev = t.endPrev := hp.resolve_right (by simp)
    unfold ffBeforeOn
    split
    · exact ⟨rfl, ⟨by rw [h2, h2'], hc.docs, hc.errors, hc.ctx, hc.eof, .inl hp⟩⟩
    · split
      · exact ffBeforeOn_sim stop x r r' _ _ h2 h2' ⟨by simp [hc.docs], hc.errors, hc.ctx, hc.eof⟩ (.inl hp)
      · rw [h3]
        simp only [Bool.false_eq_true, if_false]
        split
        · refine ⟨rfl, ⟨?_, hc.docs, hc.errors, hc.ctx, hc.eof, .inl hp⟩⟩
          show strip (k :: r) = strip (k :: r')
          unfold strip at h2 h2' ⊢
          rw [List.filter_cons, List.filter_cons, h2, h2']
        · cases k.range with
          | none => trivial
          | some rg => exact ffBeforeOn_sim stop x r r' _ _ h2 h2' ⟨hc.docs, hc.errors, hc.ctx, hc.eof⟩ (.inl rfl)

theorem ffAfterOn_sim (stop : List TT) : ∀ (x l m : List Token) (s t : PSt), strip l = x → strip m = x → Core s t →
    TriviaOk l → TriviaOk m → SimR (ffAfterOn stop l s) (ffAfterOn stop m t)
  | [], l, m, s, t, hl, hm, hc, hol, hom => by
    obtain ⟨ep, h1⟩ := ffAfterOn_tr stop (strip_nil hl) (fun a ha => hol a ha (strip_nil hl a ha)) [] s
    obtain ⟨ep', h2⟩ := ffAfterOn_tr stop (strip_nil hm) (fun a ha => hom a ha (strip_nil hm a ha)) [] t
    rw [List.append_nil] at h1 h2
    rw [h1, h2]
    exact ⟨rfl, ⟨rfl, hc.docs, hc.errors, hc.ctx, hc.eof, .inr rfl⟩⟩
  | k :: x, l, m, s, t, hl, hm, hc, hol, hom => by
    obtain ⟨tr, r, rfl, h1, h2, h3⟩ := strip_cons hl
    obtain ⟨tr', r', rfl, h1', h2', -⟩ := strip_cons hm
    obtain ⟨ep, e1⟩ := ffAfterOn_tr stop h1 (fun a ha => hol a (List.mem_append_left _ ha) (h1 a ha)) (k :: r) s
    obtain ⟨ep', e2⟩ := ffAfterOn_tr stop h1' (fun a ha => hom a (List.mem_append_left _ ha) (h1' a ha)) (k :: r') t
    rw [e1, e2]
    have hor : TriviaOk r := TriviaOk.right (a := [k]) hol.right
    have hor' : TriviaOk r' := TriviaOk.right (a := [k]) hom.right
    unfold ffAfterOn
    cases k.range with
    | none => trivial
    | some rg =>
      dsimp only
      split
      · exact ffAfterOn_sim stop x r r' _ _ h2 h2' ⟨by simp [hc.docs], hc.errors, hc.ctx, hc.eof⟩ hor hor'
      · rw [h3]
        simp only [Bool.false_eq_true, if_false]
        split
        · exact ⟨rfl, ⟨by rw [h2, h2'], hc.docs, hc.errors, hc.ctx, hc.eof, .inl rfl⟩⟩
        · exact ffAfterOn_sim stop x r r' _ _ h2 h2' ⟨hc.docs, hc.errors, hc.ctx, hc.eof⟩ hor hor'

theorem Sim.core {s t : PSt} (h : Sim s t) : Core s t := ⟨h.docs, h.errors, h.ctx, h.eof⟩

theorem Sim.peek {s t : PSt} (h : Sim s t) :
    (peekOn s.toks s).1 = (peekOn t.toks t).1 ∧ Sim (peekOn s.toks s).2 (peekOn t.toks t).2 :=
  peekOn_sim _ _ _ s t rfl h.toks.symm h.core h.prev

/-- Taking the same token from both streams. -/
theorem takeFront_sim {α : Type} {s t : PSt} {k : Token} {r r' : List Token} (a : α) (h : Sim s t) (hk : solid k = true)
    (hs : s.toks = k :: r) (ht : t.toks = k :: r') : SimR (takeFront k s a) (takeFront k t a) := by
  unfold takeFront
  cases k.range with
  | none => trivial
  | some rg =>
    refine ⟨rfl, ⟨?_, h.docs, h.errors, h.ctx, h.eof, .inl rfl⟩⟩
    have := h.toks
    rw [hs, ht] at this ⊢
    obtain ⟨h1, h2, -⟩ := solid_iff.1 hk
    have hf : (!(k.t == .lineComment || k.t == .linebreak)) = true := by simp [h1, h2]
    unfold strip at this ⊢
    rw [List.filter_cons, List.filter_cons, if_pos hf, if_pos hf] at this
    exact (List.cons.inj this).2

/-- The outcome of a peeking primitive on both streams. -/
theorem peek_cases {s t : PSt} (h : Sim s t) :
    (∃ s' t', peekOn s.toks s = (none, s') ∧ peekOn t.toks t = (none, t') ∧ Sim s' t') ∨
    (∃ k s' t' r r', peekOn s.toks s = (some k, s') ∧ peekOn t.toks t = (some k, t') ∧ Sim s' t' ∧
      solid k = true ∧ s'.toks = k :: r ∧ t'.toks = k :: r') := by
  obtain ⟨h1, h2⟩ := h.peek
  cases hs : peekOn s.toks s with
  | mk a s' =>
    cases ht : peekOn t.toks t with
    | mk b t' =>
      rw [hs, ht] at h1 h2
      dsimp only at h1 h2
      subst h1
      cases a with
      | none => exact .inl ⟨s', t', rfl, rfl, h2⟩
      | some k =>
        obtain ⟨⟨r, hr⟩, hk, -⟩ := peekOn_some hs
        obtain ⟨⟨r', hr'⟩, -, -⟩ := peekOn_some ht
        exact .inr ⟨k, s', t', r, r', rfl, rfl, h2, hk, hr, hr'⟩

theorem takeIf_sim (f : Token → Bool) {s t : PSt} (h : Sim s t) : SimR (takeIf f s) (takeIf f t) := by
  rcases peek_cases h with ⟨s', t', h1, h2, h3⟩ | ⟨k, s', t', r, r', h1, h2, h3, hk, hr, hr'⟩
  · rw [takeIf_none h1, takeIf_none h2]; exact ⟨rfl, h3⟩
  · cases hf : f k
    · rw [takeIf_no h1 hf, takeIf_no h2 hf]; exact ⟨rfl, h3⟩
    · rw [takeIf_yes h1 hf, takeIf_yes h2 hf]; exact takeFront_sim _ h3 hk hr hr'

theorem takeOr_sim (f : Token → Bool) {s t : PSt} (h : Sim s t) : SimR (takeOr f s) (takeOr f t) := by
  rcases peek_cases h with ⟨s', t', h1, h2, h3⟩ | ⟨k, s', t', r, r', h1, h2, h3, hk, hr, hr'⟩
  · rw [takeOr_none h1, takeOr_none h2]; exact ⟨rfl, h3⟩
  · cases hf : f k
    · rw [takeOr_no h1 hf, takeOr_no h2 hf]; exact ⟨rfl, h3⟩
    · rw [takeOr_yes h1 hf, takeOr_yes h2 hf]; exact takeFront_sim _ h3 hk hr hr'

theorem takeOrMissing_sim (f : Token → Bool) {s t : PSt} (h : Sim s t) :
    SimR (takeOrMissing f s) (takeOrMissing f t) := by
  rcases peek_cases h with ⟨s', t', h1, h2, h3⟩ | ⟨k, s', t', r, r', h1, h2, h3, hk, hr, hr'⟩
  · rw [takeOrMissing_none h1, takeOrMissing_none h2, h3.eof]; exact ⟨rfl, h3⟩
  · cases hf : f k
    · rw [takeOrMissing_no h1 hf, takeOrMissing_no h2 hf]
      rcases h3.prev with hp | hp
      · rw [hp]; exact ⟨rfl, h3⟩
      · exfalso
        rw [hr] at hp
        obtain ⟨e1, e2, -⟩ := solid_iff.1 hk
        simp [strip, e1, e2] at hp
    · rw [takeOrMissing_yes h1 hf, takeOrMissing_yes h2 hf]; exact takeFront_sim _ h3 hk hr hr'

theorem nextIs_sim (f : Token → Bool) {s t : PSt} (h : Sim s t) :
    ∃ b s' t', nextIs f s = .ok b s' ∧ nextIs f t = .ok b t' ∧ Sim s' t' := by
  rcases peek_cases h with ⟨s', t', h1, h2, h3⟩ | ⟨k, s', t', r, r', h1, h2, h3, hk, hr, hr'⟩
  · exact ⟨false, s', t', nextIs_none h1, nextIs_none h2, h3⟩
  · exact ⟨f k, s', t', nextIs_some h1, nextIs_some h2, h3⟩

theorem lookahead_sim (f g : Token → Bool) {s t : PSt} (h : Sim s t) : SimR (lookahead f g s) (lookahead f g t) := by
  have hs := takeIf_sim f h
  cases h1 : takeIf f s with
  | ok a s' =>
    cases h2 : takeIf f t with
    | ok b t' =>
      rw [h1, h2] at hs
      obtain ⟨rfl, hs⟩ := hs
      cases a with
      | none => rw [lookahead_none h1, lookahead_none h2]; exact ⟨rfl, hs⟩
      | some k =>
        obtain ⟨b, s2, t2, e1, e2, h3⟩ := nextIs_sim g hs
        rw [lookahead_some h1 e1, lookahead_some h2 e2]
        cases b
        · refine ⟨rfl, ⟨?_, h3.docs, h3.errors, h3.ctx, h3.eof, ?_⟩⟩
          · show strip (k :: s2.toks) = strip (k :: t2.toks)
            have := h3.toks
            unfold strip at this ⊢
            rw [List.filter_cons, List.filter_cons, this]
          · -- the token put back was taken, so its range is the last one in both runs
            left
            have ht1 : s'.endPrev = t'.endPrev := by
              rcases peek_cases h with ⟨s0, t0, q1, q2, q3⟩ | ⟨k0, s0, t0, r, r', q1, q2, q3, hk, hr, hr'⟩
              · rw [takeIf_none q1] at h1; cases h1
              · cases hf : f k0
                · rw [takeIf_no q1 hf] at h1; cases h1
                · rw [takeIf_yes q1 hf] at h1
                  rw [takeIf_yes q2 hf] at h2
                  unfold takeFront at h1 h2
                  cases hrg : k0.range with
                  | none => rw [hrg] at h1; cases h1
                  | some rg => rw [hrg] at h1 h2; cases h1; cases h2; rfl
            have pe : ∀ (l : List Token) (u : PSt), (peekOn l u).2.endPrev = u.endPrev := by
              intro l
              induction l with
              | nil => intro u; rfl
              | cons a l ih =>
                intro u
                unfold peekOn
                split
                · rfl
                · split
                  · exact ih _
                  · split
                    · exact ih _
                    · rfl
            have n1 : s2.endPrev = s'.endPrev := by
              have := pe s'.toks s'
              rcases peek_cases hs with ⟨s0, t0, q1, q2, q3⟩ | ⟨k0, s0, t0, r, r', q1, q2, q3, hk, hr, hr'⟩
              · rw [nextIs_none q1] at e1; cases e1; rw [q1] at this; exact this
              · rw [nextIs_some q1] at e1; injection e1 with _ e1; rw [q1] at this; rw [← e1]; exact this
            have n2 : t2.endPrev = t'.endPrev := by
              have := pe t'.toks t'
              rcases peek_cases hs with ⟨s0, t0, q1, q2, q3⟩ | ⟨k0, s0, t0, r, r', q1, q2, q3, hk, hr, hr'⟩
              · rw [nextIs_none q2] at e2; cases e2; rw [q2] at this; exact this
              · rw [nextIs_some q2] at e2; injection e2 with _ e2; rw [q2] at this; rw [← e2]; exact this
            show s2.endPrev = t2.endPrev
            rw [n1, n2, ht1]
        · exact ⟨rfl, h3⟩
    | _ => rw [h1, h2] at hs; exact hs.elim
  | err e s' => cases h2 : takeIf f t <;> rw [h1, h2] at hs <;> first | exact hs.elim | skip
                unfold lookahead; rw [bind_err h1, bind_err h2]; exact hs
  | panic => cases h2 : takeIf f t <;> rw [h1, h2] at hs <;> first | exact hs.elim | skip
             rw [lookahead_panic h1, lookahead_panic h2]; trivial
  | diverge x => cases h2 : takeIf f t <;> rw [h1, h2] at hs <;> first | exact hs.elim | skip
                 unfold lookahead; rw [bind_diverge h1, bind_diverge h2]; exact hs

theorem peekOn_sublist (l : List Token) (s : PSt) : (peekOn l s).2.toks.Sublist l := by
  induction l generalizing s with
  | nil => exact List.Sublist.refl _
  | cons k r ih =>
    unfold peekOn
    split
    · exact List.sublist_cons_self ..
    · split
      · exact (ih _).trans (List.sublist_cons_self ..)
      · split
        · exact (ih _).trans (List.sublist_cons_self ..)
        · exact List.Sublist.refl _

theorem TriviaOk.sublist {a b : List Token} (h : TriviaOk b) (hs : a.Sublist b) : TriviaOk a :=
  fun k hk => h k (hs.subset hk)

theorem hereDocBody_sim {s t : PSt} (h : Sim s t) (hs : TriviaOk s.toks) (ht : TriviaOk t.toks) :
    SimR (hereDocBody s) (hereDocBody t) := by
  rcases peek_cases h with ⟨s', t', h1, h2, h3⟩ | ⟨k, s', t', r, r', h1, h2, h3, hk, hr, hr'⟩
  · rw [hereDocBody_no (nextIs_none h1), hereDocBody_no (nextIs_none h2)]; exact ⟨rfl, h3⟩
  · by_cases hk' : k.t = .hereDocStart
    · rw [hereDocBody_yes h1 hk', hereDocBody_yes h2 hk']
      cases hrg : k.range with
      | none => trivial
      | some rg =>
        dsimp only
        have hst : strip s'.toks.tail = strip t'.toks.tail := by
          have := takeFront_sim () h3 hk hr hr'
          unfold takeFront at this
          rw [hrg] at this
          exact this.2.toks
        have os : TriviaOk s'.toks.tail := by
          have := hs.sublist (peekOn_sublist s.toks s)
          rw [h1] at this
          exact this.sublist (List.tail_sublist _)
        have ot : TriviaOk t'.toks.tail := by
          have := ht.sublist (peekOn_sublist t.toks t)
          rw [h2] at this
          exact this.sublist (List.tail_sublist _)
        have := nextOn_sim _ s'.toks.tail t'.toks.tail { s' with endPrev := rg, toks := s'.toks.tail }
          { t' with endPrev := rg, toks := t'.toks.tail } rfl hst.symm ⟨h3.docs, h3.errors, h3.ctx, h3.eof⟩ os ot
        change SimR (next { s' with endPrev := rg, toks := s'.toks.tail })
          (next { t' with endPrev := rg, toks := t'.toks.tail }) at this
        generalize next { s' with endPrev := rg, toks := s'.toks.tail } = x at this ⊢
        generalize next { t' with endPrev := rg, toks := t'.toks.tail } = y at this ⊢
        cases x with
        | ok a u =>
          cases y with
          | ok b v =>
            obtain ⟨rfl, hsim⟩ := this
            cases a with
            | none => trivial
            | some a => exact ⟨rfl, hsim⟩
          | _ => exact this.elim
        | err e u => cases y <;> first | exact this.elim | exact this
        | panic => cases y <;> first | exact this.elim | trivial
        | diverge z => cases y <;> first | exact this.elim | exact this
    · have e1 : nextOneOf [.hereDocStart] s = .ok false s' := by
        unfold nextOneOf
        rw [nextIs_some h1]
        simp [hk']
      have e2 : nextOneOf [.hereDocStart] t = .ok false t' := by
        unfold nextOneOf
        rw [nextIs_some h2]
        simp [hk']
      rw [hereDocBody_no e1, hereDocBody_no e2]
      exact ⟨rfl, h3⟩

/-- The relation for C16. -/
def SimOk (s t : PSt) : Prop := Sim s t ∧ TriviaOk s.toks ∧ TriviaOk t.toks

/-- The remaining tokens are among the given ones. -/
def Shrinks {α : Type} (p : P α) : Prop :=
  ∀ s, match p s with
    | .ok _ s' => s'.toks.Sublist s.toks
    | .err _ s' => s'.toks.Sublist s.toks
    | _ => True

theorem shrinks_of_rel {α : Type} [Val α] {p : P α} (h : ∀ s0, (invLR (fun _ => none) s0).rel p p) : Shrinks p := by
  intro s
  have := inv_of_rel (h s)
  cases hp : p s with
  | ok a s' => rw [hp] at this; exact this.1.adv.sub
  | err e s' => rw [hp] at this; exact this.1.adv.sub
  | panic => trivial
  | diverge x => trivial

theorem relP_of_sim {α : Type} [Val α] {p : P α} (hsh : Shrinks p)
    (h : ∀ s t, SimOk s t → SimR (p s) (p t)) : RelP (fun _ => True) SimOk True p p := by
  intro s t hst
  have h1 := h s t hst
  have hs := hsh s
  have ht := hsh t
  cases e1 : p s with
  | ok a s' =>
    cases e2 : p t with
    | ok b t' =>
      rw [e1, e2] at h1
      rw [e1] at hs
      rw [e2] at ht
      obtain ⟨rfl, h1⟩ := h1
      exact ⟨fun _ _ => trivial, t', rfl, h1, hst.2.1.sublist hs, hst.2.2.sublist ht⟩
    | _ => rw [e1, e2] at h1; exact h1.elim
  | err e s' =>
    cases e2 : p t with
    | err b t' =>
      rw [e1, e2] at h1
      rw [e1] at hs
      rw [e2] at ht
      obtain ⟨rfl, h1⟩ := h1
      exact ⟨fun _ _ => trivial, t', rfl, h1, hst.2.1.sublist hs, hst.2.2.sublist ht⟩
    | _ => rw [e1, e2] at h1; exact h1.elim
  | panic =>
    cases e2 : p t with
    | panic => exact ⟨trivial, rfl⟩
    | _ => rw [e1, e2] at h1; exact h1.elim
  | diverge x => trivial

/-- Agreement up to trivia as a logical relation. -/
def triviaLR : LR where
  T := fun _ => True
  S := SimOk
  panicOk := True
  hNext := relP_of_sim (shrinks_of_rel fun _ => LR.rel_next) fun s t h =>
    nextOn_sim _ _ _ s t rfl h.1.toks.symm h.1.core h.2.1 h.2.2
  hPeek := relP_of_sim (shrinks_of_rel fun _ => LR.rel_peek) fun s t h => by
    rw [peek_run, peek_run]; exact h.1.peek
  hTakeIf f := relP_of_sim (shrinks_of_rel fun _ => LR.rel_takeIf f) fun s t h => takeIf_sim f h.1
  hTakeOr f := relP_of_sim (shrinks_of_rel fun _ => LR.rel_takeOr f) fun s t h => takeOr_sim f h.1
  hTakeOrMissing f := relP_of_sim (shrinks_of_rel fun _ => LR.rel_takeOrMissing f) fun s t h => takeOrMissing_sim f h.1
  hFfBefore f := relP_of_sim (shrinks_of_rel fun _ => LR.rel_ffBefore f) fun s t h =>
    ffBeforeOn_sim f _ _ _ s t rfl h.1.toks.symm h.1.core h.1.prev
  hFfAfter f := relP_of_sim (shrinks_of_rel fun _ => LR.rel_ffAfter f) fun s t h =>
    ffAfterOn_sim f _ _ _ s t rfl h.1.toks.symm h.1.core h.2.1 h.2.2
  hPushErr e _ := by
    intro s t h
    exact ⟨fun _ _ => trivial, _, rfl,
      ⟨h.1.toks, h.1.docs, by show s.errors ++ [e] = t.errors ++ [e]; rw [h.1.errors], h.1.ctx, h.1.eof, h.1.prev⟩, h.2⟩
  hSetCtx c := by
    intro s t h
    exact ⟨fun _ _ => trivial, _, rfl, ⟨h.1.toks, h.1.docs, h.1.errors, rfl, h.1.eof, h.1.prev⟩, h.2⟩
  hGetCtx := by
    intro s t h
    exact ⟨fun _ _ => trivial, t, by rw [getCtx_run, h.1.ctx], h⟩
  hLookahead f g := relP_of_sim (shrinks_of_rel fun _ => LR.rel_lookahead f g) fun s t h => lookahead_sim f g h.1
  hHereDocBody := relP_of_sim (shrinks_of_rel fun _ => LR.rel_hereDocBody) fun s t h => hereDocBody_sim h.1 h.2.1 h.2.2
  missingOk _ _ _ _ := trivial
  endOk _ _ _ := trivial

theorem popDoc_sim (doc : Token → Option Node) : triviaLR.rel (popDoc doc) (popDoc doc) := by
  intro s t h
  unfold popDoc
  rw [h.1.docs]
  cases t.docs with
  | nil => exact ⟨fun _ _ => trivial, t, rfl, h⟩
  | cons c r =>
    dsimp only
    cases doc c with
    | none => exact ⟨trivial, rfl⟩
    | some n => exact ⟨fun _ _ => trivial, _, rfl, ⟨h.1.toks, rfl, h.1.errors, h.1.ctx, h.1.eof, h.1.prev⟩, h.2⟩

theorem drainDocsOn_sim (doc : Token → Option Node) : ∀ (l : List Token) (s t : PSt), SimOk s t →
    RelR (fun _ => True) SimOk True (drainDocsOn doc l s) (drainDocsOn doc l t)
  | [], s, t, h => ⟨fun _ _ => trivial, _, rfl, ⟨h.1.toks, rfl, h.1.errors, h.1.ctx, h.1.eof, h.1.prev⟩, h.2⟩
  | c :: r, s, t, h => by
    unfold drainDocsOn
    cases doc c with
    | none => exact ⟨trivial, rfl⟩
    | some n =>
      dsimp only
      have := drainDocsOn_sim doc r s t h
      cases e1 : drainDocsOn doc r s with
      | ok a s' =>
        rw [e1] at this
        obtain ⟨-, t', e2, h'⟩ := this
        rw [e2]
        exact ⟨fun _ _ => trivial, t', rfl, h'⟩
      | err e s' =>
        rw [e1] at this
        obtain ⟨-, t', e2, h'⟩ := this
        rw [e2]
        exact ⟨fun _ _ => trivial, t', rfl, h'⟩
      | panic => rw [e1] at this; rw [this.2]; exact ⟨trivial, rfl⟩
      | diverge x => trivial

theorem drainDocs_sim (doc : Token → Option Node) : triviaLR.rel (drainDocs doc) (drainDocs doc) := by
  intro s t h
  unfold drainDocs
  rw [h.1.docs]
  exact drainDocsOn_sim doc t.docs s t h

/-- **C16.** Two token streams that differ only in line comments and line breaks, and end with the same token (the `Eof`
token of the scanner), give the same syntax tree and the same diagnostics. -/
theorem C16_trivia_transparent (U : Unicode) (n : Nat) (a b : List Token) (last : Token)
    (hs : strip (a ++ [last]) = strip (b ++ [last])) (ha : TriviaOk (a ++ [last])) (hb : TriviaOk (b ++ [last]))
    (nodes : List Node) (s : PSt) (h : ast U n (a ++ [last]) = .ok nodes s) :
    ∃ s', ast U n (b ++ [last]) = .ok nodes s' ∧ s'.errors = s.errors := by
  have e1 : (a ++ [last]).isEmpty = false := by simp
  have e2 : (b ++ [last]).isEmpty = false := by simp
  unfold ast at h ⊢
  rw [e1] at h
  rw [e2]
  simp only [Bool.false_eq_true, if_false] at h ⊢
  have hrel := LR.rel_astLoop (L := triviaLR) (LR.rel_knot (popDoc_sim (DocBlock.docNode U))
    (drainDocs_sim (DocBlock.docNode U)) (Nat.le_refl n))
  have hsim : SimOk (new (a ++ [last])) (new (b ++ [last])) := by
    refine ⟨⟨hs, rfl, rfl, rfl, ?_, .inl rfl⟩, ha, hb⟩
    simp [new]
  have := hrel _ _ hsim
  change RelR _ _ _ (astLoop _ _) (astLoop _ _) at this
  rw [h] at this
  obtain ⟨-, s', h1, h2⟩ := this
  exact ⟨s', h1, h2.1.errors.symm⟩

/-- The tokens of a scan satisfy the side condition: line comments and line breaks always have an end. -/
theorem triviaOk_of_scan (U : Unicode) (t : Text) (s : Scanner.St) (h : Scanner.scan U t = .ok s) : TriviaOk s.tokens := by
  intro k hk ht hr
  have he := range_eq_none.1 hr
  have := ((Scanner.C11_end_panics_only_for_empty_heredoc_marker U t s h k hk).2).1 he
  simp [isTrivia, this.1] at ht

/-- A concrete case: a text with a line comment, a line break, a doc comment and a missing semicolon, and the same tokens
without trivia. -/
example : (match Scanner.scan Unicode.ascii c!"<?php /** x */ $a = // one\n 1; f(2) $b" with
    | .ok s =>
      (match s.tokens.reverse with
      | last :: r =>
        (strip (r.reverse ++ [last]) == strip (strip r.reverse ++ [last])) && (r.length == 13) &&
        ((strip r).length == 11) &&
        (ast Unicode.ascii 40 (r.reverse ++ [last])).okWith (fun nodes s => nodes.length == 2 && s.errors.length == 1)
      | [] => false)
    | _ => false) = true := by decide +kernel

end PhpLs.Parser
