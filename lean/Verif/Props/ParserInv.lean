import Verif.GrammarRel
import Verif.ParserLemmas

/-!
# What the parser does with its tokens (C15, C14)

* `Adv`: the order in which tokens are consumed;
* `From`: where a token in a tree or a diagnostic can come from;
* `Safe`: token streams on which no `unwrap` of the parser can fail.

`invLR` is an instance of the logical relation of `Verif/ParserRel.lean`, hence all of this holds for the whole grammar.
-/

namespace PhpLs.Parser

open PhpLs

/-! ## Specification -/

/-- Tokens that matter to the grammar: no comments, no line breaks, no end-of-file marker. -/
def isSig (k : Token) : Bool :=
  !(k.t == .lineComment || k.t == .linebreak || k.t == .multilineComment || k.t == .eof)

/-- The significant tokens of a stream. -/
def sig (l : List Token) : List Token := l.filter isSig

/-- `s` is a state the parser can be in after it has read from `s0`: the remaining tokens are in the original order, the
significant ones are an end segment of the original ones, diagnostics were only appended. -/
structure Adv (s0 s : PSt) : Prop where
  sub : s.toks.Sublist s0.toks
  suf : sig s.toks <:+ sig s0.toks
  err : s0.errors <+: s.errors
  eof : s.eof = s0.eof

/-- The tokens that may occur in the results of a parser that starts in `s0`: tokens of the stream, tokens of the doc
comments, and `Missing` tokens behind one of these. -/
inductive From (doc : Token → Option Node) (s0 : PSt) : Token → Prop
  | source (k : Token) : k ∈ s0.toks → From doc s0 k
  | comment (c k : Token) (n : Node) : (c ∈ s0.docs ∨ c ∈ s0.toks) → doc c = some n → k ∈ n.toks → From doc s0 k
  | atEof : From doc s0 (Token.missing s0.eof)
  | atPrev : From doc s0 (Token.missing s0.endPrev.end)
  | behind (k : Token) (pos : ColLine) : From doc s0 k → k.end = some pos → From doc s0 (Token.missing pos)

/-- Token streams on which the parser never panics: every token has an end, every comment can be read, and a heredoc
marker is followed by something. -/
structure Safe (doc : Token → Option Node) (s0 : PSt) : Prop where
  ends : ∀ k ∈ s0.toks, k.end ≠ none
  docs : ∀ k, (k ∈ s0.docs ∨ k ∈ s0.toks ∧ k.t = .multilineComment) → doc k ≠ none
  docEnds : ∀ c n k, (c ∈ s0.docs ∨ c ∈ s0.toks ∧ c.t = .multilineComment) → doc c = some n → k ∈ n.toks →
    k.end ≠ none
  heredoc : ∀ k, ¬ [k] <:+ sig s0.toks ∨ k.t ≠ .hereDocStart

/-! ## The invariant -/

/-- The invariant of all runs that start in `s0`. -/
structure Inv (doc : Token → Option Node) (s0 s : PSt) : Prop where
  adv : Adv s0 s
  docs : ∀ k ∈ s.docs, k ∈ s0.docs ∨ (k ∈ s0.toks ∧ k.t = .multilineComment)
  prev : s.endPrev = s0.endPrev ∨ ∃ k ∈ s0.toks, k.range = some s.endPrev
  errs : ∀ e ∈ s.errors, e ∈ s0.errors ∨ Good (From doc s0) e

/-- Property of the tokens in results. -/
def OkTok (doc : Token → Option Node) (s0 : PSt) (k : Token) : Prop :=
  From doc s0 k ∧ (Safe doc s0 → k.end ≠ none)

theorem Adv.refl (s : PSt) : Adv s s := ⟨List.Sublist.refl _, List.suffix_rfl, List.prefix_rfl, rfl⟩

theorem Adv.trans {a b c : PSt} (h1 : Adv a b) (h2 : Adv b c) : Adv a c :=
  ⟨h2.sub.trans h1.sub, h2.suf.trans h1.suf, h1.err.trans h2.err, h2.eof.trans h1.eof⟩

theorem Inv.refl (doc) (s : PSt) : Inv doc s s :=
  ⟨Adv.refl s, fun _ h => .inl h, .inl rfl, fun _ h => .inl h⟩

theorem range_eq_some {k : Token} {rg : NodeRange} (h : k.range = some rg) : k.end = some rg.end := by
  unfold Token.range at h
  cases he : k.end with
  | none => rw [he] at h; cases h
  | some e => rw [he] at h; cases h; rfl

theorem range_eq_none {k : Token} : k.range = none ↔ k.end = none := by
  unfold Token.range
  cases he : k.end <;> simp

theorem missing_end (pos : ColLine) : (Token.missing pos).end ≠ none := by
  have h : ∃ p, (Token.missing pos).end = some p := ⟨_, rfl⟩
  obtain ⟨p, hp⟩ := h
  rw [hp]
  simp

theorem sig_cons_drop {k : Token} {r : List Token} (h : isSig k = false) : sig (k :: r) = sig r := by
  simp [sig, h]

theorem sig_cons_suffix (k : Token) (r : List Token) : sig r <:+ sig (k :: r) := by
  unfold sig
  rw [List.filter_cons]
  split
  · exact List.suffix_cons _ _
  · exact List.suffix_rfl

section steps
variable {doc : Token → Option Node} {s0 : PSt}

/-- Dropping the first token. -/
theorem Inv.drop {s : PSt} {k : Token} {r : List Token} (h : Inv doc s0 { s with toks := k :: r }) :
    Inv doc s0 { s with toks := r } :=
  ⟨⟨(List.sublist_cons_self k r).trans h.adv.sub, (sig_cons_suffix k r).trans h.adv.suf, h.adv.err, h.adv.eof⟩,
    h.docs, h.prev, h.errs⟩

theorem Inv.head {s : PSt} {k : Token} {r : List Token} (h : Inv doc s0 { s with toks := k :: r }) : k ∈ s0.toks :=
  h.adv.sub.subset (List.mem_cons_self ..)

theorem Inv.setPrev {s : PSt} {k : Token} {rg : NodeRange} (h : Inv doc s0 s) (hk : k ∈ s0.toks)
    (hr : k.range = some rg) : Inv doc s0 { s with endPrev := rg } :=
  ⟨⟨h.adv.sub, h.adv.suf, h.adv.err, h.adv.eof⟩, h.docs, .inr ⟨k, hk, hr⟩, h.errs⟩

theorem Inv.addDoc {s : PSt} {k : Token} (h : Inv doc s0 s) (hk : k ∈ s0.toks) (ht : k.t = .multilineComment) :
    Inv doc s0 { s with docs := k :: s.docs } := by
  refine ⟨⟨h.adv.sub, h.adv.suf, h.adv.err, h.adv.eof⟩, ?_, h.prev, h.errs⟩
  intro c hc
  rcases List.mem_cons.1 hc with rfl | hc
  · exact .inr ⟨hk, ht⟩
  · exact h.docs c hc

theorem Inv.addErr {s : PSt} {e : Err} (h : Inv doc s0 s) (he : Good (From doc s0) e) :
    Inv doc s0 { s with errors := s.errors ++ [e] } := by
  refine ⟨⟨h.adv.sub, h.adv.suf, h.adv.err.trans (List.prefix_append _ _), h.adv.eof⟩, h.docs, h.prev, ?_⟩
  intro x hx
  rcases List.mem_append.1 hx with hx | hx
  · exact h.errs x hx
  · rw [List.mem_singleton.1 hx]; exact .inr he

theorem Inv.setCtx {s : PSt} (c : Ctx) (h : Inv doc s0 s) : Inv doc s0 { s with ctx := c } :=
  ⟨⟨h.adv.sub, h.adv.suf, h.adv.err, h.adv.eof⟩, h.docs, h.prev, h.errs⟩

/-- A token of the stream is fine. -/
theorem okTok_source {k : Token} (h : k ∈ s0.toks) : OkTok doc s0 k := ⟨.source k h, fun hs => hs.ends k h⟩

theorem no_panic {k : Token} (hk : k ∈ s0.toks) (h : k.range = none) : ¬ Safe doc s0 :=
  fun hs => hs.ends k hk (range_eq_none.1 h)

/-- `next`: what it returns. -/
theorem nextOn_inv : ∀ (l : List Token) (s : PSt), Inv doc s0 { s with toks := l } →
    (nextOn l s = .panic ∧ ¬ Safe doc s0) ∨
    (∃ s', nextOn l s = .ok none s' ∧ Inv doc s0 s' ∧ s'.toks = [] ∧ sig l = []) ∨
    (∃ k s', nextOn l s = .ok (some k) s' ∧ Inv doc s0 s' ∧ k ∈ s0.toks)
  | [], s, h => .inr (.inl ⟨_, rfl, h, rfl, rfl⟩)
  | k :: r, s, h => by
    unfold nextOn
    cases hr : k.range with
    | none => exact .inl ⟨rfl, no_panic h.head hr⟩
    | some rg =>
      dsimp only
      split
      · rename_i ht
        have := nextOn_inv r { s with endPrev := rg, docs := k :: s.docs }
          ((h.drop.setPrev h.head hr).addDoc h.head ht)
        rw [sig_cons_drop (by simp [isSig, ht])]
        exact this
      · split
        · rename_i ht
          have := nextOn_inv r { s with endPrev := rg } (h.drop.setPrev h.head hr)
          rw [sig_cons_drop (by simp only [isTrivia] at ht; simp [isSig, ht])]
          exact this
        · exact .inr (.inr ⟨k, _, rfl, h.drop.setPrev h.head hr, h.head⟩)

/-- `peek`: what it returns. -/
theorem peekOn_inv : ∀ (l : List Token) (s : PSt), Inv doc s0 { s with toks := l } →
    (∃ s', peekOn l s = (none, s') ∧ Inv doc s0 s' ∧ sig s'.toks = sig l) ∨
    (∃ k r s', peekOn l s = (some k, s') ∧ Inv doc s0 s' ∧ s'.toks = k :: r ∧ k ∈ s0.toks ∧ isSig k = true ∧
      sig l = sig s'.toks)
  | [], s, h => .inl ⟨_, rfl, h, rfl⟩
  | k :: r, s, h => by
    unfold peekOn
    split
    · rename_i ht
      exact .inl ⟨_, rfl, h.drop, (sig_cons_drop (by simp [isSig, ht])).symm⟩
    · rename_i h1
      split
      · rename_i ht
        have := peekOn_inv r { s with docs := k :: s.docs } (h.drop.addDoc h.head ht)
        rw [sig_cons_drop (by simp [isSig, ht])]
        exact this
      · rename_i h2
        split
        · rename_i ht
          have := peekOn_inv r s h.drop
          rw [sig_cons_drop (by simp only [isTrivia] at ht; simp [isSig, ht])]
          exact this
        · rename_i h3
          refine .inr ⟨k, r, _, rfl, h, rfl, h.head, ?_, rfl⟩
          simp only [isTrivia, Bool.or_eq_true, beq_iff_eq, not_or] at h3
          simp [isSig, h1, h2, h3.1, h3.2]

theorem ffBeforeOn_inv (stop : List TT) : ∀ (l : List Token) (s : PSt), Inv doc s0 { s with toks := l } →
    (ffBeforeOn stop l s = .panic ∧ ¬ Safe doc s0) ∨ (∃ s', ffBeforeOn stop l s = .ok () s' ∧ Inv doc s0 s')
  | [], s, h => .inr ⟨_, rfl, h⟩
  | k :: r, s, h => by
    unfold ffBeforeOn
    split
    · exact .inr ⟨_, rfl, h.drop⟩
    · split
      · rename_i ht
        exact ffBeforeOn_inv stop r { s with docs := k :: s.docs } (h.drop.addDoc h.head ht)
      · split
        · exact ffBeforeOn_inv stop r s h.drop
        · split
          · exact .inr ⟨_, rfl, h⟩
          · cases hr : k.range with
            | none => exact .inl ⟨rfl, no_panic h.head hr⟩
            | some rg => exact ffBeforeOn_inv stop r { s with endPrev := rg } (h.drop.setPrev h.head hr)

theorem ffAfterOn_inv (stop : List TT) : ∀ (l : List Token) (s : PSt), Inv doc s0 { s with toks := l } →
    (ffAfterOn stop l s = .panic ∧ ¬ Safe doc s0) ∨ (∃ s', ffAfterOn stop l s = .ok () s' ∧ Inv doc s0 s')
  | [], s, h => .inr ⟨_, rfl, h⟩
  | k :: r, s, h => by
    unfold ffAfterOn
    cases hr : k.range with
    | none => exact .inl ⟨rfl, no_panic h.head hr⟩
    | some rg =>
      have h' := h.drop.setPrev h.head hr
      dsimp only
      split
      · rename_i ht
        exact ffAfterOn_inv stop r { s with endPrev := rg, docs := k :: s.docs } (h'.addDoc h.head ht)
      · split
        · exact ffAfterOn_inv stop r { s with endPrev := rg } h'
        · split
          · exact .inr ⟨_, rfl, h'⟩
          · exact ffAfterOn_inv stop r { s with endPrev := rg } h'

/-- Outcome of a primitive under the invariant. -/
def Out (doc : Token → Option Node) (s0 : PSt) [Val α] (x : Res α) : Prop :=
  (x = .panic ∧ ¬ Safe doc s0) ∨ (∃ a s', x = .ok a s' ∧ Inv doc s0 s' ∧ Good (OkTok doc s0) a)

/-- Taking the token `peek` has found. -/
theorem takeFront_inv {α : Type} {s : PSt} {k : Token} {r : List Token} (a : α) (h : Inv doc s0 s)
    (ht : s.toks = k :: r) : (takeFront k s a = .panic ∧ ¬ Safe doc s0) ∨
      (∃ s', takeFront k s a = .ok a s' ∧ Inv doc s0 s' ∧ s'.toks = r) := by
  have h' : Inv doc s0 { s with toks := k :: r } := by rw [← ht]; exact h
  unfold takeFront
  cases hr : k.range with
  | none => exact .inl ⟨rfl, no_panic h'.head hr⟩
  | some rg =>
    refine .inr ⟨_, rfl, ?_, ?_⟩
    · have := h'.drop.setPrev h'.head hr
      rw [ht]
      exact this
    · rw [ht]; rfl

theorem takeIf_inv (f : Token → Bool) (s : PSt) (h : Inv doc s0 s) :
    (takeIf f s = .panic ∧ ¬ Safe doc s0) ∨
    (∃ s', takeIf f s = .ok none s' ∧ Inv doc s0 s') ∨
    (∃ k s', takeIf f s = .ok (some k) s' ∧ Inv doc s0 s' ∧ k ∈ s0.toks ∧ (k :: sig s'.toks) <:+ sig s0.toks ∧
      (k :: s'.toks).Sublist s0.toks ∧ isSig k = true) := by
  rcases peekOn_inv (doc := doc) (s0 := s0) s.toks s h with ⟨s', hp, hi, -⟩ | ⟨k, r, s', hp, hi, hs', hk, hg, hsig⟩
  · exact .inr (.inl ⟨s', takeIf_none hp, hi⟩)
  · cases hf : f k
    · exact .inr (.inl ⟨s', takeIf_no hp hf, hi⟩)
    · rw [takeIf_yes hp hf]
      rcases takeFront_inv (some k) hi hs' with h | ⟨s2, h1, h2, h3⟩
      · exact .inl h
      · refine .inr (.inr ⟨k, s2, h1, h2, hk, ?_, ?_, hg⟩)
        · rw [h3, ← show sig (k :: r) = k :: sig r by simp [sig, hg], ← hs']
          exact hi.adv.suf
        · rw [h3, ← hs']
          exact hi.adv.sub

theorem takeOr_inv (f : Token → Bool) (s : PSt) (h : Inv doc s0 s) : Out doc s0 (takeOr f s) := by
  rcases peekOn_inv (doc := doc) (s0 := s0) s.toks s h with ⟨s', hp, hi, -⟩ | ⟨k, r, s', hp, hi, hs', hk, hg, hsig⟩
  · exact .inr ⟨none, s', takeOr_none hp, hi, by good_simp⟩
  · cases hf : f k
    · exact .inr ⟨some (k, false), s', takeOr_no hp hf, hi, by good_simp; exact okTok_source hk⟩
    · rw [takeOr_yes hp hf]
      rcases takeFront_inv (some (k, true)) hi hs' with h | ⟨s2, h1, h2, h3⟩
      · exact .inl h
      · exact .inr ⟨_, s2, h1, h2, by good_simp; exact okTok_source hk⟩

theorem okTok_missing {pos : ColLine} (h : From doc s0 (Token.missing pos)) : OkTok doc s0 (Token.missing pos) :=
  ⟨h, fun _ => missing_end pos⟩

theorem takeOrMissing_inv (f : Token → Bool) (s : PSt) (h : Inv doc s0 s) : Out doc s0 (takeOrMissing f s) := by
  rcases peekOn_inv (doc := doc) (s0 := s0) s.toks s h with ⟨s', hp, hi, -⟩ | ⟨k, r, s', hp, hi, hs', hk, hg, hsig⟩
  · refine .inr ⟨_, s', takeOrMissing_none hp, hi, ?_⟩
    good_simp
    rw [hi.adv.eof]
    exact okTok_missing .atEof
  · cases hf : f k
    · refine .inr ⟨_, s', takeOrMissing_no hp hf, hi, ?_⟩
      good_simp
      refine okTok_missing ?_
      rcases hi.prev with hp | ⟨k', hk', hr'⟩
      · rw [hp]; exact .atPrev
      · exact .behind k' _ (.source k' hk') (range_eq_some hr')
    · rw [takeOrMissing_yes hp hf]
      rcases takeFront_inv (k, false) hi hs' with h | ⟨s2, h1, h2, h3⟩
      · exact .inl h
      · exact .inr ⟨_, s2, h1, h2, by good_simp; exact okTok_source hk⟩

theorem lookahead_inv (f g : Token → Bool) (s : PSt) (h : Inv doc s0 s) : Out doc s0 (lookahead f g s) := by
  rcases takeIf_inv f s h with ⟨ht, hs⟩ | ⟨s', ht, hi⟩ | ⟨k, s', ht, hi, hk, hsf, hsub, hg⟩
  · exact .inl ⟨lookahead_panic ht, hs⟩
  · exact .inr ⟨none, s', lookahead_none ht, hi, by good_simp⟩
  · have back : ∀ s'' : PSt, Inv doc s0 s'' → sig s''.toks = sig s'.toks → s''.toks.Sublist s'.toks →
        Inv doc s0 { s'' with toks := k :: s''.toks } := by
      intro s'' hi'' hsig hsub'
      refine ⟨⟨?_, ?_, hi''.adv.err, hi''.adv.eof⟩, hi''.docs, hi''.prev, hi''.errs⟩
      · exact (List.Sublist.cons_cons k hsub').trans hsub
      · show sig (k :: s''.toks) <:+ _
        rw [show sig (k :: s''.toks) = k :: sig s''.toks by simp [sig, hg], hsig]
        exact hsf
    have hsubl : (peekOn s'.toks s').2.toks.Sublist s'.toks := by
      have := (peekOn_inv (doc := doc) (s0 := s') s'.toks s' (Inv.refl doc s'))
      rcases this with ⟨s'', hp, hi'', -⟩ | ⟨_, _, s'', hp, hi'', -⟩ <;> · rw [hp]; exact hi''.adv.sub
    rcases peekOn_inv (doc := doc) (s0 := s0) s'.toks s' hi with ⟨s'', hp, hi'', hsig⟩ |
        ⟨k', r, s'', hp, hi'', hs'', hk', hg', hsig⟩
    · rw [hp] at hsubl
      rw [lookahead_some ht (nextIs_none hp)]
      exact .inr ⟨none, _, rfl, back s'' hi'' hsig hsubl, by good_simp⟩
    · rw [hp] at hsubl
      rw [lookahead_some ht (nextIs_some hp)]
      cases g k'
      · exact .inr ⟨none, _, rfl, back s'' hi'' hsig.symm hsubl, by good_simp⟩
      · exact .inr ⟨some k, s'', rfl, hi'', by good_simp; exact okTok_source hk⟩

theorem hereDocBody_inv (s : PSt) (h : Inv doc s0 s) : Out doc s0 (hereDocBody s) := by
  rcases peekOn_inv (doc := doc) (s0 := s0) s.toks s h with ⟨s', hp, hi, -⟩ | ⟨k, r, s', hp, hi, hs', hk, hg, hsig⟩
  · exact .inr ⟨none, s', hereDocBody_no (nextIs_none hp), hi, by good_simp⟩
  · by_cases ht : k.t = .hereDocStart
    · rw [hereDocBody_yes hp ht]
      have hi' : Inv doc s0 { s' with toks := k :: r } := by rw [← hs']; exact hi
      cases hr : k.range with
      | none => exact .inl ⟨rfl, no_panic hk hr⟩
      | some rg =>
        have hi2 : Inv doc s0 { s' with endPrev := rg, toks := r } := hi'.drop.setPrev hk hr
        dsimp only
        rw [hs', show next { s' with endPrev := rg, toks := (k :: r).tail } =
          nextOn r { s' with endPrev := rg, toks := r } from rfl]
        rcases nextOn_inv r { s' with endPrev := rg, toks := r } hi2 with
          ⟨h1, h2⟩ | ⟨s2, h1, h2, h3, h4⟩ | ⟨k2, s2, h1, h2, h3⟩
        · exact .inl ⟨by rw [h1], h2⟩
        · refine .inl ⟨by rw [h1], ?_⟩
          intro hs
          rcases hs.heredoc k with hh | hh
          · apply hh
            have := hi'.adv.suf
            rw [show sig ({ s' with toks := k :: r } : PSt).toks = k :: sig r by simp [sig, hg], h4] at this
            exact this
          · exact hh ht
        · exact .inr ⟨some k2, s2, by rw [h1], h2, by good_simp; exact okTok_source h3⟩
    · have hn : nextOneOf [.hereDocStart] s = .ok false s' := by
        unfold nextOneOf
        rw [nextIs_some hp]
        simp [ht]
      exact .inr ⟨none, s', hereDocBody_no hn, hi, by good_simp⟩

theorem good_mono {α : Type} [Val α] {T T' : Token → Prop} {a : α} (h : ∀ k, T k → T' k) (ha : Good T a) : Good T' a :=
  fun k hk => h k (ha k hk)

/-- The relation of a run with itself under the invariant. -/
def Both (doc : Token → Option Node) (s0 s1 s2 : PSt) : Prop := s1 = s2 ∧ Inv doc s0 s1

theorem relP_of_out {α : Type} [Val α] {p : P α} (h : ∀ s, Inv doc s0 s → Out doc s0 (p s)) :
    RelP (OkTok doc s0) (Both doc s0) (¬ Safe doc s0) p p := by
  rintro s _ ⟨rfl, hi⟩
  rcases h s hi with ⟨hp, hs⟩ | ⟨a, s', hp, hi', ha⟩
  · rw [hp]; exact ⟨hs, rfl⟩
  · rw [hp]; exact ⟨ha, s', rfl, rfl, hi'⟩

end steps

/-- The invariant as a logical relation. -/
def invLR (doc : Token → Option Node) (s0 : PSt) : LR where
  T := OkTok doc s0
  S := Both doc s0
  panicOk := ¬ Safe doc s0
  hNext := relP_of_out fun s hi => by
    rcases nextOn_inv s.toks s hi with ⟨h1, h2⟩ | ⟨s2, h1, h2, h3, h4⟩ | ⟨k2, s2, h1, h2, h3⟩
    · exact .inl ⟨h1, h2⟩
    · exact .inr ⟨_, _, h1, h2, by good_simp⟩
    · exact .inr ⟨_, _, h1, h2, by good_simp; exact okTok_source h3⟩
  hPeek := relP_of_out fun s hi => by
    rcases peekOn_inv (doc := doc) (s0 := s0) s.toks s hi with ⟨s', hp, hi, -⟩ | ⟨k, r, s', hp, hi, hs', hk, -⟩
    · exact .inr ⟨none, s', by simp only [peek, hp], hi, by good_simp⟩
    · exact .inr ⟨some k, s', by simp only [peek, hp], hi, by good_simp; exact okTok_source hk⟩
  hTakeIf f := relP_of_out fun s hi => by
    rcases takeIf_inv f s hi with ⟨ht, hs⟩ | ⟨s', ht, hi⟩ | ⟨k, s', ht, hi, hk, -⟩
    · exact .inl ⟨ht, hs⟩
    · exact .inr ⟨_, _, ht, hi, by good_simp⟩
    · exact .inr ⟨_, _, ht, hi, by good_simp; exact okTok_source hk⟩
  hTakeOr f := relP_of_out (takeOr_inv f)
  hTakeOrMissing f := relP_of_out (takeOrMissing_inv f)
  hFfBefore ts := relP_of_out fun s hi => by
    rcases ffBeforeOn_inv ts s.toks s hi with h | ⟨s', h1, h2⟩
    · exact .inl h
    · exact .inr ⟨(), s', h1, h2, by good_simp⟩
  hFfAfter ts := relP_of_out fun s hi => by
    rcases ffAfterOn_inv ts s.toks s hi with h | ⟨s', h1, h2⟩
    · exact .inl h
    · exact .inr ⟨(), s', h1, h2, by good_simp⟩
  hPushErr e he := relP_of_out fun s hi =>
    .inr ⟨(), _, rfl, hi.addErr (good_mono (fun _ h => h.1) he), by good_simp⟩
  hSetCtx c := relP_of_out fun s hi => .inr ⟨(), _, rfl, hi.setCtx c, by good_simp⟩
  hGetCtx := relP_of_out fun s hi => .inr ⟨_, _, rfl, hi, by good_simp⟩
  hLookahead f g := relP_of_out (lookahead_inv f g)
  hHereDocBody := relP_of_out hereDocBody_inv
  missingOk k pos hk he := okTok_missing (.behind k pos hk.1 he)
  endOk k hk he hs := hk.2 hs he

section docs
variable {doc : Token → Option Node} {s0 : PSt}

theorem good_doc {c : Token} {n : Node} (hc : c ∈ s0.docs ∨ c ∈ s0.toks ∧ c.t = .multilineComment)
    (h : doc c = some n) : Good (OkTok doc s0) n := by
  intro k hk
  refine ⟨.comment c k n (hc.imp_right And.left) h hk, fun hs => hs.docEnds c n k hc h hk⟩

theorem good_varDocs {T : Token → Prop} {n : Node} (h : Good T n) : Good T (varDocs n) := by
  unfold varDocs
  split
  · good_simp at h; exact h.2.2.2.1
  · good_simp

theorem popDoc_inv : (invLR doc s0).rel (popDoc doc) (popDoc doc) := relP_of_out fun s hi => by
  unfold popDoc
  cases hd : s.docs with
  | nil => exact .inr ⟨none, s, rfl, hi, by good_simp⟩
  | cons c r =>
    have hc := hi.docs c (by rw [hd]; exact List.mem_cons_self ..)
    dsimp only
    cases hn : doc c with
    | none => exact .inl ⟨rfl, fun hs => hs.docs c hc hn⟩
    | some n =>
      refine .inr ⟨some n, _, rfl, ?_, by good_simp; exact good_doc hc hn⟩
      refine ⟨⟨hi.adv.sub, hi.adv.suf, hi.adv.err, hi.adv.eof⟩, ?_, hi.prev, hi.errs⟩
      intro k hk
      exact hi.docs k (by rw [hd]; exact List.mem_cons_of_mem _ hk)

theorem drainDocsOn_inv : ∀ (l : List Token) (s : PSt), Inv doc s0 { s with docs := l } →
    Out doc s0 (drainDocsOn doc l s)
  | [], s, h => .inr ⟨[], _, rfl, h, by good_simp⟩
  | c :: r, s, h => by
    unfold drainDocsOn
    have hc := h.docs c (List.mem_cons_self ..)
    cases hn : doc c with
    | none => exact .inl ⟨rfl, fun hs => hs.docs c hc hn⟩
    | some n =>
      dsimp only
      have h' : Inv doc s0 { s with docs := r } :=
        ⟨⟨h.adv.sub, h.adv.suf, h.adv.err, h.adv.eof⟩, fun k hk => h.docs k (List.mem_cons_of_mem _ hk), h.prev, h.errs⟩
      rcases drainDocsOn_inv r s h' with ⟨h1, h2⟩ | ⟨a, s', h1, h2, h3⟩
      · rw [h1]; exact .inl ⟨rfl, h2⟩
      · rw [h1]
        exact .inr ⟨_, _, rfl, h2, by good_simp; exact ⟨good_varDocs (good_doc hc hn), h3⟩⟩

theorem drainDocs_inv : (invLR doc s0).rel (drainDocs doc) (drainDocs doc) :=
  relP_of_out fun s hi => drainDocsOn_inv s.docs s hi

/-- Every run of the grammar keeps the invariant. -/
theorem knot_inv (n : Nat) : (invLR doc s0).Rec (knot doc n) (knot doc n) :=
  LR.rel_knot popDoc_inv drainDocs_inv (Nat.le_refl n)

end docs

end PhpLs.Parser
