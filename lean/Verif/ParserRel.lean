import Verif.NodeGood

/-!
# A logical relation for parser functions

`LR` packages a relation between the states of two runs of the parser together with a predicate on tokens.  Two parser
functions are related (`LR.rel`) if from related states they produce the same value (whose tokens are good) and again
related states.  The relation is closed under everything the grammar is built from, so a proof that the primitives of
`Verif/ParserCore.lean` respect a particular relation gives a theorem about the whole grammar
(`Verif/GrammarRel.lean`).  Instances: `Props/ParserTrivia.lean`, `Props/ParserInv.lean`, `Props/ParserTrivia.lean`.
-/

namespace PhpLs.Parser

open PhpLs

/-- Two outcomes agree: same value or error with good tokens, related states.  Nothing is said if the first one ran out of
fuel. -/
def RelR (T : Token → Prop) (S : PSt → PSt → Prop) (panicOk : Prop) [Val α] : Res α → Res α → Prop
  | .diverge _, _ => True
  | .panic, r2 => panicOk ∧ r2 = .panic
  | .ok a s1, r2 => Good T a ∧ ∃ s2, r2 = .ok a s2 ∧ S s1 s2
  | .err e s1, r2 => Good T e ∧ ∃ s2, r2 = .err e s2 ∧ S s1 s2

/-- From related states two parser functions have agreeing outcomes. -/
def RelP (T : Token → Prop) (S : PSt → PSt → Prop) (panicOk : Prop) [Val α] (p q : P α) : Prop :=
  ∀ s1 s2, S s1 s2 → RelR T S panicOk (p s1) (q s2)

/-- A relation between runs of the parser that all primitives respect. -/
structure LR where
  /-- Property of all tokens in results. -/
  T : Token → Prop
  /-- Relation between the states. -/
  S : PSt → PSt → Prop
  /-- Whether panics are allowed. -/
  panicOk : Prop
  hNext : RelP T S panicOk next next
  hPeek : RelP T S panicOk peek peek
  hTakeIf : ∀ f, RelP T S panicOk (takeIf f) (takeIf f)
  hTakeOr : ∀ f, RelP T S panicOk (takeOr f) (takeOr f)
  hTakeOrMissing : ∀ f, RelP T S panicOk (takeOrMissing f) (takeOrMissing f)
  hFfBefore : ∀ ts, RelP T S panicOk (ffBefore ts) (ffBefore ts)
  hFfAfter : ∀ ts, RelP T S panicOk (ffAfter ts) (ffAfter ts)
  hPushErr : ∀ e, Good T e → RelP T S panicOk (pushErr e) (pushErr e)
  hSetCtx : ∀ c, RelP T S panicOk (setCtx c) (setCtx c)
  hGetCtx : RelP T S panicOk getCtx getCtx
  hLookahead : ∀ f g, RelP T S panicOk (lookahead f g) (lookahead f g)
  hHereDocBody : RelP T S panicOk hereDocBody hereDocBody
  missingOk : ∀ k pos, T k → k.end = some pos → T (Token.missing pos)
  endOk : ∀ k, T k → k.end = none → panicOk

namespace LR

variable (L : LR)

/-- The relation between parser functions of `L`. -/
def rel [Val α] (p q : P α) : Prop := RelP L.T L.S L.panicOk p q

variable {L}

theorem rel_pure [Val α] {a : α} (h : Good L.T a) : L.rel (pure a) (pure a) :=
  fun _ s2 hs => ⟨h, s2, rfl, hs⟩

theorem rel_fail [Val α] {e : Err} (h : Good L.T e) : L.rel (P.fail e : P α) (P.fail e) :=
  fun _ s2 hs => ⟨h, s2, rfl, hs⟩

theorem rel_panic [Val α] (h : L.panicOk) : L.rel (P.panic : P α) P.panic :=
  fun _ _ _ => ⟨h, rfl⟩

theorem rel_diverge [Val α] (site : Site) (q : P α) : L.rel (P.diverge site) q :=
  fun _ _ _ => trivial

theorem rel_bind [Val α] [Val β] {p q : P α} {k l : α → P β} (h : L.rel p q)
    (hk : ∀ a, Good L.T a → L.rel (k a) (l a)) : L.rel (p >>= k) (q >>= l) := by
  intro s1 s2 hs
  have h1 := h s1 s2 hs
  show RelR L.T L.S L.panicOk (P.bind p k s1) (P.bind q l s2)
  unfold P.bind
  cases hp : p s1 with
  | ok a s1' =>
    rw [hp] at h1
    obtain ⟨ha, s2', hq, hs'⟩ := h1
    rw [hq]
    exact hk a ha s1' s2' hs'
  | err e s1' =>
    rw [hp] at h1
    obtain ⟨he, s2', hq, hs'⟩ := h1
    rw [hq]
    exact ⟨he, s2', rfl, hs'⟩
  | panic =>
    rw [hp] at h1
    rw [h1.2]
    exact ⟨h1.1, rfl⟩
  | diverge site => trivial

theorem rel_catchErr [Val α] [Val β] {p q : P α} {ok1 ok2 : α → P β} {err1 err2 : Err → P β} (h : L.rel p q)
    (ho : ∀ a, Good L.T a → L.rel (ok1 a) (ok2 a)) (he : ∀ e, Good L.T e → L.rel (err1 e) (err2 e)) :
    L.rel (P.catchErr p ok1 err1) (P.catchErr q ok2 err2) := by
  intro s1 s2 hs
  have h1 := h s1 s2 hs
  unfold P.catchErr
  cases hp : p s1 with
  | ok a s1' =>
    rw [hp] at h1
    obtain ⟨ha, s2', hq, hs'⟩ := h1
    rw [hq]
    exact ho a ha s1' s2' hs'
  | err e s1' =>
    rw [hp] at h1
    obtain ⟨ha, s2', hq, hs'⟩ := h1
    rw [hq]
    exact he e ha s1' s2' hs'
  | panic =>
    rw [hp] at h1
    rw [h1.2]
    exact ⟨h1.1, rfl⟩
  | diverge site => trivial

theorem rel_ite [Val α] {c : Prop} [Decidable c] {p q p' q' : P α} (h1 : c → L.rel p p') (h2 : ¬ c → L.rel q q') :
    L.rel (if c then p else q) (if c then p' else q') := by
  by_cases h : c
  · simp only [if_pos h]; exact h1 h
  · simp only [if_neg h]; exact h2 h

theorem rel_loopP [Val α] [Val β] {site : Site} {body1 body2 : β → P (β ⊕ α)}
    (hb : ∀ b, Good L.T b → L.rel (body1 b) (body2 b)) :
    ∀ {n m : Nat}, n ≤ m → ∀ b, Good L.T b → L.rel (loopP site n body1 b) (loopP site m body2 b)
  | 0, _, _, _, _ => rel_diverge _ _
  | n + 1, 0, h, _, _ => absurd h (by omega)
  | n + 1, m + 1, h, b, hgb => by
    unfold loopP
    refine rel_bind (hb b hgb) ?_
    intro x hx
    cases x with
    | inl b' => exact rel_loopP hb (Nat.le_of_succ_le_succ h) b' ((good_inl b').1 hx)
    | inr a => exact rel_pure ((good_inr a).1 hx)

theorem rel_next : L.rel next next := L.hNext
theorem rel_peek : L.rel peek peek := L.hPeek
theorem rel_takeIf (f) : L.rel (takeIf f) (takeIf f) := L.hTakeIf f
theorem rel_takeOr (f) : L.rel (takeOr f) (takeOr f) := L.hTakeOr f
theorem rel_takeOrMissing (f) : L.rel (takeOrMissing f) (takeOrMissing f) := L.hTakeOrMissing f
theorem rel_ffBefore (ts) : L.rel (ffBefore ts) (ffBefore ts) := L.hFfBefore ts
theorem rel_ffAfter (ts) : L.rel (ffAfter ts) (ffAfter ts) := L.hFfAfter ts
theorem rel_pushErr {e} (h : Good L.T e) : L.rel (pushErr e) (pushErr e) := L.hPushErr e h
theorem rel_setCtx (c) : L.rel (setCtx c) (setCtx c) := L.hSetCtx c
theorem rel_getCtx : L.rel getCtx getCtx := L.hGetCtx
theorem rel_lookahead (f g) : L.rel (lookahead f g) (lookahead f g) := L.hLookahead f g
theorem rel_hereDocBody : L.rel hereDocBody hereDocBody := L.hHereDocBody

theorem rel_consumeOrIgnore (t) : L.rel (consumeOrIgnore t) (consumeOrIgnore t) := rel_takeIf _
theorem rel_consumeOneOfOrIgnore (ts) : L.rel (consumeOneOfOrIgnore ts) (consumeOneOfOrIgnore ts) := rel_takeIf _
theorem rel_errorFastForward : L.rel errorFastForward errorFastForward := rel_ffBefore _

end LR

namespace LR
variable {L : LR}

theorem rel_nextIs (f) : L.rel (nextIs f) (nextIs f) := by
  refine rel_bind rel_peek ?_
  intro a ha
  cases a with
  | none => exact rel_pure (by good_simp)
  | some k => exact rel_pure (by good_simp)

theorem rel_nextOneOf (ts) : L.rel (nextOneOf ts) (nextOneOf ts) := rel_nextIs _
theorem rel_nextIsMember : L.rel nextIsMember nextIsMember := rel_nextIs _

theorem rel_consume (t) : L.rel (consume t) (consume t) := by
  refine rel_bind (rel_takeOrMissing _) ?_
  rintro ⟨k, w⟩ ha
  rw [good_pair] at ha
  refine rel_ite (fun _ => ?_) (fun _ => rel_pure ha.1)
  refine rel_bind rel_errorFastForward fun _ _ => ?_
  refine rel_bind (rel_pushErr ?_) fun _ _ => rel_pure ha.1
  good_simp; exact (good_token k).1 ha.1

theorem rel_consumeIdentifier : L.rel consumeIdentifier consumeIdentifier := by
  refine rel_bind (rel_takeOrMissing _) ?_
  rintro ⟨k, w⟩ ha
  rw [good_pair] at ha
  refine rel_ite (fun _ => ?_) (fun _ => rel_pure ha.1)
  refine rel_bind (rel_pushErr ?_) fun _ _ => rel_pure ha.1
  good_simp; exact (good_token k).1 ha.1

theorem rel_consumeEndOfStatement : L.rel consumeEndOfStatement consumeEndOfStatement := by
  refine rel_bind (rel_takeOr _) ?_
  rintro (_ | ⟨k, w⟩) ha
  · exact rel_pushErr (by good_simp)
  · good_simp at ha
    refine rel_ite (fun _ => rel_pure (by good_simp)) fun _ => ?_
    refine rel_ite (fun _ => rel_pure (by good_simp)) fun _ => ?_
    refine rel_bind rel_errorFastForward fun _ _ => rel_pushErr ?_
    good_simp; exact ha

theorem rel_consumeOrFfAfter (t ts) : L.rel (consumeOrFfAfter t ts) (consumeOrFfAfter t ts) := by
  refine rel_bind (rel_takeOr _) ?_
  rintro (_ | ⟨k, w⟩) ha
  · exact rel_pushErr (by good_simp)
  · good_simp at ha
    refine rel_ite (fun _ => rel_pure (by good_simp)) fun _ => ?_
    refine rel_bind (rel_pushErr ?_) fun _ _ => rel_ffAfter _
    good_simp; exact ha

theorem rel_consumeOrFfBefore (t ts) : L.rel (consumeOrFfBefore t ts) (consumeOrFfBefore t ts) := by
  refine rel_bind (rel_takeOr _) ?_
  rintro (_ | ⟨k, w⟩) ha
  · refine rel_bind (rel_pushErr (by good_simp)) fun _ _ => rel_fail (by good_simp)
  · good_simp at ha
    refine rel_ite (fun _ => rel_pure (by good_simp; exact ha)) fun _ => ?_
    refine rel_bind (rel_pushErr (by good_simp; exact ha)) fun _ _ => ?_
    refine rel_bind (rel_ffBefore _) fun _ _ => rel_pure (by good_simp; exact ha)

theorem rel_consumeMember : L.rel consumeMember consumeMember := by
  refine rel_bind rel_next ?_
  rintro (_ | k) ha
  · exact rel_fail (by good_simp)
  · good_simp at ha
    exact rel_ite (fun _ => rel_pure (by good_simp; exact ha)) fun _ => rel_fail (by good_simp; exact ha)

theorem rel_consumeOneOf (ts) : L.rel (consumeOneOf ts) (consumeOneOf ts) := by
  refine rel_bind rel_next ?_
  rintro (_ | k) ha
  · exact rel_fail (by good_simp)
  · good_simp at ha
    exact rel_ite (fun _ => rel_pure (by good_simp; exact ha)) fun _ => rel_fail (by good_simp; exact ha)

/-- Two knots agree. -/
structure Rec (L : LR) (r1 r2 : Rec) : Prop where
  fuel : r1.fuel ≤ r2.fuel
  popDoc : L.rel (popDoc r1.doc) (popDoc r2.doc)
  drainDocs : L.rel (drainDocs r1.doc) (drainDocs r2.doc)
  expression : ∀ b, L.rel (r1.expression b) (r2.expression b)
  statement : L.rel r1.statement r2.statement
  call : L.rel r1.call r2.call

end LR

/-- Closes a goal of the form `L.rel p q` by a lemma; extended by every lemma about a grammar function. -/
syntax "rel_lem" : tactic

macro_rules | `(tactic| rel_lem) => `(tactic| fail)
macro_rules | `(tactic| rel_lem) => `(tactic| assumption)
macro_rules | `(tactic| rel_lem) => `(tactic| with_reducible first
  | exact LR.rel_next
  | exact LR.rel_peek
  | exact LR.rel_takeIf _
  | exact LR.rel_consumeOrIgnore _
  | exact LR.rel_consumeOneOfOrIgnore _
  | exact LR.rel_takeOr _
  | exact LR.rel_setCtx _
  | exact LR.rel_getCtx
  | exact LR.rel_lookahead _ _
  | exact LR.rel_hereDocBody
  | exact LR.rel_nextOneOf _
  | exact LR.rel_nextIsMember
  | exact LR.rel_consume _
  | exact LR.rel_consumeIdentifier
  | exact LR.rel_consumeEndOfStatement
  | exact LR.rel_consumeOrFfAfter _ _
  | exact LR.rel_consumeOrFfBefore _ _
  | exact LR.rel_consumeMember
  | exact LR.rel_consumeOneOf _
  | exact LR.rel_errorFastForward
  | exact LR.Rec.expression ‹_› _
  | exact LR.Rec.statement ‹_›
  | exact LR.Rec.call ‹_›
  | exact LR.Rec.popDoc ‹_›
  | exact LR.Rec.drainDocs ‹_›)

/-- Proves that a result is good. -/
macro "good_leaf" : tactic => `(tactic| (with_reducible refine good_intro ?_; good_simp at *; first | done | (simp_all; done)))

/-- One step of a proof that two instances of the same grammar function are related. -/
macro "rel_step" : tactic => `(tactic| first
  | with_reducible intro _
  | good_leaf
  | with_reducible refine LR.rel_bind ?_ ?_
  | with_reducible refine LR.rel_pure ?_
  | with_reducible refine LR.rel_ite ?_ ?_
  | with_reducible refine LR.rel_fail ?_
  | with_reducible refine LR.rel_pushErr ?_
  | with_reducible refine LR.rel_catchErr ?_ ?_ ?_
  | with_reducible refine LR.rel_loopP ?_ (LR.Rec.fuel ‹_›) _ ?_
  | rel_lem
  | split)

/-- Proof that two instances of the same grammar function are related. -/
macro "rel_auto" : tactic => `(tactic| repeat' rel_step)

end PhpLs.Parser
