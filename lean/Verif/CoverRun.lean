import Verif.NodeCover

/-!
# Places of the tokens a parser function takes

`Runs p f Q` says: if the remaining tokens lie behind the place `p` and follow one another, then after `f` they lie behind a
place `q`, and the result and `q` satisfy `Q`.  A run with an error has a place from `bound` on.  The rules of this logic, the
token helpers, and how the places of the parts of a node are put together.
-/

namespace PhpLs.Parser

open PhpLs PhpLs.Suggester

set_option linter.unusedVariables false

namespace Sc

variable (c : Sc)

/-- The tokens lie behind the place and follow one another. -/
def Ord : Nat → List Token → Prop
  | _, [] => True
  | p, k :: r => p ≤ c.st k ∧ c.st k ≤ c.en k ∧ c.en k < c.bound ∧ Ord (c.en k) r

/-- The parser is at the place `p`; from `bound` on there was an error. -/
def At (p : Nat) (s : PSt) : Prop := (s.errors ≠ [] ∧ c.bound ≤ p) ∨ (s.errors = [] ∧ p < c.bound ∧ c.Ord p s.toks)

/-- From the place `p`, the parser function goes to a place behind it, and place and result satisfy `Q`. -/
def Runs (p : Nat) (f : P α) (Q : Nat → α → Prop) : Prop := ∀ s, c.At p s →
  match f s with
  | .ok a s' => ∃ q, p ≤ q ∧ c.At q s' ∧ Q q a
  | .err _ s' => ∃ q, p ≤ q ∧ c.At q s'
  | _ => True

/-- The part lies between two places, if there was no error. -/
def Ok (p q : Nat) (i : Part) : Prop := q < c.bound → c.OkR p q i

/-- The parts follow one another between two places, if there was no error. -/
def Seq (p q : Nat) (l : List Part) : Prop := q < c.bound → c.SeqR p q l

variable {c}

/-! ## Rules -/

theorem Runs.pure {p : Nat} {a : α} {Q : Nat → α → Prop} (h : Q p a) : c.Runs p (pure a) Q :=
  fun s hs => ⟨p, Nat.le_refl _, hs, h⟩

theorem Runs.mono {p : Nat} {f : P α} {Q R : Nat → α → Prop} (h : c.Runs p f Q) (hq : ∀ q a, p ≤ q → Q q a → R q a) :
    c.Runs p f R := by
  intro s hs
  have := h s hs
  cases hf : f s with
  | ok a s' => rw [hf] at this; obtain ⟨q, h1, h2, h3⟩ := this; exact ⟨q, h1, h2, hq q a h1 h3⟩
  | err e s' => rw [hf] at this; exact this
  | panic => trivial
  | diverge x => trivial

theorem Runs.bind {p : Nat} {f : P α} {g : α → P β} {Q : Nat → α → Prop} {R : Nat → β → Prop} (h : c.Runs p f Q)
    (hg : ∀ q a, p ≤ q → Q q a → c.Runs q (g a) R) : c.Runs p (f >>= g) R := by
  intro s hs
  have := h s hs
  show match (P.bind f g) s with
    | .ok a s' => ∃ q, p ≤ q ∧ c.At q s' ∧ R q a
    | .err _ s' => ∃ q, p ≤ q ∧ c.At q s'
    | _ => True
  unfold P.bind
  cases hf : f s with
  | ok a s' =>
    rw [hf] at this
    obtain ⟨q, h1, h2, h3⟩ := this
    have := hg q a h1 h3 s' h2
    cases hx : g a s' with
    | ok b s'' => rw [hx] at this; obtain ⟨q', h4, h5, h6⟩ := this; simp only [hx]; exact ⟨q', by omega, h5, h6⟩
    | err e s'' => rw [hx] at this; obtain ⟨q', h4, h5⟩ := this; simp only [hx]; exact ⟨q', by omega, h5⟩
    | panic => simp only [hx]
    | diverge x => simp only [hx]
  | err e s' => rw [hf] at this; exact this
  | panic => trivial
  | diverge x => trivial

theorem Runs.ite {p : Nat} {b : Prop} [Decidable b] {f g : P α} {Q : Nat → α → Prop} (h1 : b → c.Runs p f Q)
    (h2 : ¬ b → c.Runs p g Q) : c.Runs p (if b then f else g) Q := by
  by_cases h : b
  · simp only [if_pos h]; exact h1 h
  · simp only [if_neg h]; exact h2 h

theorem Runs.fail {p : Nat} {e : Err} {Q : Nat → α → Prop} : c.Runs p (P.fail e) Q := fun s hs => ⟨p, Nat.le_refl _, hs⟩
theorem Runs.panic {p : Nat} {Q : Nat → α → Prop} : c.Runs p P.panic Q := fun s hs => trivial
theorem Runs.diverge {p : Nat} {x : Site} {Q : Nat → α → Prop} : c.Runs p (P.diverge x) Q := fun s hs => trivial

theorem Runs.catchErr {p : Nat} {f : P α} {ok : α → P β} {er : Err → P β} {Q : Nat → α → Prop} {R : Nat → β → Prop}
    (h : c.Runs p f Q) (h1 : ∀ q a, p ≤ q → Q q a → c.Runs q (ok a) R) (h2 : ∀ q e, p ≤ q → c.Runs q (er e) R) :
    c.Runs p (P.catchErr f ok er) R := by
  intro s hs
  have := h s hs
  unfold P.catchErr
  cases hf : f s with
  | ok a s' =>
    rw [hf] at this
    obtain ⟨q, g1, g2, g3⟩ := this
    have := h1 q a g1 g3 s' g2
    cases hx : ok a s' with
    | ok b s'' => rw [hx] at this; obtain ⟨q', h4, h5, h6⟩ := this; simp only [hx]; exact ⟨q', by omega, h5, h6⟩
    | err e s'' => rw [hx] at this; obtain ⟨q', h4, h5⟩ := this; simp only [hx]; exact ⟨q', by omega, h5⟩
    | panic => simp only [hx]
    | diverge x => simp only [hx]
  | err e s' =>
    rw [hf] at this
    obtain ⟨q, g1, g2⟩ := this
    have := h2 q e g1 s' g2
    cases hx : er e s' with
    | ok b s'' => rw [hx] at this; obtain ⟨q', h4, h5, h6⟩ := this; simp only [hx]; exact ⟨q', by omega, h5, h6⟩
    | err e s'' => rw [hx] at this; obtain ⟨q', h4, h5⟩ := this; simp only [hx]; exact ⟨q', by omega, h5⟩
    | panic => simp only [hx]
    | diverge x => simp only [hx]
  | panic => trivial
  | diverge x => trivial

theorem Runs.loop {site : Site} {body : β → P (β ⊕ α)} {I : Nat → β → Prop} {Q : Nat → α → Prop} {p : Nat}
    (hb : ∀ q b, p ≤ q → I q b → c.Runs q (body b) fun q' x => Sum.elim (I q') (Q q') x) :
    ∀ (n : Nat) (b : β), I p b → c.Runs p (loopP site n body b) Q := by
  suffices h : ∀ (n : Nat) (b : β) (p' : Nat), p ≤ p' → I p' b → c.Runs p' (loopP site n body b) Q from
    fun n b hI => h n b p (Nat.le_refl _) hI
  intro n
  induction n with
  | zero => intro b p' hp' hI; exact Runs.diverge
  | succ n ih =>
    intro b p' hp' hI
    unfold loopP
    refine Runs.bind (hb p' b hp' hI) fun q x hq hx => ?_
    split
    · exact ih _ q (by omega) hx
    · exact Runs.pure hx

/-! ## Tokens -/

theorem ord_mono : ∀ {l : List Token} {p p' : Nat}, p ≤ p' → c.Ord p' l → c.Ord p l
  | [], _, _, _, _ => trivial
  | k :: r, p, p', h, ho => ⟨Nat.le_trans h ho.1, ho.2⟩

theorem ord_tail {k : Token} {l : List Token} {p : Nat} (h : c.Ord p (k :: l)) : c.Ord p l :=
  ord_mono (Nat.le_trans h.1 h.2.1) h.2.2.2

theorem nextOn_at : ∀ (l : List Token) (s : PSt) (o : Option Token) (s' : PSt), nextOn l s = .ok o s' →
    s'.errors = s.errors ∧ (∀ p, c.Ord p l → c.Ord p s'.toks ∧
      ∀ k, o = some k → p ≤ c.st k ∧ c.st k ≤ c.en k ∧ c.en k < c.bound ∧ c.Ord (c.en k) s'.toks)
  | [], s, o, s', h => by
    unfold nextOn at h
    cases h
    exact ⟨rfl, fun p _ => ⟨trivial, fun k hk => by cases hk⟩⟩
  | k :: r, s, o, s', h => by
    unfold nextOn at h
    split at h
    · cases h
    · split at h
      · obtain ⟨h1, h2⟩ := nextOn_at r _ o s' h
        exact ⟨h1, fun p hp => h2 p (ord_tail hp)⟩
      · split at h
        · obtain ⟨h1, h2⟩ := nextOn_at r _ o s' h
          exact ⟨h1, fun p hp => h2 p (ord_tail hp)⟩
        · cases h
          exact ⟨rfl, fun p hp => ⟨ord_tail hp, fun k' hk' => by cases hk'; exact hp⟩⟩

theorem nextOn_no_err : ∀ (l : List Token) (s : PSt) (e : Err) (s' : PSt), nextOn l s ≠ .err e s'
  | [], s, e, s', h => by unfold nextOn at h; cases h
  | k :: r, s, e, s', h => by
    unfold nextOn at h
    split at h
    · cases h
    · split at h
      · exact nextOn_no_err r _ e s' h
      · split at h
        · exact nextOn_no_err r _ e s' h
        · cases h

theorem ok_dead {p q : Nat} {i : Part} (h : c.bound ≤ q) : c.Ok p q i := fun hq => by omega

theorem run_next {p : Nat} : c.Runs p next fun q o => c.Ok p q (.otok o) := by
  intro s hs
  unfold next
  cases h : nextOn s.toks s with
  | ok o s' =>
    obtain ⟨h1, h2⟩ := nextOn_at (c := c) _ _ _ _ h
    rcases hs with ⟨hs1, hs2⟩ | ⟨hs1, hs2, hs3⟩
    · exact ⟨p, Nat.le_refl _, .inl ⟨by rw [h1]; exact hs1, hs2⟩, ok_dead hs2⟩
    · obtain ⟨g1, g2⟩ := h2 p hs3
      cases o with
      | none => exact ⟨p, Nat.le_refl _, .inr ⟨by rw [h1]; exact hs1, hs2, g1⟩, fun _ => ⟨Nat.le_refl _, fun k hk => by cases hk⟩⟩
      | some k =>
        obtain ⟨g3, g4, g5, g6⟩ := g2 k rfl
        refine ⟨c.en k, by omega, .inr ⟨by rw [h1]; exact hs1, g5, g6⟩, fun _ => ⟨by omega, fun k' hk' => ?_⟩⟩
        cases hk'
        exact ⟨g3, g4, Nat.le_refl _⟩
  | err e s' => exact absurd h (nextOn_no_err _ _ _ _)
  | panic => trivial
  | diverge x => trivial

theorem peekOn_at : ∀ (l : List Token) (s : PSt), (peekOn l s).2.errors = s.errors ∧
    ∀ p, c.Ord p l → c.Ord p (peekOn l s).2.toks
  | [], s => ⟨rfl, fun _ _ => trivial⟩
  | k :: r, s => by
    unfold peekOn
    split
    · exact ⟨rfl, fun p hp => ord_tail hp⟩
    · split
      · obtain ⟨h1, h2⟩ := peekOn_at r { s with docs := k :: s.docs }
        exact ⟨h1, fun p hp => h2 p (ord_tail hp)⟩
      · split
        · obtain ⟨h1, h2⟩ := peekOn_at r s
          exact ⟨h1, fun p hp => h2 p (ord_tail hp)⟩
        · exact ⟨rfl, fun p hp => hp⟩

theorem run_peek {p : Nat} : c.Runs p peek fun _ _ => True := by
  intro s hs
  obtain ⟨h1, h2⟩ := peekOn_at (c := c) s.toks s
  refine ⟨p, Nat.le_refl _, ?_, trivial⟩
  rcases hs with ⟨hs1, hs2⟩ | ⟨hs1, hs2, hs3⟩
  · exact .inl ⟨by rw [h1]; exact hs1, hs2⟩
  · exact .inr ⟨by rw [h1]; exact hs1, hs2, h2 p hs3⟩

theorem run_pushErr {p : Nat} {e : Err} : c.Runs p (pushErr e) fun q _ => c.bound ≤ q :=
  fun s hs => ⟨max p c.bound, by omega, .inl ⟨by simp, by omega⟩, by omega⟩

theorem run_setCtx {p : Nat} {x : Ctx} : c.Runs p (setCtx x) fun _ _ => True := fun s hs => ⟨p, Nat.le_refl _, hs, trivial⟩
theorem run_getCtx {p : Nat} : c.Runs p getCtx fun _ _ => True := fun s hs => ⟨p, Nat.le_refl _, hs, trivial⟩

theorem ffBeforeOn_at {stop : List TT} : ∀ (l : List Token) (s : PSt) (u : Unit) (s' : PSt), ffBeforeOn stop l s = .ok u s' →
    s'.errors = s.errors ∧ ∀ p, c.Ord p l → c.Ord p s'.toks
  | [], s, u, s', h => by unfold ffBeforeOn at h; cases h; exact ⟨rfl, fun _ _ => trivial⟩
  | k :: r, s, u, s', h => by
    unfold ffBeforeOn at h
    have step : ∀ s1, ffBeforeOn stop r s1 = .ok u s' → s1.errors = s.errors → s'.errors = s.errors ∧ ∀ p, c.Ord p (k :: r) → c.Ord p s'.toks :=
      fun s1 h1 h2 => ⟨(ffBeforeOn_at r s1 u s' h1).1.trans h2, fun p hp => (ffBeforeOn_at r s1 u s' h1).2 p (ord_tail hp)⟩
    split at h
    · cases h; exact ⟨rfl, fun p hp => ord_tail hp⟩
    · split at h
      · exact step _ h rfl
      · split at h
        · exact step _ h rfl
        · split at h
          · cases h; exact ⟨rfl, fun p hp => hp⟩
          · split at h
            · cases h
            · exact step _ h rfl

theorem ffBeforeOn_no_err {stop : List TT} : ∀ (l : List Token) (s : PSt) (e : Err) (s' : PSt), ffBeforeOn stop l s ≠ .err e s'
  | [], s, e, s', h => by unfold ffBeforeOn at h; cases h
  | k :: r, s, e, s', h => by
    unfold ffBeforeOn at h
    split at h
    · cases h
    · split at h
      · exact ffBeforeOn_no_err r _ e s' h
      · split at h
        · exact ffBeforeOn_no_err r _ e s' h
        · split at h
          · cases h
          · split at h
            · cases h
            · exact ffBeforeOn_no_err r _ e s' h

theorem run_ffBefore {p : Nat} {stop : List TT} : c.Runs p (ffBefore stop) fun _ _ => True := by
  intro s hs
  unfold ffBefore
  cases h : ffBeforeOn stop s.toks s with
  | ok u s' =>
    obtain ⟨h1, h2⟩ := ffBeforeOn_at (c := c) _ _ _ _ h
    refine ⟨p, Nat.le_refl _, ?_, trivial⟩
    rcases hs with ⟨hs1, hs2⟩ | ⟨hs1, hs2, hs3⟩
    · exact .inl ⟨by rw [h1]; exact hs1, hs2⟩
    · exact .inr ⟨by rw [h1]; exact hs1, hs2, h2 p hs3⟩
  | err e s' => exact absurd h (ffBeforeOn_no_err _ _ _ _)
  | panic => trivial
  | diverge x => trivial

theorem ffAfterOn_at {stop : List TT} : ∀ (l : List Token) (s : PSt) (u : Unit) (s' : PSt), ffAfterOn stop l s = .ok u s' →
    s'.errors = s.errors ∧ ∀ p, c.Ord p l → c.Ord p s'.toks
  | [], s, u, s', h => by unfold ffAfterOn at h; cases h; exact ⟨rfl, fun _ _ => trivial⟩
  | k :: r, s, u, s', h => by
    unfold ffAfterOn at h
    have step : ∀ s1, ffAfterOn stop r s1 = .ok u s' → s1.errors = s.errors → s'.errors = s.errors ∧ ∀ p, c.Ord p (k :: r) → c.Ord p s'.toks :=
      fun s1 h1 h2 => ⟨(ffAfterOn_at r s1 u s' h1).1.trans h2, fun p hp => (ffAfterOn_at r s1 u s' h1).2 p (ord_tail hp)⟩
    split at h
    · cases h
    · split at h
      · exact step _ h rfl
      · split at h
        · exact step _ h rfl
        · split at h
          · cases h; exact ⟨rfl, fun p hp => ord_tail hp⟩
          · exact step _ h rfl

theorem ffAfterOn_no_err {stop : List TT} : ∀ (l : List Token) (s : PSt) (e : Err) (s' : PSt), ffAfterOn stop l s ≠ .err e s'
  | [], s, e, s', h => by unfold ffAfterOn at h; cases h
  | k :: r, s, e, s', h => by
    unfold ffAfterOn at h
    split at h
    · cases h
    · split at h
      · exact ffAfterOn_no_err r _ e s' h
      · split at h
        · exact ffAfterOn_no_err r _ e s' h
        · split at h
          · cases h
          · exact ffAfterOn_no_err r _ e s' h

theorem run_ffAfter {p : Nat} {stop : List TT} : c.Runs p (ffAfter stop) fun _ _ => True := by
  intro s hs
  unfold ffAfter
  cases h : ffAfterOn stop s.toks s with
  | ok u s' =>
    obtain ⟨h1, h2⟩ := ffAfterOn_at (c := c) _ _ _ _ h
    refine ⟨p, Nat.le_refl _, ?_, trivial⟩
    rcases hs with ⟨hs1, hs2⟩ | ⟨hs1, hs2, hs3⟩
    · exact .inl ⟨by rw [h1]; exact hs1, hs2⟩
    · exact .inr ⟨by rw [h1]; exact hs1, hs2, h2 p hs3⟩
  | err e s' => exact absurd h (ffAfterOn_no_err _ _ _ _)
  | panic => trivial
  | diverge x => trivial

theorem ok_widen {a b p q : Nat} {i : Part} (h : c.Ok a b i) (h1 : p ≤ a) (h2 : b ≤ q) : c.Ok p q i := by
  intro hq
  have h := h (by omega)
  have nd : ∀ {n}, c.NdR a b n → c.NdR p q n := fun h => h.widen h1 h2
  have ndl : ∀ {l}, c.NdLR a b l → c.NdLR p q l := fun h => ⟨by have := h.1; omega, fun n hn => nd (h.2.1 n hn), h.2.2⟩
  have tk : ∀ {k}, c.TkR a b k → c.TkR p q k := fun h => by unfold TkR at h ⊢; omega
  cases i with
  | tok k => exact tk h
  | otok o => exact ⟨by have := h.1; omega, fun k hk => tk (h.2 k hk)⟩
  | node n => exact nd h
  | onode o => exact ⟨by have := h.1; omega, fun n hn => nd (h.2 n hn)⟩
  | plain n => exact ⟨nd h.1, h.2⟩
  | oplain o => exact ⟨by have := h.1; omega, fun n hn => ⟨nd (h.2 n hn).1, (h.2 n hn).2⟩⟩
  | list l => exact ndl h
  | olist o => exact ⟨by have := h.1; omega, fun n hn => ndl (h.2 n hn)⟩
  | plains l => exact ⟨ndl h.1, h.2⟩
  | vals cs => exact ⟨by have := h.1; omega, fun n hn => nd (h.2 n hn)⟩
  | path l => exact ⟨by have := h.1; omega, fun k hk => tk (h.2.1 k hk), h.2.2⟩
  | over k l => exact ⟨by have := h.1; omega, by have := h.2.1; omega, fun n hn => (h.2.2.1 n hn).widen (Nat.le_refl _) h2, h.2.2.2⟩
  | never => exact h

theorem ok_some_tok {p q : Nat} {k : Token} (h : c.Ok p q (.otok (some k))) : c.Ok p q (.tok k) := fun hq => (h hq).2 k rfl

theorem run_nextUnwrap {p : Nat} : c.Runs p nextUnwrap fun q k => c.Ok p q (.tok k) := by
  unfold nextUnwrap
  refine Runs.bind run_next fun q o hq ho => ?_
  split
  · exact Runs.pure (ok_some_tok ho)
  · exact Runs.panic

theorem run_takeIf {p : Nat} {f : Token → Bool} : c.Runs p (takeIf f) fun q o => c.Ok p q (.otok o) := by
  unfold takeIf
  refine Runs.bind run_peek fun q o hq ho => ?_
  split
  · exact Runs.pure fun _ => ⟨hq, fun k hk => by cases hk⟩
  · refine Runs.ite (fun _ => ?_) (fun _ => ?_)
    · refine Runs.bind run_nextUnwrap fun q' k hq' hk => Runs.pure fun hb => ?_
      have := hk hb
      refine ⟨by omega, fun k' hk' => ?_⟩
      cases hk'
      unfold OkR TkR at this
      unfold TkR
      omega
    · exact Runs.pure fun _ => ⟨hq, fun k hk => by cases hk⟩

theorem run_consumeOrIgnore {p : Nat} {t : TT} : c.Runs p (consumeOrIgnore t) fun q o => c.Ok p q (.otok o) := run_takeIf
theorem run_consumeOneOfOrIgnore {p : Nat} {ts : List TT} : c.Runs p (consumeOneOfOrIgnore ts) fun q o => c.Ok p q (.otok o) :=
  run_takeIf

theorem run_nextIs {p : Nat} {f : Token → Bool} : c.Runs p (nextIs f) fun _ _ => True := by
  unfold nextIs
  refine Runs.bind run_peek fun q o hq ho => ?_
  split <;> exact Runs.pure trivial

theorem run_nextOneOf {p : Nat} {ts : List TT} : c.Runs p (nextOneOf ts) fun _ _ => True := run_nextIs
theorem run_nextIsMember {p : Nat} : c.Runs p nextIsMember fun _ _ => True := run_nextIs

theorem run_takeOr {p : Nat} {f : Token → Bool} : c.Runs p (takeOr f) fun q o => ∀ k, o = some (k, true) → c.Ok p q (.tok k) := by
  unfold takeOr
  refine Runs.bind run_peek fun q o hq ho => ?_
  split
  · exact Runs.pure fun k hk => by cases hk
  · refine Runs.ite (fun _ => ?_) (fun _ => ?_)
    · refine Runs.bind run_nextUnwrap fun q' k hq' hk => Runs.pure fun k' e => ?_
      cases e
      exact ok_widen hk hq (Nat.le_refl _)
    · exact Runs.pure fun k hk => by cases hk

theorem run_takeOrMissing {p : Nat} {f : Token → Bool} :
    c.Runs p (takeOrMissing f) fun q x => x.2 = false → c.Ok p q (.tok x.1) := by
  unfold takeOrMissing
  refine Runs.bind run_peek fun q o hq ho => ?_
  split
  · exact fun s hs => ⟨q, Nat.le_refl _, hs, fun h => by cases h⟩
  · refine Runs.ite (fun _ => ?_) (fun _ => ?_)
    · exact Runs.bind run_nextUnwrap fun q' k hq' hk => Runs.pure fun _ => ok_widen hk hq (Nat.le_refl _)
    · exact fun s hs => ⟨q, Nat.le_refl _, hs, fun h => by cases h⟩

theorem run_consume {p : Nat} {t : TT} : c.Runs p (consume t) fun q k => c.Ok p q (.tok k) := by
  unfold consume
  refine Runs.bind run_takeOrMissing fun q x hq hx => ?_
  obtain ⟨k, w⟩ := x
  refine Runs.ite (fun h => ?_) (fun h => ?_)
  · refine Runs.bind (Q := fun _ _ => True) run_ffBefore fun q1 _ h1 _ => Runs.bind run_pushErr fun q2 _ h2 hd => Runs.pure (ok_dead hd)
  · exact Runs.pure (hx (by simpa using h))

theorem run_consumeIdentifier {p : Nat} : c.Runs p consumeIdentifier fun q k => c.Ok p q (.tok k) := by
  unfold consumeIdentifier
  refine Runs.bind run_takeOrMissing fun q x hq hx => ?_
  obtain ⟨k, w⟩ := x
  refine Runs.ite (fun h => ?_) (fun h => ?_)
  · exact Runs.bind run_pushErr fun q2 _ h2 hd => Runs.pure (ok_dead hd)
  · exact Runs.pure (hx (by simpa using h))

theorem run_consumeEndOfStatement {p : Nat} : c.Runs p consumeEndOfStatement fun _ _ => True := by
  unfold consumeEndOfStatement
  refine Runs.bind run_takeOr fun q o hq _ => ?_
  split
  · exact run_pushErr.mono fun _ _ _ _ => trivial
  · refine Runs.ite (fun _ => Runs.pure trivial) fun _ => Runs.ite (fun _ => Runs.pure trivial) fun _ => ?_
    exact Runs.bind run_ffBefore fun _ _ _ _ => run_pushErr.mono fun _ _ _ _ => trivial

theorem run_consumeOrFfAfter {p : Nat} {t : TT} {l : List TT} : c.Runs p (consumeOrFfAfter t l) fun _ _ => True := by
  unfold consumeOrFfAfter
  refine Runs.bind run_takeOr fun q o hq _ => ?_
  split
  · exact run_pushErr.mono fun _ _ _ _ => trivial
  · refine Runs.ite (fun _ => Runs.pure trivial) fun _ => ?_
    exact Runs.bind run_pushErr fun _ _ _ _ => run_ffAfter

theorem run_consumeOrFfBefore {p : Nat} {t : TT} {l : List TT} :
    c.Runs p (consumeOrFfBefore t l) fun q k => c.Ok p q (.tok k) := by
  unfold consumeOrFfBefore
  refine Runs.bind run_takeOr fun q o hq ho => ?_
  split
  · exact Runs.bind run_pushErr fun _ _ _ _ => Runs.fail
  · rename_i k taken
    refine Runs.ite (fun h => Runs.pure (ho k (by rw [h]))) fun _ => ?_
    exact Runs.bind run_pushErr fun q1 _ h1 hd => Runs.bind run_ffBefore fun q2 _ h2 _ => Runs.pure (ok_dead (by omega))

theorem run_consumeMember {p : Nat} : c.Runs p consumeMember fun q k => c.Ok p q (.tok k) := by
  unfold consumeMember
  refine Runs.bind run_next fun q o hq ho => ?_
  split
  · exact Runs.ite (fun _ => Runs.pure (ok_some_tok ho)) fun _ => Runs.fail
  · exact Runs.fail

theorem run_consumeOneOf {p : Nat} {ts : List TT} : c.Runs p (consumeOneOf ts) fun q k => c.Ok p q (.tok k) := by
  unfold consumeOneOf
  refine Runs.bind run_next fun q o hq ho => ?_
  split
  · exact Runs.ite (fun _ => Runs.pure (ok_some_tok ho)) fun _ => Runs.fail
  · exact Runs.fail

theorem bind_eq (f : P α) (g : α → P β) (s : PSt) : (f >>= g) s = (match f s with
    | .ok a s' => g a s' | .err e s' => .err e s' | .panic => .panic | .diverge x => .diverge x : Res β) := by
  show P.bind f g s = _
  unfold P.bind
  cases f s <;> rfl

/-- A token taken from the front. -/
theorem takeIf_front {p : Nat} {f : Token → Bool} {s s' : PSt} {k : Token} (hs : c.At p s) (h : takeIf f s = .ok (some k) s') :
    c.At p { s' with toks := k :: s'.toks } ∧ ∀ s2 : PSt, s2.errors = s'.errors → (∀ x, c.Ord x s'.toks → c.Ord x s2.toks) →
      c.At p { s2 with toks := k :: s2.toks } := by
  have key : s'.errors = s.errors ∧ ∀ p, c.Ord p s.toks → p ≤ c.st k ∧ c.st k ≤ c.en k ∧ c.en k < c.bound ∧ c.Ord (c.en k) s'.toks := by
    unfold takeIf at h
    rw [bind_eq] at h
    unfold peek at h
    obtain ⟨h1, h2⟩ := peekOn_at (c := c) s.toks s
    cases hp : peekOn s.toks s with
    | mk o s1 =>
      rw [hp] at h h1 h2
      cases o with
      | none => cases h
      | some k1 =>
        simp only at h
        split at h
        · rw [bind_eq] at h
          unfold nextUnwrap at h
          rw [bind_eq] at h
          unfold next at h
          cases hn : nextOn s1.toks s1 with
          | ok o s2 =>
            rw [hn] at h
            obtain ⟨g1, g2⟩ := nextOn_at (c := c) _ _ _ _ hn
            cases o with
            | none => cases h
            | some k2 =>
              cases h
              refine ⟨by rw [g1]; exact h1, fun p hp => ?_⟩
              exact (g2 p (h2 p hp)).2 k rfl
          | err e s2 => exact absurd hn (nextOn_no_err _ _ _ _)
          | panic => rw [hn] at h; cases h
          | diverge x => rw [hn] at h; cases h
        · cases h
  obtain ⟨k1, k2⟩ := key
  have main : ∀ s2 : PSt, s2.errors = s'.errors → (∀ x, c.Ord x s'.toks → c.Ord x s2.toks) → c.At p { s2 with toks := k :: s2.toks } := by
    intro s2 e1 e2
    rcases hs with ⟨hs1, hs2⟩ | ⟨hs1, hs2, hs3⟩
    · exact .inl ⟨by show s2.errors ≠ []; rw [e1, k1]; exact hs1, hs2⟩
    · obtain ⟨g1, g2, g3, g4⟩ := k2 p hs3
      exact .inr ⟨by show s2.errors = []; rw [e1, k1]; exact hs1, hs2, g1, g2, g3, e2 _ g4⟩
  exact ⟨main s' rfl fun _ h => h, main⟩

theorem run_lookahead {p : Nat} {f g : Token → Bool} : c.Runs p (lookahead f g) fun q o => c.Ok p q (.otok o) := by
  intro s hs
  have ht := run_takeIf (c := c) (f := f) s hs
  unfold lookahead
  rw [bind_eq]
  cases h : takeIf f s with
  | ok o s' =>
    rw [h] at ht
    obtain ⟨q, h1, h2, h3⟩ := ht
    cases o with
    | none => exact ⟨q, h1, h2, h3⟩
    | some k =>
      obtain ⟨_, hf⟩ := takeIf_front hs h
      have hp := peekOn_at (c := c) s'.toks s'
      have hn : ∃ b, nextIs g s' = .ok b (peekOn s'.toks s').2 := by
        unfold nextIs
        rw [bind_eq]
        unfold peek
        cases hx : peekOn s'.toks s' with
        | mk o s2 =>
          cases o with
          | none => exact ⟨false, rfl⟩
          | some k => exact ⟨g k, rfl⟩
      obtain ⟨b, hn⟩ := hn
      simp only [bind_eq, hn]
      cases b with
      | true =>
        refine ⟨q, h1, ?_, h3⟩
        rcases h2 with ⟨hs1, hs2⟩ | ⟨hs1, hs2, hs3⟩
        · exact .inl ⟨by rw [hp.1]; exact hs1, hs2⟩
        · exact .inr ⟨by rw [hp.1]; exact hs1, hs2, hp.2 q hs3⟩
      | false =>
        exact ⟨p, Nat.le_refl _, hf _ hp.1 hp.2, fun _ => ⟨Nat.le_refl _, fun k hk => by cases hk⟩⟩
  | err e s' => rw [h] at ht; exact ht
  | panic => trivial
  | diverge x => trivial

theorem run_hereDocBody {p : Nat} : c.Runs p hereDocBody fun q o => c.Ok p q (.otok o) := by
  unfold hereDocBody
  refine Runs.bind run_nextOneOf fun q _ hq _ => Runs.ite (fun _ => ?_) (fun _ => ?_)
  · refine Runs.bind run_consumeOrFfAfter fun q1 _ h1 _ => Runs.bind run_nextUnwrap fun q2 k h2 hk => Runs.pure fun hb => ?_
    have := hk hb
    refine ⟨by omega, fun k' e => ?_⟩
    cases e
    unfold OkR TkR at this
    unfold TkR
    omega
  · exact Runs.pure fun _ => ⟨hq, fun k hk => by cases hk⟩

/-! ## Parts -/

theorem seqR_le : ∀ {l : List Part} {p q : Nat}, c.SeqR p q l → p ≤ q
  | [], _, _, h => h
  | i :: r, p, q, ⟨a, b, h1, h2, h3⟩ => by
    have := seqR_le h3
    have : a ≤ b := by
      cases i with
      | tok k => exact Nat.le_trans h2.1 (Nat.le_trans h2.2.1 h2.2.2)
      | otok o => exact h2.1
      | node n => exact h2.1
      | onode o => exact h2.1
      | plain n => exact h2.1.1
      | oplain o => exact h2.1
      | list l => exact h2.1
      | olist o => exact h2.1
      | plains l => exact h2.1.1
      | vals cs => exact h2.1
      | path l => exact h2.1
      | over k l => exact Nat.le_trans h2.1 h2.2.1
      | never => exact h2.elim
    omega

theorem seqR_append : ∀ {l r : List Part} {p q : Nat}, c.SeqR p q (l ++ r) → ∃ b, c.SeqR p b l ∧ c.SeqR b q r
  | [], _, p, _, h => ⟨p, Nat.le_refl _, h⟩
  | i :: l, r, p, q, ⟨a, b, h1, h2, h3⟩ => by
    obtain ⟨x, h4, h5⟩ := seqR_append (l := l) h3
    exact ⟨x, ⟨a, b, h1, h2, h4⟩, h5⟩

theorem seqR_start {l : List Part} {p p' q : Nat} (h : c.SeqR p' q l) (hp : p ≤ p') : c.SeqR p q l := by
  cases l with
  | nil => exact Nat.le_trans hp h
  | cons i r => obtain ⟨a, b, h1, h2⟩ := h; exact ⟨a, b, by omega, h2⟩

theorem seq_nil {p q : Nat} (h : p ≤ q) : c.Seq p q [] := fun _ => h

theorem seq_dead {p q : Nat} {l : List Part} (h : c.bound ≤ q) : c.Seq p q l := fun hq => by omega

theorem seq_cons {a b p q : Nat} {i : Part} {r : List Part} (h : c.Ok a b i) (hp : p ≤ a) (hr : c.Seq b q r) :
    c.Seq p q (i :: r) := by
  intro hq
  have h3 := hr hq
  exact ⟨a, b, hp, h (by have := seqR_le h3; omega), h3⟩

/-- A part that follows from a smaller one. -/
theorem seq_via {a b p q : Nat} {i j : Part} {r : List Part} (h : c.Ok a b i) (hij : c.OkR a b i → c.OkR a b j) (hp : p ≤ a)
    (hr : c.Seq b q r) : c.Seq p q (j :: r) := seq_cons (fun hb => hij (h hb)) hp hr

theorem seq_tok_of_some {a b p q : Nat} {k : Token} {r : List Part} (h : c.Ok a b (.otok (some k))) (hp : p ≤ a)
    (hr : c.Seq b q r) : c.Seq p q (.tok k :: r) := seq_via h (fun h => h.2 k rfl) hp hr
theorem tkR_le {a b : Nat} {k : Token} (h : c.TkR a b k) : a ≤ b := by unfold TkR at h; omega
theorem seq_some_of_tok {a b p q : Nat} {k : Token} {r : List Part} (h : c.Ok a b (.tok k)) (hp : p ≤ a)
    (hr : c.Seq b q r) : c.Seq p q (.otok (some k) :: r) :=
  seq_via h (fun h => ⟨tkR_le h, fun k' e => by cases e; exact h⟩) hp hr
theorem seq_node_of_plain {a b p q : Nat} {n : Node} {r : List Part} (h : c.Ok a b (.plain n)) (hp : p ≤ a)
    (hr : c.Seq b q r) : c.Seq p q (.node n :: r) := seq_via h (fun h => h.1) hp hr
theorem seq_onode_of_oplain {a b p q : Nat} {o : Option Node} {r : List Part} (h : c.Ok a b (.oplain o)) (hp : p ≤ a)
    (hr : c.Seq b q r) : c.Seq p q (.onode o :: r) := seq_via h (fun h => ⟨h.1, fun n e => (h.2 n e).1⟩) hp hr
theorem seq_list_of_plains {a b p q : Nat} {l : List Node} {r : List Part} (h : c.Ok a b (.plains l)) (hp : p ≤ a)
    (hr : c.Seq b q r) : c.Seq p q (.list l :: r) := seq_via h (fun h => h.1) hp hr
theorem seq_plain_of_some {a b p q : Nat} {n : Node} {r : List Part} (h : c.Ok a b (.oplain (some n))) (hp : p ≤ a)
    (hr : c.Seq b q r) : c.Seq p q (.plain n :: r) := seq_via h (fun h => h.2 n rfl) hp hr
theorem seq_node_of_some {a b p q : Nat} {n : Node} {r : List Part} (h : c.Ok a b (.onode (some n))) (hp : p ≤ a)
    (hr : c.Seq b q r) : c.Seq p q (.node n :: r) := seq_via h (fun h => h.2 n rfl) hp hr

/-- Reordering of the rest of a sequence. -/
theorem seq_map {p q : Nat} {l r : List Part} (h : ∀ p, c.SeqR p q l → c.SeqR p q r) (hl : c.Seq p q l) : c.Seq p q r :=
  fun hq => h p (hl hq)

theorem seq_no_tok {p q : Nat} {r : List Part} (h : c.Seq p q r) : c.Seq p q (.otok none :: r) :=
  fun hq => ⟨p, p, Nat.le_refl _, ⟨Nat.le_refl _, fun k e => by cases e⟩, h hq⟩
theorem seq_no_node {p q : Nat} {r : List Part} (h : c.Seq p q r) : c.Seq p q (.onode none :: r) :=
  fun hq => ⟨p, p, Nat.le_refl _, ⟨Nat.le_refl _, fun k e => by cases e⟩, h hq⟩
theorem seq_no_plain {p q : Nat} {r : List Part} (h : c.Seq p q r) : c.Seq p q (.oplain none :: r) :=
  fun hq => ⟨p, p, Nat.le_refl _, ⟨Nat.le_refl _, fun k e => by cases e⟩, h hq⟩
theorem seq_no_olist {p q : Nat} {r : List Part} (h : c.Seq p q r) : c.Seq p q (.olist none :: r) :=
  fun hq => ⟨p, p, Nat.le_refl _, ⟨Nat.le_refl _, fun k e => by cases e⟩, h hq⟩
theorem seq_no_list {p q : Nat} {r : List Part} (h : c.Seq p q r) : c.Seq p q (.list [] :: r) :=
  fun hq => ⟨p, p, Nat.le_refl _, ⟨Nat.le_refl _, (fun k e => by cases e), List.Pairwise.nil⟩, h hq⟩
theorem seq_no_plains {p q : Nat} {r : List Part} (h : c.Seq p q r) : c.Seq p q (.plains [] :: r) :=
  fun hq => ⟨p, p, Nat.le_refl _, ⟨⟨Nat.le_refl _, (fun k e => by cases e), List.Pairwise.nil⟩, fun k e => by cases e⟩, h hq⟩
theorem seq_no_path {p q : Nat} {r : List Part} (h : c.Seq p q r) : c.Seq p q (.path [] :: r) :=
  fun hq => ⟨p, p, Nat.le_refl _, ⟨Nat.le_refl _, (fun k e => by cases e), List.Pairwise.nil⟩, h hq⟩
theorem seq_no_vals {p q : Nat} {r : List Part} (h : c.Seq p q r) : c.Seq p q (.vals [] :: r) :=
  fun hq => ⟨p, p, Nat.le_refl _, ⟨Nat.le_refl _, fun k e => by cases e⟩, h hq⟩

theorem seq_some_tok {p q : Nat} {k : Token} {r : List Part} (h : c.Seq p q (.tok k :: r)) : c.Seq p q (.otok (some k) :: r) :=
  fun hq => by
    obtain ⟨a, b, h1, h2, h3⟩ := h hq
    exact ⟨a, b, h1, ⟨tkR_le h2, fun k' e => by cases e; exact h2⟩, h3⟩
theorem seq_some_node {p q : Nat} {n : Node} {r : List Part} (h : c.Seq p q (.node n :: r)) : c.Seq p q (.onode (some n) :: r) :=
  fun hq => by
    obtain ⟨a, b, h1, h2, h3⟩ := h hq
    exact ⟨a, b, h1, ⟨h2.1, fun k' e => by cases e; exact h2⟩, h3⟩
theorem seq_some_plain {p q : Nat} {n : Node} {r : List Part} (h : c.Seq p q (.plain n :: r)) : c.Seq p q (.oplain (some n) :: r) :=
  fun hq => by
    obtain ⟨a, b, h1, h2, h3⟩ := h hq
    exact ⟨a, b, h1, ⟨h2.1.1, fun k' e => by cases e; exact h2⟩, h3⟩
theorem seq_some_list {p q : Nat} {n : List Node} {r : List Part} (h : c.Seq p q (.list n :: r)) : c.Seq p q (.olist (some n) :: r) :=
  fun hq => by
    obtain ⟨a, b, h1, h2, h3⟩ := h hq
    exact ⟨a, b, h1, ⟨h2.1, fun k' e => by cases e; exact h2⟩, h3⟩

/-- The parts of a constructed node instead of the node. -/
theorem seq_flat {p q : Nat} {n : Node} {r : List Part} (hl : p ≤ q → q < c.bound → ∀ d ∈ n.loose, Cov c.le d)
    (h : c.Seq p q (n.parts ++ r)) : c.Seq p q (.node n :: r) := by
  intro hq
  have h := h hq
  have hpq := seqR_le h
  obtain ⟨b, h1, h2⟩ := seqR_append h
  exact ⟨p, b, Nat.le_refl _, nodeR_of_seq h1 (hl hpq hq), h2⟩

theorem before_after {a b a' b' : Nat} {m n : Node} (hm : c.NdR a b m) (hn : c.NdR a' b' n) (h : b ≤ a') : c.Before m n := by
  intro p1 p2 r r' h1 h2
  have := hm.2.2.1 p1 r h1
  have := hn.2.2.1 p2 r' h2
  omega

theorem listR_snoc {a b a' b' : Nat} {l : List Node} {n : Node} (h : c.NdLR a b l) (hn : c.NdR a' b' n) (hb : b ≤ a') :
    c.NdLR a b' (l ++ [n]) := by
  refine ⟨by have := h.1; have := hn.1; omega, fun m hm => ?_, ?_⟩
  · rcases List.mem_append.1 hm with hm | hm
    · exact (h.2.1 m hm).widen (Nat.le_refl _) (by have := hn.1; omega)
    · cases List.mem_singleton.1 hm
      exact hn.widen (by have := h.1; omega) (Nat.le_refl _)
  · refine List.pairwise_append.2 ⟨h.2.2, List.pairwise_singleton _ _, fun x hx y hy => ?_⟩
    cases List.mem_singleton.1 hy
    exact before_after (h.2.1 x hx) hn hb

theorem seq_snoc {p q : Nat} {l : List Node} {n : Node} {r : List Part} (h : c.Seq p q (.list l :: .node n :: r)) :
    c.Seq p q (.list (l ++ [n]) :: r) := by
  intro hq
  obtain ⟨a, b, h1, h2, a', b', h3, h4, h5⟩ := h hq
  exact ⟨a, b', h1, listR_snoc h2 h4 h3, h5⟩

theorem seq_one {p q : Nat} {n : Node} {r : List Part} (h : c.Seq p q (.node n :: r)) :
    c.Seq p q (.list [n] :: r) := by
  intro hq
  obtain ⟨a, b, h1, h2, h3⟩ := h hq
  exact ⟨a, b, h1, ⟨h2.1, fun m hm => by cases List.mem_singleton.1 hm; exact h2, List.pairwise_singleton _ _⟩, h3⟩

theorem seq_plains_snoc {p q : Nat} {l : List Node} {n : Node} {r : List Part} (h : c.Seq p q (.plains l :: .plain n :: r)) :
    c.Seq p q (.plains (l ++ [n]) :: r) := by
  intro hq
  obtain ⟨a, b, h1, h2, a', b', h3, h4, h5⟩ := h hq
  refine ⟨a, b', h1, ⟨listR_snoc h2.1 h4.1 h3, fun m hm => ?_⟩, h5⟩
  rcases List.mem_append.1 hm with hm | hm
  · exact h2.2 m hm
  · cases List.mem_singleton.1 hm; exact h4.2

theorem seq_plains_one {p q : Nat} {n : Node} {r : List Part} (h : c.Seq p q (.plain n :: r)) :
    c.Seq p q (.plains [n] :: r) := by
  intro hq
  obtain ⟨a, b, h1, h2, h3⟩ := h hq
  exact ⟨a, b, h1, ⟨⟨h2.1.1, fun m hm => by cases List.mem_singleton.1 hm; exact h2.1, List.pairwise_singleton _ _⟩,
    fun m hm => by cases List.mem_singleton.1 hm; exact h2.2⟩, h3⟩

theorem seq_path_snoc {p q : Nat} {l : List Token} {k : Token} {r : List Part} (h : c.Seq p q (.path l :: .tok k :: r)) :
    c.Seq p q (.path (l ++ [k]) :: r) := by
  intro hq
  obtain ⟨a, b, h1, h2, a', b', h3, h4, h5⟩ := h hq
  have h4' : a' ≤ c.st k ∧ c.st k ≤ c.en k ∧ c.en k ≤ b' := h4
  have := h2.1
  refine ⟨a, b', h1, ⟨by omega, fun m hm => ?_, ?_⟩, h5⟩
  · rcases List.mem_append.1 hm with hm | hm
    · have : a ≤ c.st m ∧ c.st m ≤ c.en m ∧ c.en m ≤ b := h2.2.1 m hm
      exact ⟨by omega, by omega, by omega⟩
    · cases List.mem_singleton.1 hm
      exact ⟨by omega, by omega, by omega⟩
  · refine List.pairwise_append.2 ⟨h2.2.2, List.pairwise_singleton _ _, fun x hx y hy => ?_⟩
    cases List.mem_singleton.1 hy
    have : a ≤ c.st x ∧ c.st x ≤ c.en x ∧ c.en x ≤ b := h2.2.1 x hx
    omega

theorem seq_path_one {p q : Nat} {k : Token} {r : List Part} (h : c.Seq p q (.tok k :: r)) :
    c.Seq p q (.path [k] :: r) := seq_path_snoc (l := []) (seq_no_path h)

theorem seq_path_two {p q : Nat} {l : List Token} {k k' : Token} {r : List Part}
    (h : c.Seq p q (.path l :: .tok k :: .tok k' :: r)) : c.Seq p q (.path (l ++ [k, k']) :: r) := by
  have : l ++ [k, k'] = (l ++ [k]) ++ [k'] := by simp
  rw [this]
  exact seq_path_snoc (seq_path_snoc h)

theorem seq_path_opt {p q : Nat} {o : Option Token} {r : List Part}
    (h : c.Seq p q (.otok o :: r)) : c.Seq p q (.path o.toList :: r) := by
  intro hq
  obtain ⟨a, b, h1, h2, h3⟩ := h hq
  refine ⟨a, b, h1, ⟨h2.1, fun k hk => h2.2 k (by simpa using hk), ?_⟩, h3⟩
  cases o with
  | none => exact .nil
  | some k => exact List.pairwise_singleton _ _

theorem seq_vals_none {p q : Nat} {cs : List (Option Node)} {r : List Part} (h : c.Seq p q (.vals cs :: r)) :
    c.Seq p q (.vals (cs ++ [none]) :: r) := by
  intro hq
  obtain ⟨a, b, h1, h2, h3⟩ := h hq
  refine ⟨a, b, h1, ⟨h2.1, fun n hn => ?_⟩, h3⟩
  rcases List.mem_append.1 hn with hn | hn
  · exact h2.2 n hn
  · cases List.mem_singleton.1 hn

theorem seq_vals_some {p q : Nat} {cs : List (Option Node)} {n : Node} {r : List Part} (h : c.Seq p q (.vals cs :: .node n :: r)) :
    c.Seq p q (.vals (cs ++ [some n]) :: r) := by
  intro hq
  obtain ⟨a, b, h1, h2, a', b', h3, h4, h5⟩ := h hq
  have := h2.1
  have := h4.1
  refine ⟨a, b', h1, ⟨by omega, fun m hn => ?_⟩, h5⟩
  rcases List.mem_append.1 hn with hn | hn
  · exact (h2.2 m hn).widen (Nat.le_refl _) (by omega)
  · cases List.mem_singleton.1 hn
    exact h4.widen (by omega) (Nat.le_refl _)

/-- `@var` nodes, which have no place. -/
def Vars (l : List Node) : Prop := ∀ d ∈ l, ∃ x y z, d = Node.docCommentVar x y z

theorem vars_cov {d : Node} (h : ∃ x y z, d = Node.docCommentVar x y z) : Cov c.le d ∧ ¬ Placed d := by
  obtain ⟨x, y, z, rfl⟩ := h
  exact ⟨(part_docCommentVar (c := c) (P := 0) (Q := 0) (Nat.le_refl 0)).2.1, fun h => h.odd trivial⟩

theorem seq_vars {p q : Nat} {l ds : List Node} {r : List Part} (hd : Vars ds) (h : c.Seq p q (.list l :: r)) :
    c.Seq p q (.list (l ++ ds) :: r) := by
  intro hq
  obtain ⟨a, b, h1, h2, h3⟩ := h hq
  refine ⟨a, b, h1, ⟨h2.1, fun m hm => ?_, ?_⟩, h3⟩
  · rcases List.mem_append.1 hm with hm | hm
    · exact h2.2.1 m hm
    · have := vars_cov (c := c) (hd m hm)
      obtain ⟨x, y, z, rfl⟩ := hd m hm
      exact ⟨h2.1, this.1, fun h => absurd h this.2, fun h => h.elim, fun h => h.elim⟩
  · refine List.pairwise_append.2 ⟨h2.2.2, ?_, fun x hx y hy => ?_⟩
    · refine List.pairwise_of_forall_mem_list fun x hx y hy => ?_
      exact fun h => absurd h (vars_cov (c := c) (hd x hx)).2
    · exact fun _ h => absurd h (vars_cov (c := c) (hd y hy)).2

theorem ok_of_seq {p q : Nat} {i : Part} (h : c.Seq p q [i]) : c.Ok p q i := by
  intro hq
  obtain ⟨a, b, h1, h2, h3⟩ := h hq
  exact ok_widen (c := c) (a := a) (b := b) (fun _ => h2) h1 h3 hq

theorem seq_of_ok {p q : Nat} {i : Part} (h : c.Ok p q i) : c.Seq p q [i] := fun hq => ⟨p, q, Nat.le_refl _, h hq, Nat.le_refl _⟩

/-! ## Loops -/

theorem loop_LL {site : Site} {n : Nat} {body : List Node → P (List Node ⊕ List Node)} {p : Nat}
    (hb : ∀ q l, p ≤ q → c.Ok p q (.list l) →
      c.Runs q (body l) fun q' x => Sum.elim (fun l => c.Ok p q' (.list l)) (fun l => c.Ok p q' (.list l)) x) :
    c.Runs p (loopP site n body []) fun q l => c.Ok p q (.list l) :=
  Runs.loop (I := fun q l => c.Ok p q (.list l)) hb n [] (ok_of_seq (seq_no_list (seq_nil (Nat.le_refl _))))

theorem loop_acc {site : Site} {n : Nat} {body : List Node → P (List Node ⊕ List Node)} {p0 p : Nat} {acc : List Node}
    (ha : c.Ok p0 p (.list acc)) (hb : ∀ q l, p ≤ q → c.Ok p0 q (.list l) →
      c.Runs q (body l) fun q' x => Sum.elim (fun l => c.Ok p0 q' (.list l)) (fun l => c.Ok p0 q' (.list l)) x) :
    c.Runs p (loopP site n body acc) fun q l => c.Ok p0 q (.list l) :=
  Runs.loop (I := fun q l => c.Ok p0 q (.list l)) hb n acc ha

theorem loop_PP {site : Site} {n : Nat} {body : List Node → P (List Node ⊕ List Node)} {p : Nat}
    (hb : ∀ q l, p ≤ q → c.Ok p q (.plains l) →
      c.Runs q (body l) fun q' x => Sum.elim (fun l => c.Ok p q' (.plains l)) (fun l => c.Ok p q' (.plains l)) x) :
    c.Runs p (loopP site n body []) fun q l => c.Ok p q (.plains l) :=
  Runs.loop (I := fun q l => c.Ok p q (.plains l)) hb n [] (ok_of_seq (seq_no_plains (seq_nil (Nat.le_refl _))))

theorem loop_Pacc {site : Site} {n : Nat} {body : List Node → P (List Node ⊕ List Node)} {p0 p : Nat} {acc : List Node}
    (ha : c.Ok p0 p (.plains acc)) (hb : ∀ q l, p ≤ q → c.Ok p0 q (.plains l) →
      c.Runs q (body l) fun q' x => Sum.elim (fun l => c.Ok p0 q' (.plains l)) (fun l => c.Ok p0 q' (.plains l)) x) :
    c.Runs p (loopP site n body acc) fun q l => c.Ok p0 q (.plains l) :=
  Runs.loop (I := fun q l => c.Ok p0 q (.plains l)) hb n acc ha

theorem loop_LO {site : Site} {n : Nat} {body : List Node → P (List Node ⊕ Option (List Node))} {p : Nat}
    (hb : ∀ q l, p ≤ q → c.Ok p q (.list l) →
      c.Runs q (body l) fun q' x => Sum.elim (fun l => c.Ok p q' (.list l)) (fun l => c.Ok p q' (.olist l)) x) :
    c.Runs p (loopP site n body []) fun q l => c.Ok p q (.olist l) :=
  Runs.loop (I := fun q l => c.Ok p q (.list l)) hb n [] (ok_of_seq (seq_no_list (seq_nil (Nat.le_refl _))))

theorem loop_LN {site : Site} {n : Nat} {body : List Node → P (List Node ⊕ Node)} {p : Nat}
    (hb : ∀ q l, p ≤ q → c.Ok p q (.list l) →
      c.Runs q (body l) fun q' x => Sum.elim (fun l => c.Ok p q' (.list l)) (fun l => c.Ok p q' (.node l)) x) :
    c.Runs p (loopP site n body []) fun q l => c.Ok p q (.node l) :=
  Runs.loop (I := fun q l => c.Ok p q (.list l)) hb n [] (ok_of_seq (seq_no_list (seq_nil (Nat.le_refl _))))

theorem loop_NN {site : Site} {n : Nat} {body : Node → P (Node ⊕ Node)} {p0 p : Nat} {e : Node} (he : c.Ok p0 p (.node e))
    (hb : ∀ q l, p ≤ q → c.Ok p0 q (.node l) →
      c.Runs q (body l) fun q' x => Sum.elim (fun l => c.Ok p0 q' (.node l)) (fun l => c.Ok p0 q' (.node l)) x) :
    c.Runs p (loopP site n body e) fun q l => c.Ok p0 q (.node l) :=
  Runs.loop (I := fun q l => c.Ok p0 q (.node l)) hb n e he

theorem loop_VV {site : Site} {n : Nat} {body : List (Option Node) → P (List (Option Node) ⊕ List (Option Node))} {p : Nat}
    (hb : ∀ q l, p ≤ q → c.Ok p q (.vals l) →
      c.Runs q (body l) fun q' x => Sum.elim (fun l => c.Ok p q' (.vals l)) (fun l => c.Ok p q' (.vals l)) x) :
    c.Runs p (loopP site n body []) fun q l => c.Ok p q (.vals l) :=
  Runs.loop (I := fun q l => c.Ok p q (.vals l)) hb n [] (ok_of_seq (seq_no_vals (seq_nil (Nat.le_refl _))))

theorem loop_path {site : Site} {n : Nat} {body : List Token → P (List Token ⊕ List Token)} {p0 p : Nat} {acc : List Token}
    (ha : c.Ok p0 p (.path acc)) (hb : ∀ q l, p ≤ q → c.Ok p0 q (.path l) →
      c.Runs q (body l) fun q' x => Sum.elim (fun l => c.Ok p0 q' (.path l)) (fun l => c.Ok p0 q' (.path l)) x) :
    c.Runs p (loopP site n body acc) fun q l => c.Ok p0 q (.path l) :=
  Runs.loop (I := fun q l => c.Ok p0 q (.path l)) hb n acc ha

theorem bind_otok {p : Nat} {f : P (Option Token)} {g : Option Token → P β} {R : Nat → β → Prop}
    (h : c.Runs p f fun q o => c.Ok p q (.otok o)) (hg : ∀ q o, p ≤ q → c.Ok p q (.otok o) → c.Runs q (g o) R) :
    c.Runs p (f >>= g) R := Runs.bind h hg
theorem bind_onode {p : Nat} {f : P (Option Node)} {g : Option Node → P β} {R : Nat → β → Prop}
    (h : c.Runs p f fun q o => c.Ok p q (.onode o)) (hg : ∀ q o, p ≤ q → c.Ok p q (.onode o) → c.Runs q (g o) R) :
    c.Runs p (f >>= g) R := Runs.bind h hg
theorem bind_olist {p : Nat} {f : P (Option (List Node))} {g : Option (List Node) → P β} {R : Nat → β → Prop}
    (h : c.Runs p f fun q o => c.Ok p q (.olist o)) (hg : ∀ q o, p ≤ q → c.Ok p q (.olist o) → c.Runs q (g o) R) :
    c.Runs p (f >>= g) R := Runs.bind h hg

theorem ok_to {a b p : Nat} {i : Part} (h : c.Ok a b i) (hb : b ≤ p) : c.Ok a p i := ok_widen h (Nat.le_refl _) hb
theorem ok_one {a b p : Nat} {n : Node} (h : c.Ok a b (.node n)) (hb : b ≤ p) : c.Ok a p (.list [n]) :=
  ok_to (ok_of_seq (seq_one (seq_of_ok h))) hb
theorem ok_plains_one {a b p : Nat} {n : Node} (h : c.Ok a b (.plain n)) (hb : b ≤ p) : c.Ok a p (.plains [n]) :=
  ok_to (ok_of_seq (seq_plains_one (seq_of_ok h))) hb

/-- Attributes or doc comments whose nodes cover their children. -/
def Att (c : Sc) (p : Nat) (l : List Node) : Prop := p < c.bound → ∀ d ∈ l, Cov c.le d

theorem att_of_list {a b p : Nat} {l : List Node} (h : c.Ok a b (.list l)) (hb : b ≤ p) : c.Att p l :=
  fun hp d hd => ((h (by omega)).2.1 d hd).2.1
theorem att_mono {p q : Nat} {l : List Node} (h : c.Att p l) (hb : p ≤ q) : c.Att q l := fun hq => h (by omega)

end Sc
end PhpLs.Parser
