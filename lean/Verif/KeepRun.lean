import Verif.NodeGood

/-!
# Which tokens a parser function keeps

`Keeps A f Q`, for a token `k`: if `k` is among the remaining tokens or `A` holds, then after `f` it is among the remaining tokens or
`Q` holds of the result, unless there was an error or `k` is excused.  `A` and `Q` usually say in which values `k` was stored.
The rules of this logic and the token helpers.
-/

namespace PhpLs.Parser

open PhpLs
open scoped List

set_option linter.unusedVariables false

/-- The token is stored in the value. -/
def Has [Val α] (k : Token) (a : α) : Prop := k ∈ Val.toks a

theorem has_iff [Val α] {k : Token} {a : α} : Has k a ↔ ¬ Good (· ≠ k) a := by
  unfold Has Good
  constructor
  · exact fun h g => g k h rfl
  · intro h
    apply Classical.byContradiction
    intro hn
    exact h fun x hx e => hn (e ▸ hx)

/-- The kinds of the tokens the grammar takes at some place without storing them in a node. -/
def lostKinds : List TT := [.multilineComment, .lineComment, .linebreak, .eof, .comma, .semicolon, .colon, .openParenthesis,
  .closeParenthesis, .binaryOr, .assignment, .kwUse, .kwExtends, .kwImplements, .kwFunction, .kwConst, .kwDefault, .kwCase,
  .hereDocStart, .hereDocEnd, .scriptStartRegular, .scriptStartShort, .scriptEnd, .kwAbstract, .kwFinal, .kwPublic, .kwVar,
  .kwPrivate, .kwProtected, .kwStatic]

/-- The tokens the grammar sees: without comments, line breaks and `Eof`. -/
def solids (l : List Token) : List Token := l.filter fun k => !(k.t == .multilineComment || isTrivia k || k.t == .eof)

/-- The first list is what remains of the second one after reading some of it. -/
def Rest (l' l : List Token) : Prop := solids l' <:+ solids l ∧ l' <+ l

theorem Rest.refl (l : List Token) : Rest l l := ⟨List.suffix_refl _, List.Sublist.refl _⟩
theorem Rest.trans {a b c : List Token} (h : Rest a b) (g : Rest b c) : Rest a c := ⟨h.1.trans g.1, h.2.trans g.2⟩
theorem Rest.cons {a b : List Token} (k : Token) (h : Rest a b) : Rest a (k :: b) := by
  refine ⟨h.1.trans ?_, h.2.cons _⟩
  unfold solids
  rw [List.filter_cons]
  split
  · exact List.suffix_cons _ _
  · exact List.suffix_refl _

theorem Rest.mem {a b : List Token} {k : Token} (h : Rest a b) (hk : k ∈ a) : k ∈ b := h.2.subset hk

/-- What the logic is about: the tokens of the text, one of them, and why it may be lost. -/
structure Kp where
  all : List Token
  k : Token
  X : Prop
  lost : k.t ∈ lostKinds → X

namespace Kp

variable (c : Kp)

/-- The remaining tokens are an end of those of the text. -/
def In (s : PSt) : Prop := Rest s.toks c.all

/-- The token is not lost: there was an error, it is excused, it is still to be read, or `A`. -/
def At (A : Prop) (s : PSt) : Prop := s.errors ≠ [] ∨ c.X ∨ c.k ∈ s.toks ∨ A

/-- After the parser function the token is not lost. -/
def Keeps (A : Prop) (f : P α) (Q : α → Prop) : Prop := ∀ s, c.In s →
  match f s with
  | .ok a s' => Rest s'.toks s.toks ∧ (s.errors ≠ [] → s'.errors ≠ []) ∧ (c.At A s → c.At (Q a) s')
  | .err _ s' => Rest s'.toks s.toks ∧ (s.errors ≠ [] → s'.errors ≠ [])
  | _ => True

/-- As `Keeps`, from one state. -/
def KeepsAt (s : PSt) (A : Prop) (f : P α) (Q : α → Prop) : Prop :=
  match f s with
  | .ok a s' => Rest s'.toks s.toks ∧ (s.errors ≠ [] → s'.errors ≠ []) ∧ (c.At A s → c.At (Q a) s')
  | .err _ s' => Rest s'.toks s.toks ∧ (s.errors ≠ [] → s'.errors ≠ [])
  | _ => True

variable {c}

theorem At.mono {A Q : Prop} {s : PSt} (h : c.At A s) (hq : A → Q) : c.At Q s := by
  rcases h with h | h | h | h
  · exact .inl h
  · exact .inr (.inl h)
  · exact .inr (.inr (.inl h))
  · exact .inr (.inr (.inr (hq h)))

/-! ## Rules -/

theorem Keeps.pure {A : Prop} {a : α} {Q : α → Prop} (h : A → Q a) : c.Keeps A (pure a) Q :=
  fun s hs => ⟨.refl _, fun h => h, fun ha => ha.mono h⟩

theorem Keeps.weaken {A A' : Prop} {f : P α} {Q R : α → Prop} (h : c.Keeps A f Q) (hp : A' → A) (hq : ∀ a, Q a → R a) :
    c.Keeps A' f R := by
  intro s hs
  have := h s hs
  cases hf : f s with
  | ok a s' => rw [hf] at this; exact ⟨this.1, this.2.1, fun ha => (this.2.2 (ha.mono hp)).mono (hq a)⟩
  | err e s' => rw [hf] at this; exact this
  | panic => trivial
  | diverge x => trivial

theorem Keeps.mono {A : Prop} {f : P α} {Q R : α → Prop} (h : c.Keeps A f Q) (hq : ∀ a, Q a → R a) : c.Keeps A f R :=
  h.weaken (fun h => h) hq

theorem Keeps.bind {A : Prop} {f : P α} {g : α → P β} {Q : α → Prop} {R : β → Prop} (h : c.Keeps A f Q)
    (hg : ∀ a, c.Keeps (Q a) (g a) R) : c.Keeps A (f >>= g) R := by
  intro s hs
  have := h s hs
  show match (P.bind f g) s with
    | .ok a s' => Rest s'.toks s.toks ∧ (s.errors ≠ [] → s'.errors ≠ []) ∧ (c.At A s → c.At (R a) s')
    | .err _ s' => Rest s'.toks s.toks ∧ (s.errors ≠ [] → s'.errors ≠ [])
    | _ => True
  unfold P.bind
  cases hf : f s with
  | ok a s' =>
    rw [hf] at this
    obtain ⟨h1, h2, h3⟩ := this
    have := hg a s' (h1.trans hs)
    cases hx : g a s' with
    | ok b s'' => rw [hx] at this; simp only [hx]; exact ⟨this.1.trans h1, fun h => this.2.1 (h2 h), fun h => this.2.2 (h3 h)⟩
    | err e s'' => rw [hx] at this; simp only [hx]; exact ⟨this.1.trans h1, fun h => this.2 (h2 h)⟩
    | panic => simp only [hx]
    | diverge x => simp only [hx]
  | err e s' => rw [hf] at this; exact this
  | panic => trivial
  | diverge x => trivial

/-- As `Keeps.bind`, with a fact about the results of the first function. -/
theorem Keeps.bindF {A : Prop} {f : P α} {g : α → P β} {F Q : α → Prop} {R : β → Prop}
    (hF : ∀ s a s', f s = .ok a s' → F a) (h : c.Keeps A f Q) (hg : ∀ a, F a → c.Keeps (Q a) (g a) R) :
    c.Keeps A (f >>= g) R := by
  intro s hs
  have h1 := h s hs
  show match (P.bind f g) s with
    | .ok a s' => Rest s'.toks s.toks ∧ (s.errors ≠ [] → s'.errors ≠ []) ∧ (c.At A s → c.At (R a) s')
    | .err _ s' => Rest s'.toks s.toks ∧ (s.errors ≠ [] → s'.errors ≠ [])
    | _ => True
  unfold P.bind
  cases hf : f s with
  | ok a s' =>
    rw [hf] at h1
    have := hg a (hF s a s' hf) s' (h1.1.trans hs)
    cases hx : g a s' with
    | ok b s'' => rw [hx] at this; simp only [hx]; exact ⟨this.1.trans h1.1, fun h => this.2.1 (h1.2.1 h), fun h => this.2.2 (h1.2.2 h)⟩
    | err e s'' => rw [hx] at this; simp only [hx]; exact ⟨this.1.trans h1.1, fun h => this.2 (h1.2.1 h)⟩
    | panic => simp only [hx]
    | diverge x => simp only [hx]
  | err e s' => rw [hf] at h1; exact h1
  | panic => trivial
  | diverge x => trivial

theorem Keeps.ite {A : Prop} {b : Prop} [Decidable b] {f g : P α} {Q : α → Prop} (h1 : b → c.Keeps A f Q)
    (h2 : ¬ b → c.Keeps A g Q) : c.Keeps A (if b then f else g) Q := by
  by_cases h : b
  · simp only [if_pos h]; exact h1 h
  · simp only [if_neg h]; exact h2 h

theorem Keeps.fail {A : Prop} {e : Err} {Q : α → Prop} : c.Keeps A (P.fail e) Q := fun s hs => ⟨.refl _, fun h => h⟩
theorem Keeps.panic {A : Prop} {Q : α → Prop} : c.Keeps A P.panic Q := fun s hs => trivial
theorem Keeps.diverge {A : Prop} {x : Site} {Q : α → Prop} : c.Keeps A (P.diverge x) Q := fun s hs => trivial

theorem Keeps.catchErr {A : Prop} {f : P α} {ok : α → P β} {er : Err → P β} {Q : α → Prop} {R : β → Prop}
    (h : c.Keeps A f Q) (h1 : ∀ a, c.Keeps (Q a) (ok a) R) (h2 : ∀ e, c.Keeps True (er e) R) :
    c.Keeps A (P.catchErr f ok er) R := by
  intro s hs
  have := h s hs
  unfold P.catchErr
  cases hf : f s with
  | ok a s' =>
    rw [hf] at this
    obtain ⟨g1, g2, g3⟩ := this
    have := h1 a s' (g1.trans hs)
    cases hx : ok a s' with
    | ok b s'' => rw [hx] at this; simp only [hx]; exact ⟨this.1.trans g1, fun h => this.2.1 (g2 h), fun h => this.2.2 (g3 h)⟩
    | err e s'' => rw [hx] at this; simp only [hx]; exact ⟨this.1.trans g1, fun h => this.2 (g2 h)⟩
    | panic => simp only [hx]
    | diverge x => simp only [hx]
  | err e s' =>
    rw [hf] at this
    obtain ⟨g1, g2⟩ := this
    have := h2 e s' (g1.trans hs)
    cases hx : er e s' with
    | ok b s'' =>
      rw [hx] at this
      simp only [hx]
      exact ⟨this.1.trans g1, fun h => this.2.1 (g2 h), fun h => this.2.2 (.inr (.inr (.inr trivial)))⟩
    | err e s'' => rw [hx] at this; simp only [hx]; exact ⟨this.1.trans g1, fun h => this.2 (g2 h)⟩
    | panic => simp only [hx]
    | diverge x => simp only [hx]
  | panic => trivial
  | diverge x => trivial

theorem Keeps.loopI {site : Site} {body : β → P (β ⊕ α)} {I : β → Prop} {Q : α → Prop}
    (hb : ∀ b, c.Keeps (I b) (body b) fun x => Sum.elim I Q x) :
    ∀ (n : Nat) (b : β), c.Keeps (I b) (loopP site n body b) Q := by
  intro n
  induction n with
  | zero => intro b; exact Keeps.diverge
  | succ n ih =>
    intro b
    unfold loopP
    refine Keeps.bind (hb b) fun x => ?_
    split
    · exact ih _
    · exact Keeps.pure fun h => h

/-- A loop keeps what its variables hold. -/
theorem Keeps.loop {site : Site} [Val β] [Val α] {body : β → P (β ⊕ α)} {A : Prop} {n : Nat} {b : β}
    (hb : ∀ b A, c.Keeps A (body b) fun x => A ∧ ¬ Has c.k b ∨ Has c.k x) :
    c.Keeps A (loopP site n body b) fun a => A ∧ ¬ Has c.k b ∨ Has c.k a := by
  have h := Keeps.loopI (c := c) (site := site) (body := body) (I := fun x => A ∧ ¬ Has c.k b ∨ Has c.k x)
    (Q := fun x => A ∧ ¬ Has c.k b ∨ Has c.k x) (fun b' => (hb b' _).mono fun x hx => by
      cases x with
      | inl x => simp only [Sum.elim_inl]; simp only [has_iff, good_inl] at hx ⊢; grind
      | inr x => simp only [Sum.elim_inr]; simp only [has_iff, good_inr] at hx ⊢; grind) n b
  exact h.weaken (fun hp => by by_cases h : Has c.k b <;> simp [h, hp]) fun _ h => h

/-- A loop at the end of a run. -/
theorem Keeps.loopTail {site : Site} [Val β] [Val α] {body : β → P (β ⊕ α)} {A : Prop} {n : Nat} {b : β} {Q : α → Prop}
    (hb : ∀ b A, c.Keeps A (body b) fun x => A ∧ ¬ Has c.k b ∨ Has c.k x) (hq : ∀ a, A ∧ ¬ Has c.k b ∨ Has c.k a → Q a) :
    c.Keeps A (loopP site n body b) Q := (Keeps.loop hb).mono hq

/-! ## Tokens -/

theorem nextOn_keeps : ∀ (l : List Token) (s : PSt) (o : Option Token) (s' : PSt), nextOn l s = .ok o s' →
    s'.errors = s.errors ∧ Rest s'.toks l ∧ (∀ k, o = some k → Rest (k :: s'.toks) l) ∧
      ∀ x ∈ l, x.t ∈ lostKinds ∨ x ∈ s'.toks ∨ o = some x
  | [], s, o, s', h => by
    unfold nextOn at h
    cases h
    exact ⟨rfl, Rest.refl _, (fun k hk => by cases hk), fun x hx => by cases hx⟩
  | k :: r, s, o, s', h => by
    unfold nextOn at h
    have step : ∀ s1, nextOn r s1 = .ok o s' → s1.errors = s.errors → k.t ∈ lostKinds → s'.errors = s.errors ∧ Rest s'.toks (k :: r) ∧
        (∀ k', o = some k' → Rest (k' :: s'.toks) (k :: r)) ∧ ∀ x ∈ k :: r, x.t ∈ lostKinds ∨ x ∈ s'.toks ∨ o = some x := by
      intro s1 h e ht
      obtain ⟨h1, h2, h3, h4⟩ := nextOn_keeps r s1 o s' h
      refine ⟨h1.trans e, h2.cons _, fun k' hk' => (h3 k' hk').cons _, fun x hx => ?_⟩
      rcases List.mem_cons.1 hx with rfl | hx
      · exact .inl ht
      · exact h4 x hx
    split at h
    · cases h
    · split at h
      · rename_i ht
        exact step _ h rfl (by rw [ht]; decide)
      · split at h
        · rename_i ht
          refine step _ h rfl ?_
          unfold isTrivia at ht
          rcases (Bool.or_eq_true _ _).mp ht with ht | ht <;> rw [eq_of_beq ht] <;> decide
        · cases h
          refine ⟨rfl, (Rest.refl _).cons _, (fun k' hk' => by cases hk'; exact Rest.refl _), fun x hx => ?_⟩
          rcases List.mem_cons.1 hx with rfl | hx
          · exact .inr (.inr rfl)
          · exact .inr (.inl hx)

theorem nextOn_never_err : ∀ (l : List Token) (s : PSt) (e : Err) (s' : PSt), nextOn l s ≠ .err e s'
  | [], s, e, s', h => by unfold nextOn at h; cases h
  | k :: r, s, e, s', h => by
    unfold nextOn at h
    split at h
    · cases h
    · split at h
      · exact nextOn_never_err r _ e s' h
      · split at h
        · exact nextOn_never_err r _ e s' h
        · cases h

theorem has_some {k : Token} : Has k (some k) := by simp [Has, Val.toks]

theorem keeps_next {A : Prop} : c.Keeps A next fun o => A ∨ Has c.k o := by
  intro s hs
  unfold next
  cases h : nextOn s.toks s with
  | ok o s' =>
    obtain ⟨h1, h2, h3, h4⟩ := nextOn_keeps _ _ _ _ h
    refine ⟨h2, fun he => by rw [h1]; exact he, fun ha => ?_⟩
    rcases ha with ha | ha | ha | ha
    · exact .inl (by rw [h1]; exact ha)
    · exact .inr (.inl ha)
    · rcases h4 _ ha with h | h | h
      · exact .inr (.inl (c.lost h))
      · exact .inr (.inr (.inl h))
      · exact .inr (.inr (.inr (.inr (by rw [h]; exact has_some))))
    · exact .inr (.inr (.inr (.inl ha)))
  | err e s' => exact absurd h (nextOn_never_err _ _ _ _)
  | panic => trivial
  | diverge x => trivial

theorem peekOn_keeps : ∀ (l : List Token) (s : PSt), (peekOn l s).2.errors = s.errors ∧ Rest (peekOn l s).2.toks l ∧
    ∀ x ∈ l, x.t ∈ lostKinds ∨ x ∈ (peekOn l s).2.toks
  | [], s => ⟨rfl, Rest.refl _, fun x hx => by cases hx⟩
  | k :: r, s => by
    unfold peekOn
    have step : ∀ s1 : PSt, s1.errors = s.errors → k.t ∈ lostKinds → (peekOn r s1).2.errors = s.errors ∧
        Rest (peekOn r s1).2.toks (k :: r) ∧ ∀ x ∈ k :: r, x.t ∈ lostKinds ∨ x ∈ (peekOn r s1).2.toks := by
      intro s1 e ht
      obtain ⟨h1, h2, h3⟩ := peekOn_keeps r s1
      refine ⟨h1.trans e, h2.cons _, fun x hx => ?_⟩
      rcases List.mem_cons.1 hx with rfl | hx
      · exact .inl ht
      · exact h3 x hx
    split
    · rename_i ht
      refine ⟨rfl, (Rest.refl _).cons _, fun x hx => ?_⟩
      rcases List.mem_cons.1 hx with rfl | hx
      · exact .inl (by rw [ht]; decide)
      · exact .inr hx
    · split
      · rename_i ht
        exact step _ rfl (by rw [ht]; decide)
      · split
        · rename_i ht
          refine step _ rfl ?_
          unfold isTrivia at ht
          rcases (Bool.or_eq_true _ _).mp ht with ht | ht <;> rw [eq_of_beq ht] <;> decide
        · exact ⟨rfl, Rest.refl _, fun x hx => .inr hx⟩

/-- Looking at the next token only drops tokens the grammar does not see. -/
theorem peekOn_solids : ∀ (l : List Token) (s : PSt), solids (peekOn l s).2.toks = solids l
  | [], s => rfl
  | k :: r, s => by
    unfold peekOn
    have drop : (k.t == .multilineComment || isTrivia k || k.t == .eof) = true → solids (k :: r) = solids r := by
      intro h
      unfold solids
      rw [List.filter_cons_of_neg (by rw [h]; decide)]
    split
    · rename_i h
      exact (drop (by rw [h]; simp)).symm
    · split
      · rename_i h
        rw [drop (by rw [h]; simp)]
        exact peekOn_solids r _
      · split
        · rename_i h
          rw [drop (by rw [h]; simp)]
          exact peekOn_solids r _
        · rfl

theorem _root_.PhpLs.Parser.Rest.front {a b : List Token} (k : Token) (h : solids a = solids b) (g : Rest a b) : Rest (k :: a) (k :: b) := by
  refine ⟨?_, g.2.cons₂ _⟩
  unfold solids at *
  rw [List.filter_cons, List.filter_cons, h]
  exact List.suffix_refl _

/-- A step that only drops tokens of lost kinds. -/
theorem at_drop {A : Prop} {s s' : PSt} (h1 : s'.errors = s.errors) (h3 : ∀ x ∈ s.toks, x.t ∈ lostKinds ∨ x ∈ s'.toks)
    (ha : c.At A s) : c.At A s' := by
  rcases ha with ha | ha | ha | ha
  · exact .inl (by rw [h1]; exact ha)
  · exact .inr (.inl ha)
  · rcases h3 _ ha with h | h
    · exact .inr (.inl (c.lost h))
    · exact .inr (.inr (.inl h))
  · exact .inr (.inr (.inr ha))

theorem keeps_peek {A : Prop} : c.Keeps A peek fun _ => A := by
  intro s hs
  obtain ⟨h1, h2, h3⟩ := peekOn_keeps s.toks s
  exact ⟨h2, (fun he => by rw [h1]; exact he), at_drop h1 h3⟩

theorem keeps_pushErr {A : Prop} {e : Err} {Q : Unit → Prop} : c.Keeps A (pushErr e) Q :=
  fun s hs => ⟨.refl _, fun _ => by simp, fun _ => .inl (by simp)⟩

theorem keeps_setCtx {A : Prop} {x : Ctx} : c.Keeps A (setCtx x) fun _ => A := fun s hs => ⟨.refl _, fun h => h, fun h => h⟩
theorem keeps_getCtx {A : Prop} : c.Keeps A getCtx fun _ => A := fun s hs => ⟨.refl _, fun h => h, fun h => h⟩

theorem ffBeforeOn_sub {stop : List TT} : ∀ (l : List Token) (s : PSt) (u : Unit) (s' : PSt), ffBeforeOn stop l s = .ok u s' →
    s'.errors = s.errors ∧ Rest s'.toks l
  | [], s, u, s', h => by unfold ffBeforeOn at h; cases h; exact ⟨rfl, Rest.refl _⟩
  | k :: r, s, u, s', h => by
    unfold ffBeforeOn at h
    have step : ∀ s1, ffBeforeOn stop r s1 = .ok u s' → s1.errors = s.errors → s'.errors = s.errors ∧ Rest s'.toks (k :: r) :=
      fun s1 h1 h2 => ⟨(ffBeforeOn_sub r s1 u s' h1).1.trans h2, (ffBeforeOn_sub r s1 u s' h1).2.cons _⟩
    split at h
    · cases h; exact ⟨rfl, (Rest.refl _).cons _⟩
    · split at h
      · exact step _ h rfl
      · split at h
        · exact step _ h rfl
        · split at h
          · cases h; exact ⟨rfl, Rest.refl _⟩
          · split at h
            · cases h
            · exact step _ h rfl

theorem ffBeforeOn_never_err {stop : List TT} : ∀ (l : List Token) (s : PSt) (e : Err) (s' : PSt), ffBeforeOn stop l s ≠ .err e s'
  | [], s, e, s', h => by unfold ffBeforeOn at h; cases h
  | k :: r, s, e, s', h => by
    unfold ffBeforeOn at h
    split at h
    · cases h
    · split at h
      · exact ffBeforeOn_never_err r _ e s' h
      · split at h
        · exact ffBeforeOn_never_err r _ e s' h
        · split at h
          · cases h
          · split at h
            · cases h
            · exact ffBeforeOn_never_err r _ e s' h

/-- Fast forwarding loses tokens: afterwards nothing is known, unless there was an error. -/
theorem keeps_ffBefore {A : Prop} {stop : List TT} : c.Keeps A (ffBefore stop) fun _ => True := by
  intro s hs
  unfold ffBefore
  cases h : ffBeforeOn stop s.toks s with
  | ok u s' =>
    obtain ⟨h1, h2⟩ := ffBeforeOn_sub _ _ _ _ h
    exact ⟨h2, (fun he => by rw [h1]; exact he), fun _ => .inr (.inr (.inr trivial))⟩
  | err e s' => exact absurd h (ffBeforeOn_never_err _ _ _ _)
  | panic => trivial
  | diverge x => trivial

theorem ffAfterOn_sub {stop : List TT} : ∀ (l : List Token) (s : PSt) (u : Unit) (s' : PSt), ffAfterOn stop l s = .ok u s' →
    s'.errors = s.errors ∧ Rest s'.toks l
  | [], s, u, s', h => by unfold ffAfterOn at h; cases h; exact ⟨rfl, Rest.refl _⟩
  | k :: r, s, u, s', h => by
    unfold ffAfterOn at h
    have step : ∀ s1, ffAfterOn stop r s1 = .ok u s' → s1.errors = s.errors → s'.errors = s.errors ∧ Rest s'.toks (k :: r) :=
      fun s1 h1 h2 => ⟨(ffAfterOn_sub r s1 u s' h1).1.trans h2, (ffAfterOn_sub r s1 u s' h1).2.cons _⟩
    split at h
    · cases h
    · split at h
      · exact step _ h rfl
      · split at h
        · exact step _ h rfl
        · split at h
          · cases h; exact ⟨rfl, (Rest.refl _).cons _⟩
          · exact step _ h rfl

theorem ffAfterOn_never_err {stop : List TT} : ∀ (l : List Token) (s : PSt) (e : Err) (s' : PSt), ffAfterOn stop l s ≠ .err e s'
  | [], s, e, s', h => by unfold ffAfterOn at h; cases h
  | k :: r, s, e, s', h => by
    unfold ffAfterOn at h
    split at h
    · cases h
    · split at h
      · exact ffAfterOn_never_err r _ e s' h
      · split at h
        · exact ffAfterOn_never_err r _ e s' h
        · split at h
          · cases h
          · exact ffAfterOn_never_err r _ e s' h

theorem keeps_ffAfter {A : Prop} {stop : List TT} : c.Keeps A (ffAfter stop) fun _ => True := by
  intro s hs
  unfold ffAfter
  cases h : ffAfterOn stop s.toks s with
  | ok u s' =>
    obtain ⟨h1, h2⟩ := ffAfterOn_sub _ _ _ _ h
    exact ⟨h2, (fun he => by rw [h1]; exact he), fun _ => .inr (.inr (.inr trivial))⟩
  | err e s' => exact absurd h (ffAfterOn_never_err _ _ _ _)
  | panic => trivial
  | diverge x => trivial

/-- After an error nothing has to be kept. -/
theorem keeps_after {A B : Prop} {e : Err} {f : Unit → P α} {Q R : α → Prop} (h : ∀ u, c.Keeps B (f u) R) :
    c.Keeps A (pushErr e >>= f) Q := by
  intro s hs
  have := h () { s with errors := s.errors ++ [e] } hs
  have he : (pushErr e >>= f) s = f () { s with errors := s.errors ++ [e] } := rfl
  rw [he]
  generalize f () { s with errors := s.errors ++ [e] } = x at this
  cases x with
  | ok a s' =>
    have h3 : s'.errors ≠ [] := this.2.1 (by simp)
    exact ⟨this.1, fun _ => h3, fun _ => .inl h3⟩
  | err e s' => exact ⟨this.1, fun _ => this.2 (by simp)⟩
  | panic => trivial
  | diverge x => trivial

theorem keeps_nextUnwrap {A : Prop} : c.Keeps A nextUnwrap fun k => A ∨ Has c.k k := by
  unfold nextUnwrap
  refine Keeps.bind keeps_next fun o => ?_
  split
  · exact Keeps.pure fun h => by simpa only [has_iff, good_some] using h
  · exact Keeps.panic

/-- The token that `peek` shows is the first of the remaining ones. -/
theorem peekOn_front : ∀ (l : List Token) (s : PSt) (k : Token), (peekOn l s).1 = some k → ∃ r, (peekOn l s).2.toks = k :: r ∧
    k.t ≠ .eof ∧ k.t ≠ .multilineComment ∧ isTrivia k = false := by
  intro l
  induction l with
  | nil => intro s k h; cases h
  | cons x r ih =>
    intro s k h
    unfold peekOn at h ⊢
    split at h
    · cases h
    · rename_i h1
      simp only [if_neg h1]
      split at h
      · rename_i h2; simp only [if_pos h2]; exact ih _ _ h
      · rename_i h2
        simp only [if_neg h2]
        split at h
        · rename_i h3; simp only [if_pos h3]; exact ih _ _ h
        · rename_i h3
          simp only [if_neg h3]
          cases h
          exact ⟨r, rfl, h1, h2, by simpa using h3⟩

theorem takeIf_sub {f : Token → Bool} {s s' : PSt} {k : Token} (h : takeIf f s = .ok (some k) s') :
    s'.errors = s.errors ∧ Rest (k :: s'.toks) s.toks ∧ (∀ x ∈ s.toks, x.t ∈ lostKinds ∨ x = k ∨ x ∈ s'.toks) ∧ f k = true := by
  unfold takeIf at h
  rw [show (peek >>= _ : P (Option Token)) = P.bind peek _ from rfl] at h
  unfold P.bind peek at h
  obtain ⟨h1, h2, h3⟩ := peekOn_keeps s.toks s
  have hfront := peekOn_front s.toks s
  cases hp : peekOn s.toks s with
  | mk o s1 =>
    rw [hp] at h h1 h2 h3 hfront
    cases o with
    | none => cases h
    | some k1 =>
      obtain ⟨r, hr, he, hm, ht⟩ := hfront k1 rfl
      simp only at h hr h1 h2 h3
      split at h
      · rename_i hfk
        rw [show (nextUnwrap >>= _ : P (Option Token)) = P.bind nextUnwrap _ from rfl] at h
        unfold P.bind nextUnwrap at h
        rw [show (next >>= _ : P Token) = P.bind next _ from rfl] at h
        unfold P.bind next at h
        simp only [hr] at h
        unfold nextOn at h
        simp only [if_neg hm, ht] at h
        cases hk : k1.range with
        | none => rw [hk] at h; cases h
        | some rg =>
          rw [hk] at h
          cases h
          rw [hr] at h2 h3
          exact ⟨h1, h2, fun x hx => by simpa using h3 x hx, hfk⟩
      · cases h

theorem takeIf_none {f : Token → Bool} {s s' : PSt} (h : takeIf f s = .ok none s') :
    s'.errors = s.errors ∧ Rest s'.toks s.toks ∧ ∀ x ∈ s.toks, x.t ∈ lostKinds ∨ x ∈ s'.toks := by
  unfold takeIf at h
  rw [show (peek >>= _ : P (Option Token)) = P.bind peek _ from rfl] at h
  unfold P.bind peek at h
  have hk := peekOn_keeps s.toks s
  cases hp : peekOn s.toks s with
  | mk o s1 =>
    rw [hp] at h hk
    cases o with
    | none => cases h; exact hk
    | some k1 =>
      simp only at h
      split at h
      · rw [show (nextUnwrap >>= _ : P (Option Token)) = P.bind nextUnwrap _ from rfl] at h
        unfold P.bind at h
        cases hn : nextUnwrap s1 with
        | ok a s2 => rw [hn] at h; cases h
        | err e s2 => rw [hn] at h; cases h
        | panic => rw [hn] at h; cases h
        | diverge x => rw [hn] at h; cases h
      · cases h; exact hk

theorem takeIf_never_err {f : Token → Bool} {s s' : PSt} {e : Err} : takeIf f s ≠ .err e s' := by
  intro h
  unfold takeIf at h
  rw [show (peek >>= _ : P (Option Token)) = P.bind peek _ from rfl] at h
  unfold P.bind peek at h
  cases hp : peekOn s.toks s with
  | mk o s1 =>
    rw [hp] at h
    cases o with
    | none => cases h
    | some k1 =>
      simp only at h
      split at h
      · rw [show (nextUnwrap >>= _ : P (Option Token)) = P.bind nextUnwrap _ from rfl] at h
        unfold P.bind at h
        unfold nextUnwrap at h
        rw [show (next >>= _ : P Token) = P.bind next _ from rfl] at h
        unfold P.bind next at h
        cases hn : nextOn s1.toks s1 with
        | ok o s2 => rw [hn] at h; cases o <;> cases h
        | err e s2 => exact nextOn_never_err _ _ _ _ hn
        | panic => rw [hn] at h; cases h
        | diverge x => rw [hn] at h; cases h
      · cases h

theorem keeps_takeIf {A : Prop} {f : Token → Bool} : c.Keeps A (takeIf f) fun o => A ∨ Has c.k o := by
  intro s hs
  cases h : takeIf f s with
  | ok o s' =>
    cases o with
    | none =>
      obtain ⟨h1, h2, h3⟩ := takeIf_none h
      exact ⟨h2, (fun he => by rw [h1]; exact he), fun ha => (at_drop h1 h3 ha).mono .inl⟩
    | some k =>
      obtain ⟨h1, h2, h3, _⟩ := takeIf_sub h
      refine ⟨((Rest.refl _).cons _).trans h2, (fun he => by rw [h1]; exact he), fun ha => ?_⟩
      rcases ha with ha | ha | ha | ha
      · exact .inl (by rw [h1]; exact ha)
      · exact .inr (.inl ha)
      · rcases h3 _ ha with h | h | h
        · exact .inr (.inl (c.lost h))
        · exact .inr (.inr (.inr (.inr (by rw [h]; exact has_some))))
        · exact .inr (.inr (.inl h))
      · exact .inr (.inr (.inr (.inl ha)))
  | err e s' => exact absurd h takeIf_never_err
  | panic => trivial
  | diverge x => trivial

/-- A token of a lost kind may be dropped. -/
theorem keeps_takeIf_lost {A : Prop} {f : Token → Bool} (hf : ∀ k, f k = true → k.t ∈ lostKinds) :
    c.Keeps A (takeIf f) fun _ => A := by
  intro s hs
  cases h : takeIf f s with
  | ok o s' =>
    cases o with
    | none =>
      obtain ⟨h1, h2, h3⟩ := takeIf_none h
      exact ⟨h2, (fun he => by rw [h1]; exact he), fun ha => at_drop h1 h3 ha⟩
    | some k =>
      obtain ⟨h1, h2, h3, h4⟩ := takeIf_sub h
      refine ⟨((Rest.refl _).cons _).trans h2, (fun he => by rw [h1]; exact he), fun ha => ?_⟩
      refine at_drop h1 (fun x hx => ?_) ha
      rcases h3 x hx with h | h | h
      · exact .inl h
      · exact .inl (by rw [h]; exact hf k h4)
      · exact .inr h
  | err e s' => exact absurd h takeIf_never_err
  | panic => trivial
  | diverge x => trivial

theorem keeps_consumeOrIgnore {A : Prop} {t : TT} : c.Keeps A (consumeOrIgnore t) fun o => A ∨ Has c.k o := keeps_takeIf
theorem keeps_consumeOrIgnore_lost {A : Prop} {t : TT} (h : t ∈ lostKinds) : c.Keeps A (consumeOrIgnore t) fun _ => A :=
  keeps_takeIf_lost fun k hk => by rw [eq_of_beq hk]; exact h
theorem keeps_consumeOneOfOrIgnore {A : Prop} {ts : List TT} : c.Keeps A (consumeOneOfOrIgnore ts) fun o => A ∨ Has c.k o :=
  keeps_takeIf
theorem keeps_consumeOneOfOrIgnore_lost {A : Prop} {ts : List TT} (h : ∀ t ∈ ts, t ∈ lostKinds) :
    c.Keeps A (consumeOneOfOrIgnore ts) fun _ => A :=
  keeps_takeIf_lost fun k hk => h _ (by simpa using hk)

theorem keeps_nextIs {A : Prop} {f : Token → Bool} : c.Keeps A (nextIs f) fun _ => A := by
  unfold nextIs
  refine Keeps.bind keeps_peek fun o => ?_
  split <;> exact Keeps.pure fun h => h

theorem keeps_nextOneOf {A : Prop} {ts : List TT} : c.Keeps A (nextOneOf ts) fun _ => A := keeps_nextIs
theorem keeps_nextIsMember {A : Prop} : c.Keeps A nextIsMember fun _ => A := keeps_nextIs

/-- The token taken by `takeOr`. -/
def takenOf : Option (Token × Bool) → Option Token
  | some (k, true) => some k
  | _ => none

theorem takeOr_eq (f : Token → Bool) : ∀ s, (match takeOr f s with
    | .ok (some (k, true)) s' => takeIf f s = .ok (some k) s'
    | .ok _ s' => takeIf f s = .ok none s'
    | .err e s' => takeIf f s = .err e s'
    | _ => True) := by
  intro s
  unfold takeOr takeIf
  rw [show (peek >>= _ : P (Option (Token × Bool))) = P.bind peek _ from rfl,
    show (peek >>= _ : P (Option Token)) = P.bind peek _ from rfl]
  unfold P.bind peek
  cases hp : peekOn s.toks s with
  | mk o s1 =>
    cases o with
    | none => rfl
    | some k =>
      simp only
      by_cases hf : f k = true
      · simp only [if_pos hf]
        rw [show (nextUnwrap >>= _ : P (Option (Token × Bool))) = P.bind nextUnwrap _ from rfl,
          show (nextUnwrap >>= _ : P (Option Token)) = P.bind nextUnwrap _ from rfl]
        unfold P.bind
        cases nextUnwrap s1 <;> first | rfl | trivial
      · simp only [if_neg hf]; rfl

theorem keeps_takeOr {A : Prop} {f : Token → Bool} : c.Keeps A (takeOr f) fun o => A ∨ Has c.k (takenOf o) := by
  intro s hs
  have h := takeOr_eq f s
  have hk := keeps_takeIf (c := c) (A := A) (f := f) s hs
  cases ht : takeOr f s with
  | ok o s' =>
    rw [ht] at h
    cases o with
    | none => simp only at h; rw [h] at hk; exact hk
    | some p =>
      obtain ⟨k, b⟩ := p
      cases b with
      | true => simp only at h; rw [h] at hk; exact hk
      | false => simp only at h; rw [h] at hk; exact hk
  | err e s' => rw [ht] at h; simp only at h; rw [h] at hk; exact hk
  | panic => trivial
  | diverge x => trivial

theorem takeOr_true {f : Token → Bool} {s s' : PSt} {o : Option (Token × Bool)} (h : takeOr f s = .ok o s') :
    ∀ k, o = some (k, true) → f k = true := by
  intro k e
  subst e
  have := takeOr_eq f s
  rw [h] at this
  exact (takeIf_sub this).2.2.2

theorem keeps_takeOr_lost {A : Prop} {f : Token → Bool} (hf : ∀ k, f k = true → k.t ∈ lostKinds) :
    c.Keeps A (takeOr f) fun _ => A := by
  intro s hs
  have h := takeOr_eq f s
  have hk := keeps_takeIf_lost (c := c) (A := A) hf s hs
  cases ht : takeOr f s with
  | ok o s' =>
    rw [ht] at h
    cases o with
    | none => simp only at h; rw [h] at hk; exact hk
    | some p =>
      obtain ⟨k, b⟩ := p
      cases b with
      | true => simp only at h; rw [h] at hk; exact hk
      | false => simp only at h; rw [h] at hk; exact hk
  | err e s' => rw [ht] at h; simp only at h; rw [h] at hk; exact hk
  | panic => trivial
  | diverge x => trivial

theorem keeps_takeOrMissing {A : Prop} {f : Token → Bool} :
    c.Keeps A (takeOrMissing f) fun x => A ∨ (x.2 = false ∧ Has c.k x.1) := by
  unfold takeOrMissing
  refine Keeps.bind keeps_peek fun o => ?_
  split
  · exact fun s hs => ⟨.refl _, fun h => h, fun h => h.mono .inl⟩
  · refine Keeps.ite (fun _ => ?_) fun _ => ?_
    · exact Keeps.bind keeps_nextUnwrap fun k => Keeps.pure fun h => h.imp id fun h => ⟨rfl, h⟩
    · exact fun s hs => ⟨.refl _, fun h => h, fun h => h.mono .inl⟩

theorem keeps_dead {A : Prop} {f : P α} {g : α → P β} {R : β → Prop} (h : c.Keeps A f fun _ => False)
    (hg : ∀ a, c.Keeps False (g a) R) : c.Keeps A (f >>= g) R := Keeps.bind h hg

theorem keeps_errorFastForward {A : Prop} : c.Keeps A errorFastForward fun _ => True := keeps_ffBefore

theorem keeps_consume {A : Prop} {t : TT} : c.Keeps A (consume t) fun k => A ∨ Has c.k k := by
  unfold consume
  refine Keeps.bind keeps_takeOrMissing fun x => ?_
  obtain ⟨k, wrong⟩ := x
  refine Keeps.ite (fun hw => ?_) (fun hw => Keeps.pure fun h => ?_)
  · exact Keeps.bind keeps_errorFastForward fun _ => Keeps.bind (Q := fun _ => False) keeps_pushErr fun _ => Keeps.pure fun h => h.elim
  · rcases h with h | h
    · exact .inl h
    · exact .inr h.2

theorem keeps_consume_lost {A : Prop} {t : TT} (ht : t ∈ lostKinds) : c.Keeps A (consume t) fun _ => A := by
  have h1 : c.Keeps A (takeOrMissing fun k => k.t == t) fun _ => A := by
    intro s hs
    have hk := keeps_takeOr_lost (c := c) (A := A) (f := fun k => k.t == t) (fun k hk => by rw [eq_of_beq hk]; exact ht) s hs
    unfold takeOrMissing
    unfold takeOr at hk
    rw [show (peek >>= _ : P (Option (Token × Bool))) = P.bind peek _ from rfl] at hk
    rw [show (peek >>= _ : P (Token × Bool)) = P.bind peek _ from rfl]
    unfold P.bind peek at hk ⊢
    cases hp : peekOn s.toks s with
    | mk o s1 =>
      rw [hp] at hk
      cases o with
      | none => exact hk
      | some k =>
        simp only at hk ⊢
        by_cases hf : (k.t == t) = true
        · rw [if_pos hf] at hk
          have e : (if (k.t == t) = true then (do let k' ← nextUnwrap; pure (k', false) : P (Token × Bool)) else fun s => .ok (Token.missing s.endPrev.end, true) s) =
              (do let k' ← nextUnwrap; pure (k', false) : P (Token × Bool)) := if_pos hf
          rw [e]
          rw [show (nextUnwrap >>= _ : P (Option (Token × Bool))) = P.bind nextUnwrap _ from rfl] at hk
          rw [show (nextUnwrap >>= _ : P (Token × Bool)) = P.bind nextUnwrap _ from rfl]
          unfold P.bind at hk ⊢
          cases hx : nextUnwrap s1 with
          | ok a s2 => rw [hx] at hk; exact hk
          | err e s2 => rw [hx] at hk; exact hk
          | panic => trivial
          | diverge x => trivial
        · rw [if_neg hf] at hk
          have e : (if (k.t == t) = true then (do let k' ← nextUnwrap; pure (k', false) : P (Token × Bool)) else fun s => .ok (Token.missing s.endPrev.end, true) s) =
              (fun s => .ok (Token.missing s.endPrev.end, true) s : P (Token × Bool)) := if_neg hf
          rw [e]
          exact hk
  unfold consume
  refine Keeps.bind h1 fun x => ?_
  obtain ⟨k, wrong⟩ := x
  refine Keeps.ite (fun hw => ?_) (fun hw => Keeps.pure fun h => h)
  exact Keeps.bind keeps_errorFastForward fun _ => Keeps.bind (Q := fun _ => False) keeps_pushErr fun _ => Keeps.pure fun h => h.elim

/-- The token `consume` takes is of the given kind. -/
theorem keeps_consume_kind {A : Prop} {t : TT} : c.Keeps A (consume t) fun k => A ∨ Has c.k k ∧ c.k.t = t := by
  have hf : ∀ s x s', takeOrMissing (fun k => k.t == t) s = .ok x s' → x.2 = false → x.1.t = t := by
    intro s x s' h hx
    unfold takeOrMissing at h
    rw [show (peek >>= _ : P (Token × Bool)) = P.bind peek _ from rfl] at h
    unfold P.bind peek at h
    have hfront := peekOn_front s.toks s
    cases hp : peekOn s.toks s with
    | mk o s1 =>
      rw [hp] at h hfront
      cases o with
      | none => cases h; cases hx
      | some k =>
        obtain ⟨r, hr, he, hm, ht⟩ := hfront k rfl
        simp only at h hr
        by_cases hf : (k.t == t) = true
        · have e : (if (k.t == t) = true then (do let k' ← nextUnwrap; pure (k', false) : P (Token × Bool)) else fun s => .ok (Token.missing s.endPrev.end, true) s) =
              (do let k' ← nextUnwrap; pure (k', false) : P (Token × Bool)) := if_pos hf
          rw [e] at h
          rw [show (nextUnwrap >>= _ : P (Token × Bool)) = P.bind nextUnwrap _ from rfl] at h
          unfold P.bind nextUnwrap at h
          rw [show (next >>= _ : P Token) = P.bind next _ from rfl] at h
          unfold P.bind next at h
          simp only [hr] at h
          unfold nextOn at h
          simp only [if_neg hm, ht] at h
          cases hk : k.range with
          | none => rw [hk] at h; cases h
          | some rg =>
            rw [hk] at h
            cases h
            exact eq_of_beq hf
        · have e : (if (k.t == t) = true then (do let k' ← nextUnwrap; pure (k', false) : P (Token × Bool)) else fun s => .ok (Token.missing s.endPrev.end, true) s) =
              (fun s => .ok (Token.missing s.endPrev.end, true) s : P (Token × Bool)) := if_neg hf
          rw [e] at h
          cases h
          cases hx
  unfold consume
  refine Keeps.bindF hf keeps_takeOrMissing fun x hx => ?_
  obtain ⟨k, wrong⟩ := x
  refine Keeps.ite (fun hw => ?_) (fun hw => Keeps.pure fun h => ?_)
  · exact Keeps.bind keeps_errorFastForward fun _ => Keeps.bind (Q := fun _ => False) keeps_pushErr fun _ => Keeps.pure fun h => h.elim
  · rcases h with h | h
    · exact .inl h
    · refine .inr ⟨h.2, ?_⟩
      have : c.k = k := by simpa [Has, Val.toks] using h.2
      rw [this]
      exact hx h.1

theorem keeps_consumeIdentifier {A : Prop} : c.Keeps A consumeIdentifier fun k => A ∨ Has c.k k := by
  unfold consumeIdentifier
  refine Keeps.bind keeps_takeOrMissing fun x => ?_
  obtain ⟨k, wrong⟩ := x
  refine Keeps.ite (fun hw => ?_) (fun hw => Keeps.pure fun h => ?_)
  · exact Keeps.bind (Q := fun _ => False) keeps_pushErr fun _ => Keeps.pure fun h => h.elim
  · rcases h with h | h
    · exact .inl h
    · exact .inr h.2

theorem keeps_consumeEndOfStatement {A : Prop} : c.Keeps A consumeEndOfStatement fun _ => A := by
  unfold consumeEndOfStatement
  refine Keeps.bind (keeps_takeOr_lost fun k hk => by rw [eq_of_beq hk]; decide) fun o => ?_
  split
  · exact keeps_pushErr
  · refine Keeps.ite (fun _ => Keeps.pure fun h => h) fun _ => Keeps.ite (fun _ => Keeps.pure fun h => h) fun _ => ?_
    exact Keeps.bind keeps_errorFastForward fun _ => keeps_pushErr

/-- `consume_or_ff_after` drops the token it takes. -/
theorem keeps_consumeOrFfAfter {A : Prop} {t : TT} {l : List TT} (ht : t ∈ lostKinds) :
    c.Keeps A (consumeOrFfAfter t l) fun _ => A := by
  unfold consumeOrFfAfter
  refine Keeps.bind (keeps_takeOr_lost fun k hk => by rw [eq_of_beq hk]; exact ht) fun o => ?_
  split
  · exact keeps_pushErr
  · exact Keeps.ite (fun _ => Keeps.pure fun h => h) fun _ => keeps_after fun _ => keeps_ffAfter (A := True)

theorem keeps_consumeOrFfBefore {A : Prop} {t : TT} {l : List TT} : c.Keeps A (consumeOrFfBefore t l) fun k => A ∨ Has c.k k := by
  unfold consumeOrFfBefore
  refine Keeps.bind keeps_takeOr fun o => ?_
  split
  · exact Keeps.bind (Q := fun _ => False) keeps_pushErr fun _ => Keeps.fail
  · rename_i k taken
    refine Keeps.ite (fun ht => Keeps.pure fun h => ?_) fun _ => ?_
    · subst ht
      simpa only [takenOf, has_iff, good_some] using h
    · exact keeps_after fun _ => Keeps.bind (keeps_ffBefore (A := True)) fun _ => Keeps.pure (Q := fun _ => True) fun h => h

theorem keeps_consumeOrFfBefore_lost {A : Prop} {t : TT} {l : List TT} (ht : t ∈ lostKinds) :
    c.Keeps A (consumeOrFfBefore t l) fun _ => A := by
  unfold consumeOrFfBefore
  refine Keeps.bind (keeps_takeOr_lost fun k hk => by rw [eq_of_beq hk]; exact ht) fun o => ?_
  split
  · exact Keeps.bind (Q := fun _ => False) keeps_pushErr fun _ => Keeps.fail
  · refine Keeps.ite (fun ht => Keeps.pure fun h => h) fun _ => ?_
    exact keeps_after fun _ => Keeps.bind (keeps_ffBefore (A := True)) fun _ => Keeps.pure (Q := fun _ => True) fun h => h

theorem keeps_consumeMember {A : Prop} : c.Keeps A consumeMember fun k => A ∨ Has c.k k := by
  unfold consumeMember
  refine Keeps.bind keeps_next fun o => ?_
  split
  · exact Keeps.ite (fun _ => Keeps.pure fun h => by simpa only [has_iff, good_some] using h) fun _ => Keeps.fail
  · exact Keeps.fail

theorem keeps_consumeOneOf {A : Prop} {ts : List TT} : c.Keeps A (consumeOneOf ts) fun k => A ∨ Has c.k k := by
  unfold consumeOneOf
  refine Keeps.bind keeps_next fun o => ?_
  split
  · exact Keeps.ite (fun _ => Keeps.pure fun h => by simpa only [has_iff, good_some] using h) fun _ => Keeps.fail
  · exact Keeps.fail

theorem keeps_consumeOneOf_lost {A : Prop} {ts : List TT} (h : ∀ t ∈ ts, t ∈ lostKinds) : c.Keeps A (consumeOneOf ts) fun _ => A := by
  unfold consumeOneOf
  refine Keeps.bind keeps_next fun o => ?_
  split
  · rename_i k
    refine Keeps.ite (fun hk => ?_) fun _ => Keeps.fail
    intro s hs
    refine ⟨.refl _, fun h => h, fun ha => ?_⟩
    rcases ha with ha | ha | ha | ha
    · exact .inl ha
    · exact .inr (.inl ha)
    · exact .inr (.inr (.inl ha))
    · rcases ha with ha | ha
      · exact .inr (.inr (.inr ha))
      · have : k = c.k := by simpa [Has, Val.toks, eq_comm] using ha
        exact .inr (.inl (c.lost (by rw [← this]; exact h _ (by simpa using hk))))
  · exact Keeps.fail

theorem keeps_lookahead {A : Prop} {f g : Token → Bool} : c.Keeps A (lookahead f g) fun o => A ∨ Has c.k o := by
  intro s hs
  have hk := keeps_takeIf (c := c) (A := A) (f := f) s hs
  unfold lookahead
  rw [show (takeIf f >>= _ : P (Option Token)) = P.bind (takeIf f) _ from rfl]
  unfold P.bind
  cases h : takeIf f s with
  | ok o s' =>
    rw [h] at hk
    cases o with
    | none => exact hk
    | some k =>
      obtain ⟨h1, h2, h3, _⟩ := takeIf_sub h
      obtain ⟨p1, p2, p3⟩ := peekOn_keeps s'.toks s'
      have hn : ∃ b, nextIs g s' = .ok b (peekOn s'.toks s').2 := by
        unfold nextIs
        rw [show (peek >>= _ : P Bool) = P.bind peek _ from rfl]
        unfold P.bind peek
        cases hx : peekOn s'.toks s' with
        | mk o s2 =>
          cases o with
          | none => exact ⟨false, rfl⟩
          | some k => exact ⟨g k, rfl⟩
      obtain ⟨b, hn⟩ := hn
      simp only
      rw [show (nextIs g >>= _ : P (Option Token)) = P.bind (nextIs g) _ from rfl]
      unfold P.bind
      rw [hn]
      cases b with
      | true =>
        refine ⟨p2.trans hk.1, (fun he => by rw [p1]; exact hk.2.1 he), fun ha => ?_⟩
        exact at_drop p1 p3 (hk.2.2 ha)
      | false =>
        refine ⟨(Rest.front _ (peekOn_solids _ _) p2).trans h2, (fun he => by show (peekOn s'.toks s').2.errors ≠ []; rw [p1]; exact hk.2.1 he), fun ha => ?_⟩
        refine (at_drop (s := s) (s' := { (peekOn s'.toks s').2 with toks := k :: (peekOn s'.toks s').2.toks }) (p1.trans h1) (fun x hx => ?_) ha).mono .inl
        rcases h3 x hx with h | h | h
        · exact .inl h
        · exact .inr (by rw [h]; exact List.mem_cons_self)
        · rcases p3 x h with h | h
          · exact .inl h
          · exact .inr (List.mem_cons_of_mem _ h)
  | err e s' => exact absurd h takeIf_never_err
  | panic => trivial
  | diverge x => trivial

theorem keeps_hereDocBody {A : Prop} : c.Keeps A hereDocBody fun o => A ∨ Has c.k o := by
  unfold hereDocBody
  refine Keeps.bind keeps_nextOneOf fun _ => Keeps.ite (fun _ => ?_) (fun _ => Keeps.pure .inl)
  refine Keeps.bind (keeps_consumeOrFfAfter (by decide)) fun _ => Keeps.bind keeps_nextUnwrap fun k => Keeps.pure fun h => ?_
  simpa only [has_iff, good_some] using h

theorem keeps_popDoc {A : Prop} {doc : Token → Option Node} : c.Keeps A (popDoc doc) fun _ => A := by
  intro s hs
  unfold popDoc
  cases s.docs with
  | nil => exact ⟨.refl _, fun h => h, fun h => h⟩
  | cons k l =>
    simp only
    cases doc k with
    | none => trivial
    | some n => exact ⟨.refl _, fun h => h, fun h => h⟩

theorem keeps_drainDocs {A : Prop} {doc : Token → Option Node} : c.Keeps A (drainDocs doc) fun _ => A := by
  intro s hs
  have key : ∀ (l : List Token) (s : PSt), match drainDocsOn doc l s with
      | .ok a s' => s'.errors = s.errors ∧ s'.toks = s.toks
      | .err _ _ => False
      | _ => True := by
    intro l
    induction l with
    | nil => intro s; exact ⟨rfl, rfl⟩
    | cons k l ih =>
      intro s
      unfold drainDocsOn
      cases doc k with
      | none => trivial
      | some n =>
        simp only
        have := ih s
        generalize drainDocsOn doc l s = x at this ⊢
        cases x with
        | ok a s' => exact this
        | err e s' => exact this
        | panic => trivial
        | diverge x => trivial
  have := key s.docs s
  unfold drainDocs
  generalize drainDocsOn doc s.docs s = x at this
  cases x with
  | ok a s' =>
    refine ⟨by rw [this.2]; exact .refl _, (fun he => by rw [this.1]; exact he), ?_⟩
    unfold At
    rw [this.1, this.2]
    exact fun h => h
  | err e s' => exact this.elim
  | panic => trivial
  | diverge x => trivial

end Kp

end PhpLs.Parser
