import Verif.ParserTerm

/-!
# Termination of every function of the grammar

For every grammar function `f` the lemma `wp_f` says that it does not run out of fuel (except at the loops `V.exc` excuses)
and how many tokens it leaves, provided the recursive entry points behave on fewer tokens (`RT`).
-/

namespace PhpLs.Parser

open PhpLs

/-- The recursive entry points end on fewer than `N` tokens, and consume at least one token if they succeed. -/
structure RT (V : Env) (N : Nat) (r : Rec) : Prop where
  fuel : N < r.fuel
  expression : ∀ {b s}, s.toks.length < N → wp V (r.expression b) (fun _ => s.toks.length) (s.toks.length - 1) s
  statement : ∀ {s}, s.toks.length < N → wp V r.statement (fun _ => s.toks.length) (s.toks.length - V.c) s
  call : ∀ {s}, s.toks.length < N → wp V r.call (fun _ => s.toks.length) (s.toks.length - 1) s

section rules
variable {V : Env} {α β : Type} {n m n1 m1 : Nat} {s : PSt}

theorem wp_bindC {p : P α} {k : α → P β} {q : β → Nat} (h : wp V p (fun _ => n1) m1 s) (hm : m1 ≤ m)
    (hk : ∀ a s', V.Ready s' → s'.toks.Sublist s.toks → s'.toks.length < n1 → wp V (k a) q m s') :
    wp V (p >>= k) q m s := wp_bind h hm hk

theorem wp_bindW {p : P α} {k : α → P β} {q : β → Nat} (h : wp V p (fun _ => s.toks.length + 1) m s)
    (hk : ∀ a s', V.Ready s' → s'.toks.Sublist s.toks → s'.toks.length < s.toks.length + 1 → wp V (k a) q m s') :
    wp V (p >>= k) q m s := wp_bind h (Nat.le_refl _) hk

theorem wp_monoC {p : P α} (h : wp V p (fun _ => n1) m1 s) (hn : n1 ≤ n) (hm : m1 ≤ m) : wp V p (fun _ => n) m s :=
  wp_mono h (fun _ => hn) hm

theorem wp_catchErrC {p : P α} {ok : α → P β} {err : Err → P β} {q : β → Nat}
    (h : wp V p (fun _ => n1) m1 s)
    (ho : ∀ a s', V.Ready s' → s'.toks.Sublist s.toks → s'.toks.length < n1 → wp V (ok a) q m s')
    (he : ∀ e s', V.Ready s' → s'.toks.Sublist s.toks → s'.toks.length ≤ m1 → wp V (err e) q m s') :
    wp V (P.catchErr p ok err) q m s := wp_catchErr h ho he

theorem wp_pureInl {a : β} {n n' : Nat} (h : s.toks.length < n) :
    wp V (pure (Sum.inl a) : P (β ⊕ α)) (Sum.elim (fun _ => n) (fun _ => n')) m s := wp_pure h

theorem wp_pureInr {a : α} {n n' : Nat} (h : s.toks.length < n') :
    wp V (pure (Sum.inr a) : P (β ⊕ α)) (Sum.elim (fun _ => n) (fun _ => n')) m s := wp_pure h

theorem wp_pureC {a : α} (h : s.toks.length < n) : wp V (pure a) (fun _ => n) m s := wp_pure h

theorem wp_consumeOrIgnore {t : TT} {k : Option Token → P β} {q : β → Nat}
    (h1 : ∀ a s', V.Ready s' → s'.toks.Sublist s.toks → s'.toks.length < s.toks.length →
      wp V (k (some a)) q m s')
    (h2 : ∀ s', V.Ready s' → s'.toks.Sublist s.toks → s'.toks.length ≤ s.toks.length → wp V (k none) q m s') :
    wp V (consumeOrIgnore t >>= k) q m s :=
  wp_takeIf (fun a s' r1 r2 r3 _ _ => h1 a s' r1 r2 r3) h2

theorem wp_consumeOneOfOrIgnore {ts : List TT} {k : Option Token → P β} {q : β → Nat}
    (h1 : ∀ a s', V.Ready s' → s'.toks.Sublist s.toks → s'.toks.length < s.toks.length → wp V (k (some a)) q m s')
    (h2 : ∀ s', V.Ready s' → s'.toks.Sublist s.toks → s'.toks.length ≤ s.toks.length → wp V (k none) q m s') :
    wp V (consumeOneOfOrIgnore ts >>= k) q m s :=
  wp_takeIf (fun a s' r1 r2 r3 _ _ => h1 a s' r1 r2 r3) h2

theorem wp_takeIfC {f : Token → Bool} {k : Option Token → P β} {q : β → Nat}
    (h1 : ∀ a s', V.Ready s' → s'.toks.Sublist s.toks → s'.toks.length < s.toks.length → wp V (k (some a)) q m s')
    (h2 : ∀ s', V.Ready s' → s'.toks.Sublist s.toks → s'.toks.length ≤ s.toks.length → wp V (k none) q m s') :
    wp V (takeIf f >>= k) q m s :=
  wp_takeIf (fun a s' r1 r2 r3 _ _ => h1 a s' r1 r2 r3) h2

theorem wp_ifNext {ts : List TT} {p p' : P β} {q : β → Nat}
    (h1 : ∀ s', V.Ready s' → s'.toks.Sublist s.toks → s'.toks.length ≤ s.toks.length → 0 < s'.toks.length →
      fr ts s' = 1 → wp V p q m s')
    (h2 : ∀ s', V.Ready s' → s'.toks.Sublist s.toks → s'.toks.length ≤ s.toks.length → wp V p' q m s') :
    wp V (nextOneOf ts >>= fun b => if b = true then p else p') q m s :=
  wp_nextOneOf h1 (fun s' r1 r2 r3 _ => h2 s' r1 r2 r3)

theorem wp_peekC {k : Option Token → P β} {q : β → Nat}
    (h1 : ∀ s', V.Ready s' → s'.toks.Sublist s.toks → s'.toks.length ≤ s.toks.length - 1 → wp V (k none) q m s')
    (h2 : ∀ a s', V.Ready s' → s'.toks.Sublist s.toks → s'.toks.length ≤ s.toks.length → 0 < s'.toks.length →
      wp V (k (some a)) q m s') :
    wp V (peek >>= k) q m s := wp_peek h1 (fun a s' r1 r2 r3 r4 _ _ => h2 a s' r1 r2 r3 r4)

theorem wp_nextIsB {f : Token → Bool} {k : Bool → P β} {q : β → Nat}
    (hk : ∀ a s', V.Ready s' → s'.toks.Sublist s.toks → s'.toks.length < s.toks.length + 1 → wp V (k a) q m s') :
    wp V (nextIs f >>= k) q m s := wp_bind wp_nextIs (Nat.zero_le _) hk

theorem wp_nextOneOfB {ts : List TT} {k : Bool → P β} {q : β → Nat}
    (hk : ∀ a s', V.Ready s' → s'.toks.Sublist s.toks → s'.toks.length < s.toks.length + 1 → wp V (k a) q m s') :
    wp V (nextOneOf ts >>= k) q m s := wp_bind wp_nextIs (Nat.zero_le _) hk

theorem wp_nextIsMemberB {k : Bool → P β} {q : β → Nat}
    (hk : ∀ a s', V.Ready s' → s'.toks.Sublist s.toks → s'.toks.length < s.toks.length + 1 → wp V (k a) q m s') :
    wp V (nextIsMember >>= k) q m s := wp_bind wp_nextIs (Nat.zero_le _) hk

/-- A known front type. -/
theorem fr_of {ts : List TT} {t : TT} {s : PSt} (h : front s.toks = some t) (ht : ts.contains t = true) : fr ts s = 1 := by
  rw [fr_of_front h, if_pos ht]

/-- Under `c = 1` there are no closing tags in front. -/
theorem c_zero {t : TT} {s : PSt} (hr : V.Ready s) (h : fr [t] s = 1) (ht : t = .scriptEnd ∨ t = .scriptStartEcho) :
    V.c = 0 := by
  rcases Nat.lt_or_ge V.c 1 with h1 | h1
  · omega
  · exfalso
    have hc : V.c = 1 := Nat.le_antisymm V.c_le h1
    obtain ⟨t', h2, h3⟩ := fr_one h
    simp at h3
    subst h3
    rcases peek_spec s with ⟨s', e, hs, hc', hl, hf⟩ | ⟨a, s', r, e, hs, hc', ht', hk, he, hf, hf'⟩
    · rw [h2] at hf; cases hf
    · rw [h2] at hf
      cases hf
      have := V.tags hc (V.sub (ht' ▸ hs) hr.1)
      rcases ht with h | h
      · exact this.1 h
      · exact this.2 h

/-- The token in front, in a list of tokens with the property of the run. -/
theorem front_token {t : TT} {s : PSt} (hr : V.Ready s) (h : fr [t] s = 1) : ∃ a l, a.t = t ∧ V.P (a :: l) := by
  obtain ⟨t', h2, h3⟩ := fr_one h
  simp at h3
  subst h3
  rcases peek_spec s with ⟨s', e, hs, hc', hl, hf⟩ | ⟨a, s', r, e, hs, hc', ht', hk, he, hf, hf'⟩
  · rw [h2] at hf; cases hf
  · rw [h2] at hf
    cases hf
    exact ⟨a, r, rfl, V.sub (ht' ▸ hs) hr.1⟩

/-- As `front_token`, behind a token that was already taken. -/
theorem front_token_behind {t : TT} {s : PSt} {f : Token} (hf : V.P (f :: s.toks)) (h : fr [t] s = 1) :
    ∃ a l, a.t = t ∧ V.P (f :: a :: l) := by
  obtain ⟨t', h2, h3⟩ := fr_one h
  simp at h3
  subst h3
  rcases peek_spec s with ⟨s', e, hs, hc', hl, hf'⟩ | ⟨a, s', r, e, hs, hc', ht', hk, he, hf', hf''⟩
  · rw [h2] at hf'; cases hf'
  · rw [h2] at hf'
    cases hf'
    exact ⟨a, r, rfl, V.sub ((ht' ▸ hs : (a :: r).Sublist s.toks).cons_cons f) hf⟩

end rules

section
variable {V : Env} {α : Type} {q : α → Nat} {m : Nat} {s : PSt}

theorem wp_ready {p : P α} (h : V.Ready s → wp V p q m s) : wp V p q m s := fun hr => h hr hr

theorem wp_optional {t : TT} : wp V (consumeOrIgnore t) (fun _ => s.toks.length + 1) 0 s := by
  have := wp_takeIf (V := V) (s := s) (f := fun k => k.t == t) (k := pure) (q := fun _ => s.toks.length + 1) (m := 0)
    (fun a s' _ _ h _ _ => wp_pure (by omega)) (fun s' _ _ h => wp_pure (by omega))
  intro hr
  have h2 := this hr
  rw [bind_run] at h2
  unfold consumeOrIgnore
  cases hx : takeIf (fun k => k.t == t) s <;> rw [hx] at h2 <;> exact h2

end

/-- Closes `wp V p ?q ?m s` by a lemma; extended by every lemma about a grammar function. -/
syntax "wp_spec" : tactic
macro_rules | `(tactic| wp_spec) => `(tactic| fail)
macro_rules | `(tactic| wp_spec) => `(tactic| first
  | with_reducible exact wp_consume
  | with_reducible exact wp_consumeIdentifier
  | with_reducible exact wp_consumeEndOfStatement
  | with_reducible exact wp_consumeOrFfAfter
  | with_reducible exact wp_consumeOrFfBefore
  | with_reducible exact wp_consumeMember
  | with_reducible exact wp_consumeOneOf
  | with_reducible exact wp_errorFastForward
  | with_reducible exact wp_pushErr
  | with_reducible exact wp_popDoc
  | with_reducible exact wp_drainDocs
  | with_reducible exact wp_setScript
  | (with_reducible refine wp_setOut ?_; omega)
  | (with_reducible refine RT.expression (by assumption) ?_; omega)
  | (with_reducible refine RT.statement (by assumption) ?_; omega)
  | (with_reducible refine RT.call (by assumption) ?_; omega))

/-- One step. -/
macro "wp_step" : tactic => `(tactic| first
  | with_reducible intro _
  | (with_reducible refine wp_pureC ?_; omega)
  | (with_reducible refine wp_pureInl ?_; omega)
  | (with_reducible refine wp_pureInr ?_; omega)
  | (with_reducible refine wp_fail ?_; omega)
  | with_reducible exact wp_panic
  | with_reducible refine wp_ifNext ?_ ?_
  | with_reducible refine wp_consumeOrIgnore ?_ ?_
  | with_reducible refine wp_consumeOneOfOrIgnore ?_ ?_
  | with_reducible refine wp_takeIfC ?_ ?_
  | with_reducible refine wp_peekC ?_ ?_
  | with_reducible refine wp_nextOneOfB ?_
  | with_reducible refine wp_nextIsMemberB ?_
  | with_reducible refine wp_lookahead ?_ ?_
  | with_reducible refine wp_hereDocBody ?_ ?_
  | with_reducible refine wp_next_bind ?_ ?_
  | (with_reducible apply wp_bindC; (wp_spec); (omega))
  | (with_reducible apply wp_monoC; (wp_spec); (omega); (omega))
  | with_reducible refine wp_ite ?_ ?_
  | with_reducible refine wp_loopHang (by assumption) _ _ ?_ _
  | (with_reducible refine wp_loopP (Nat.lt_of_le_of_lt ?_ (RT.fuel (by assumption))) ?_ _; (omega))
  | (with_reducible apply wp_catchErrC; (wp_spec))
  | (with_reducible refine wp_bindW ?_ ?_)
  | dsimp only
  | split
  | omega)

/-- Proof of a lemma about a grammar function. -/
macro "wp_auto" : tactic => `(tactic| repeat' wp_step)

variable {V : Env} {N : Nat} {r : Rec} {s : PSt}


theorem wp_moreByComma {item : P Node} {acc : List Node} (hr : RT V N r) (h : s.toks.length < N) (hi : ∀ s : PSt, s.toks.length < N → wp V item (fun _ => s.toks.length + 1) s.toks.length s) :
    wp V (moreByComma r item acc) (fun _ => s.toks.length + 1) (s.toks.length) s := by
  unfold moreByComma
  refine wp_loopP (Nat.lt_of_le_of_lt (by omega) hr.fuel) ?_ _
  intro b s' hs hsub
  refine wp_consumeOrIgnore ?_ ?_
  · intro a s2 _ _ h2
    refine wp_bindC (hi s2 (by omega)) (by omega) ?_
    wp_auto
  · wp_auto

macro_rules | `(tactic| wp_spec) => `(tactic| (with_reducible refine wp_moreByComma (by assumption) ?_ ?_; (omega); (intro _ _; wp_step)))

theorem wp_attribute (hr : RT V N r) (h : s.toks.length < N + fr [.attributeStart] s) :
    wp V (attribute' r) (fun _ => s.toks.length + 1 - fr [.attributeStart] s) (s.toks.length - fr [.attributeStart] s) s := by
  unfold attribute'
  wp_auto

macro_rules | `(tactic| wp_spec) => `(tactic| (with_reducible refine wp_attribute (by assumption) ?_; omega))

theorem wp_attributesBlock (hr : RT V N r) (h : s.toks.length < N + 1) :
    wp V (attributesBlock r) (fun _ => s.toks.length + 1) (s.toks.length - 1) s := by
  unfold attributesBlock
  wp_auto

macro_rules | `(tactic| wp_spec) => `(tactic| (with_reducible refine wp_attributesBlock (by assumption) ?_; omega))

theorem wp_nonEmptyTypeRef (hr : RT V N r) (h : s.toks.length < N + 1) :
    wp V (nonEmptyTypeRef r) (fun _ => s.toks.length + 1 - fr [.namespaceSeparator, .identifier] s) (0) s := by
  have hle := fr_le [.namespaceSeparator, .identifier] s
  have hlen := fr_pos_len (ts := [.namespaceSeparator, .identifier]) (s := s)
  unfold nonEmptyTypeRef
  have rest : ∀ (l : List Token) (s1 : PSt), s1.toks.length < N + 1 → wp V (do
      let path ← loopP .other r.fuel (fun path => do
        match ← consumeOrIgnore .namespaceSeparator with
        | some ns => do
          let i ← consumeIdentifier
          pure (.inl (path ++ [ns, i]))
        | none => pure (.inr path)) l
      pure (Node.typeRef ⟨path, false⟩)) (fun _ => s1.toks.length + 1) 0 s1 := by
    intro l s1 h1
    refine wp_bind (q1 := fun _ => s1.toks.length + 1) (m1 := 0) ?_ (Nat.le_refl _) ?_
    · wp_auto
    · wp_auto
  by_cases hfr : fr [.namespaceSeparator, .identifier] s = 1
  · obtain ⟨t, h1, h2⟩ := fr_one hfr
    simp at h2
    rcases h2 with rfl | rfl
    · refine wp_takeIf_take h1 (fun a ha => by simp [ha]) ?_
      intro a s1 _ _ hl1
      refine wp_bindC wp_consumeIdentifier (Nat.le_refl _) ?_
      intro b s2 _ _ hl2
      exact wp_monoC (rest _ s2 (by omega)) (by omega) (Nat.le_refl _)
    · refine wp_takeIf_skip h1 (fun a ha => by simp [ha]) ?_
      intro s1 _ _ hl1 hf1
      have h3 : fr [.identifier] s1 = 1 := fr_of hf1 (by rfl)
      refine wp_bindC wp_consumeIdentifier (Nat.le_refl _) ?_
      intro b s2 _ _ hl2
      exact wp_monoC (rest _ s2 (by omega)) (by omega) (Nat.le_refl _)
  · refine wp_consumeOrIgnore ?_ ?_
    · intro a s1 _ _ hl1
      refine wp_bindC wp_consumeIdentifier (Nat.le_refl _) ?_
      intro b s2 _ _ hl2
      exact wp_monoC (rest _ s2 (by omega)) (by omega) (Nat.le_refl _)
    · intro s1 _ _ hl1
      refine wp_bindC wp_consumeIdentifier (Nat.le_refl _) ?_
      intro b s2 _ _ hl2
      exact wp_monoC (rest _ s2 (by omega)) (by omega) (Nat.le_refl _)

macro_rules | `(tactic| wp_spec) => `(tactic| (with_reducible refine wp_nonEmptyTypeRef (by assumption) ?_; omega))

theorem wp_typeRefList (hr : RT V N r) (h : s.toks.length < N) :
    wp V (typeRefList r) (fun _ => s.toks.length + 1) (s.toks.length) s := by
  unfold typeRefList
  wp_auto

macro_rules | `(tactic| wp_spec) => `(tactic| (with_reducible refine wp_typeRefList (by assumption) ?_; omega))

theorem wp_typeRef (hr : RT V N r) (h : s.toks.length < N) :
    wp V (typeRef r) (fun _ => s.toks.length + 1) (0) s := by
  unfold typeRef
  wp_auto

macro_rules | `(tactic| wp_spec) => `(tactic| (with_reducible refine wp_typeRef (by assumption) ?_; omega))

theorem wp_nonEmptyNamespaceRef (hr : RT V N r) (h : s.toks.length < N) :
    wp V (nonEmptyNamespaceRef r) (fun _ => s.toks.length + 1) (0) s := by
  unfold nonEmptyNamespaceRef
  wp_auto

macro_rules | `(tactic| wp_spec) => `(tactic| (with_reducible refine wp_nonEmptyNamespaceRef (by assumption) ?_; omega))

theorem wp_moreByOr {acc : List Node} (hr : RT V N r) (h : s.toks.length < N) :
    wp V (moreByOr r acc) (fun _ => s.toks.length + 1) (0) s := by
  unfold moreByOr
  wp_auto

macro_rules | `(tactic| wp_spec) => `(tactic| (with_reducible refine wp_moreByOr (by assumption) ?_; omega))

theorem wp_nonEmptyTypeRefUnion (hr : RT V N r) (h : s.toks.length < N) :
    wp V (nonEmptyTypeRefUnion r) (fun _ => s.toks.length + 1) (0) s := by
  unfold nonEmptyTypeRefUnion
  wp_auto

macro_rules | `(tactic| wp_spec) => `(tactic| (with_reducible refine wp_nonEmptyTypeRefUnion (by assumption) ?_; omega))

theorem wp_typeRefUnion (hr : RT V N r) (h : s.toks.length < N) :
    wp V (typeRefUnion r) (fun _ => s.toks.length + 1) (0) s := by
  unfold typeRefUnion
  wp_auto

macro_rules | `(tactic| wp_spec) => `(tactic| (with_reducible refine wp_typeRefUnion (by assumption) ?_; omega))

theorem wp_dataType (hr : RT V N r) (h : s.toks.length < N) :
    wp V (dataType r) (fun _ => s.toks.length + 1) (0) s := by
  unfold dataType
  wp_auto

macro_rules | `(tactic| wp_spec) => `(tactic| (with_reducible refine wp_dataType (by assumption) ?_; omega))

theorem wp_variable (hr : RT V N r) (h : s.toks.length < N + fr [.variable] s) :
    wp V (variable' r) (fun _ => s.toks.length + 1 - fr [.variable] s) (s.toks.length - fr [.variable] s) s := by
  unfold variable'
  wp_auto

macro_rules | `(tactic| wp_spec) => `(tactic| (with_reducible refine wp_variable (by assumption) ?_; omega))

theorem wp_staticVariables {token : Token} (hr : RT V N r) (h : s.toks.length < N) :
    wp V (staticVariables r token) (fun _ => s.toks.length + 1) (s.toks.length) s := by
  unfold staticVariables
  wp_auto

macro_rules | `(tactic| wp_spec) => `(tactic| (with_reducible refine wp_staticVariables (by assumption) ?_; omega))

theorem wp_constEntry (hr : RT V N r) (h : s.toks.length < N) :
    wp V (constEntry r) (fun _ => s.toks.length) (s.toks.length) s := by
  unfold constEntry
  wp_auto

macro_rules | `(tactic| wp_spec) => `(tactic| (with_reducible refine wp_constEntry (by assumption) ?_; omega))

theorem wp_constStatement (hr : RT V N r) (h : s.toks.length < N + fr [.kwConst] s) :
    wp V (constStatement r) (fun _ => s.toks.length + 1 - fr [.kwConst] s) (s.toks.length - fr [.kwConst] s) s := by
  unfold constStatement
  wp_auto

macro_rules | `(tactic| wp_spec) => `(tactic| (with_reducible refine wp_constStatement (by assumption) ?_; omega))

theorem wp_lexicalVariable :
    wp V (lexicalVariable) (fun _ => s.toks.length + 1) (0) s := by
  unfold lexicalVariable
  wp_auto

macro_rules | `(tactic| wp_spec) => `(tactic| with_reducible refine wp_lexicalVariable )

theorem wp_arrayPair (hr : RT V N r) (h : s.toks.length < N) :
    wp V (arrayPair r) (fun _ => s.toks.length) (s.toks.length) s := by
  unfold arrayPair
  wp_auto

macro_rules | `(tactic| wp_spec) => `(tactic| (with_reducible refine wp_arrayPair (by assumption) ?_; omega))

theorem wp_pairsUntil {close : TT} (hr : RT V N r) (h : s.toks.length < N) :
    wp V (pairsUntil r close) (fun _ => s.toks.length + 1) (s.toks.length) s := by
  unfold pairsUntil
  wp_auto

macro_rules | `(tactic| wp_spec) => `(tactic| (with_reducible refine wp_pairsUntil (by assumption) ?_; omega))

theorem wp_array (hr : RT V N r) (h : s.toks.length < N + fr [.openBrackets] s) :
    wp V (array r) (fun _ => s.toks.length + 1 - fr [.openBrackets] s) (s.toks.length - fr [.openBrackets] s) s := by
  unfold array
  wp_auto

macro_rules | `(tactic| wp_spec) => `(tactic| (with_reducible refine wp_array (by assumption) ?_; omega))

theorem wp_oldArray (hr : RT V N r) (h : s.toks.length < N + fr [.typeArray] s) :
    wp V (oldArray r) (fun _ => s.toks.length + 1 - fr [.typeArray] s) (s.toks.length - fr [.typeArray] s) s := by
  unfold oldArray
  wp_auto

macro_rules | `(tactic| wp_spec) => `(tactic| (with_reducible refine wp_oldArray (by assumption) ?_; omega))

theorem wp_list (hr : RT V N r) (h : s.toks.length < N + fr [.kwList] s) :
    wp V (list r) (fun _ => s.toks.length + 1 - fr [.kwList] s) (s.toks.length - fr [.kwList] s) s := by
  unfold list
  wp_auto

macro_rules | `(tactic| wp_spec) => `(tactic| (with_reducible refine wp_list (by assumption) ?_; omega))

theorem wp_statementInto {stmts : List Node} (hr : RT V N r) (h : s.toks.length < N) :
    wp V (statementInto r stmts) (fun _ => s.toks.length - V.c + 1) (0) s := by
  have hc := V.c_le
  unfold statementInto
  wp_auto

macro_rules | `(tactic| wp_spec) => `(tactic| (with_reducible refine wp_statementInto (by assumption) ?_; omega))

theorem wp_statementsUntil {site : Site} {stop : List TT} (hr : RT V N r) (h : s.toks.length < N) (hx : V.c = 0 → V.exc site) :
    wp V (statementsUntil r site stop) (fun _ => s.toks.length + 1) (s.toks.length) s := by
  have hc := V.c_le
  unfold statementsUntil
  by_cases h0 : V.c = 0
  · refine wp_loopHang (hx h0) _ _ ?_ _
    wp_auto
  · wp_auto

theorem wp_statementsBlock {stop : List TT} (hr : RT V N r) (h : s.toks.length < N) :
    wp V (statementsUntil r .block stop) (fun _ => s.toks.length + 1) s.toks.length s :=
  wp_statementsUntil hr h fun hc => by simp [V.loops hc]
macro_rules | `(tactic| wp_spec) => `(tactic| (with_reducible refine wp_statementsBlock (by assumption) ?_; omega))

theorem wp_statementsAlt {stop : List TT} (hr : RT V N r) (h : s.toks.length < N) :
    wp V (statementsUntil r .altBlock stop) (fun _ => s.toks.length + 1) s.toks.length s :=
  wp_statementsUntil hr h fun hc => by simp [V.loops hc]
macro_rules | `(tactic| wp_spec) => `(tactic| (with_reducible refine wp_statementsAlt (by assumption) ?_; omega))

theorem wp_block (hr : RT V N r) (h : s.toks.length < N + fr [.openCurly] s) :
    wp V (block r) (fun _ => s.toks.length + 1 - fr [.openCurly] s) (s.toks.length - fr [.openCurly] s) s := by
  unfold block
  wp_auto

macro_rules | `(tactic| wp_spec) => `(tactic| (with_reducible refine wp_block (by assumption) ?_; omega))

theorem wp_alternativeBlock {t : TT} (hr : RT V N r) (h : s.toks.length < N + fr [.colon] s) :
    wp V (alternativeBlock r t) (fun _ => s.toks.length + 1 - fr [.colon] s) (s.toks.length - fr [.colon] s) s := by
  unfold alternativeBlock
  wp_auto

macro_rules | `(tactic| wp_spec) => `(tactic| (with_reducible refine wp_alternativeBlock (by assumption) ?_; omega))

theorem wp_alternativeBlockOrStatement {t : TT} (hr : RT V N r) (h : s.toks.length < N) :
    wp V (alternativeBlockOrStatement r t) (fun _ => s.toks.length + 1) (s.toks.length) s := by
  have hc := V.c_le
  unfold alternativeBlockOrStatement
  wp_auto

macro_rules | `(tactic| wp_spec) => `(tactic| (with_reducible refine wp_alternativeBlockOrStatement (by assumption) ?_; omega))

theorem wp_argumentType (hr : RT V N r) (h : s.toks.length < N) :
    wp V (argumentType r) (fun _ => s.toks.length + 1) (s.toks.length) s := by
  unfold argumentType
  wp_auto

macro_rules | `(tactic| wp_spec) => `(tactic| (with_reducible refine wp_argumentType (by assumption) ?_; omega))

theorem wp_argument {doc : Option Node} (hr : RT V N r) (h : s.toks.length < N) :
    wp V (argument r doc) (fun _ => s.toks.length + 1) (s.toks.length) s := by
  unfold argument
  wp_auto

macro_rules | `(tactic| wp_spec) => `(tactic| (with_reducible refine wp_argument (by assumption) ?_; omega))

theorem wp_argumentList {doc : Option Node} (hr : RT V N r) (h : s.toks.length < N) :
    wp V (argumentList r doc) (fun _ => s.toks.length + 1) (s.toks.length) s := by
  unfold argumentList
  wp_auto

macro_rules | `(tactic| wp_spec) => `(tactic| (with_reducible refine wp_argumentList (by assumption) ?_; omega))

theorem wp_returnType (hr : RT V N r) (h : s.toks.length < N) :
    wp V (returnType r) (fun _ => s.toks.length + 1) (s.toks.length) s := by
  unfold returnType
  wp_auto

macro_rules | `(tactic| wp_spec) => `(tactic| (with_reducible refine wp_returnType (by assumption) ?_; omega))

theorem wp_anonymousFunctionStatement {doc : Option Node} (hr : RT V N r) (h : s.toks.length < N) :
    wp V (anonymousFunctionStatement r doc) (fun _ => s.toks.length + 1) (s.toks.length) s := by
  unfold anonymousFunctionStatement
  wp_auto

macro_rules | `(tactic| wp_spec) => `(tactic| (with_reducible refine wp_anonymousFunctionStatement (by assumption) ?_; omega))

theorem wp_namedFunction {doc : Option Node} {attributes : List Node} (hr : RT V N r) (h : s.toks.length < N + fr [.kwFunction] s) :
    wp V (namedFunction r doc attributes) (fun _ => s.toks.length + 1 - fr [.kwFunction] s) (s.toks.length - fr [.kwFunction] s) s := by
  unfold namedFunction
  wp_auto

macro_rules | `(tactic| wp_spec) => `(tactic| (with_reducible refine wp_namedFunction (by assumption) ?_; omega))

theorem wp_arrowFunction {st : Option Token} {attributes : List Node} (hr : RT V N r) (h : s.toks.length < N + fr [.kwFn] s) :
    wp V (arrowFunction r st attributes) (fun _ => s.toks.length + 1 - fr [.kwFn] s) (s.toks.length - fr [.kwFn] s) s := by
  unfold arrowFunction
  wp_auto

macro_rules | `(tactic| wp_spec) => `(tactic| (with_reducible refine wp_arrowFunction (by assumption) ?_; omega))

theorem wp_nonEmptyLexicalVariablesList (hr : RT V N r) (h : s.toks.length < N) (hx : V.exc .lexicals) :
    wp V (nonEmptyLexicalVariablesList r) (fun _ => s.toks.length + 1) (s.toks.length) s := by
  unfold nonEmptyLexicalVariablesList
  wp_auto

macro_rules | `(tactic| wp_spec) => `(tactic| (with_reducible refine wp_nonEmptyLexicalVariablesList (by assumption) ?_ (by assumption); omega))

theorem wp_parametersUntil {acc : List Node} (hr : RT V N r) (h : s.toks.length < N) :
    wp V (parametersUntil r acc) (fun _ => s.toks.length + 1) (s.toks.length) s := by
  unfold parametersUntil
  wp_auto

macro_rules | `(tactic| wp_spec) => `(tactic| (with_reducible refine wp_parametersUntil (by assumption) ?_; omega))

theorem wp_nonEmptyParameterList (hr : RT V N r) (h : s.toks.length < N) :
    wp V (nonEmptyParameterList r) (fun _ => s.toks.length + 1) (s.toks.length) s := by
  unfold nonEmptyParameterList
  wp_auto

macro_rules | `(tactic| wp_spec) => `(tactic| (with_reducible refine wp_nonEmptyParameterList (by assumption) ?_; omega))

theorem wp_parameterList (hr : RT V N r) (h : s.toks.length < N) :
    wp V (parameterList r) (fun _ => s.toks.length + 1) (s.toks.length) s := by
  unfold parameterList
  wp_auto

macro_rules | `(tactic| wp_spec) => `(tactic| (with_reducible refine wp_parameterList (by assumption) ?_; omega))

theorem wp_returnStatement (hr : RT V N r) (h : s.toks.length < N + fr [.kwReturn] s) :
    wp V (returnStatement r) (fun _ => s.toks.length + 1 - fr [.kwReturn] s) (s.toks.length - fr [.kwReturn] s) s := by
  unfold returnStatement
  wp_auto

macro_rules | `(tactic| wp_spec) => `(tactic| (with_reducible refine wp_returnStatement (by assumption) ?_; omega))

theorem wp_identifierList (hr : RT V N r) (h : s.toks.length < N) :
    wp V (identifierList r) (fun _ => s.toks.length + 1) (s.toks.length) s := by
  unfold identifierList
  wp_auto

macro_rules | `(tactic| wp_spec) => `(tactic| (with_reducible refine wp_identifierList (by assumption) ?_; omega))

theorem wp_alteration (hr : RT V N r) (h : s.toks.length < N) :
    wp V (alteration r) (fun _ => s.toks.length + 1) (s.toks.length) s := by
  unfold alteration
  wp_auto

macro_rules | `(tactic| wp_spec) => `(tactic| (with_reducible refine wp_alteration (by assumption) ?_; omega))

theorem wp_anonymousFunction {st : Option Token} {attributes : List Node} (hr : RT V N r) (h : s.toks.length < N + 1) (hf : fr [.kwFunction] s = 1) :
    wp V (anonymousFunction r st attributes) (fun _ => s.toks.length) (s.toks.length - 1) s := by
  unfold anonymousFunction
  refine wp_ready fun hready => ?_
  refine wpG_bind (consume_front hf) (fun _ h => h.elim) ?_
  intro f s1 _ _ ⟨ht, hsub, hl⟩
  change wp V _ _ _ s1
  refine wp_bindC wp_optional (Nat.zero_le _) ?_
  intro _ s2 _ hs2 hl2
  refine wp_bindC wp_consume (Nat.zero_le _) ?_
  intro _ s3 _ hs3 hl3
  refine wp_bindC (wp_argumentList hr (by omega)) (by omega) ?_
  intro _ s4 _ hs4 hl4
  refine wp_bindC wp_consume (Nat.zero_le _) ?_
  intro _ s5 _ hs5 hl5
  refine wp_bindW ?_ ?_
  · refine wp_takeIf ?_ ?_
    · intro a s6 _ _ hl6 ha hs6
      have hx : V.exc .lexicals := by
        refine V.lexicals (f := f) (k := a) (l := s6.toks) (V.sub ?_ hready.1) ht (by simpa using ha)
        exact ((hs6.trans (hs5.trans (hs4.trans (hs3.trans hs2)))).cons_cons f).trans hsub
      wp_auto
    · wp_auto
  · wp_auto

macro_rules | `(tactic| wp_spec) => `(tactic| (with_reducible refine wp_anonymousFunction (by assumption) ?_ (by assumption); omega))

theorem wp_traitUsageAlterationGroup {ts : List Node} (hr : RT V N r) (h : s.toks.length < N) (hx : V.exc .alterations) :
    wp V (traitUsageAlterationGroup r ts) (fun _ => s.toks.length + 1) (s.toks.length) s := by
  unfold traitUsageAlterationGroup
  wp_auto

macro_rules | `(tactic| wp_spec) => `(tactic| (with_reducible refine wp_traitUsageAlterationGroup (by assumption) ?_ (by assumption); omega))

theorem wp_traitUsages (hr : RT V N r) (h : s.toks.length < N) (hx : V.exc .alterations) :
    wp V (traitUsages r) (fun _ => s.toks.length + 1) (s.toks.length) s := by
  unfold traitUsages
  wp_auto

macro_rules | `(tactic| wp_spec) => `(tactic| (with_reducible refine wp_traitUsages (by assumption) ?_ (by assumption); omega))

theorem wp_useTraitStatement (hr : RT V N r) (h : s.toks.length < N + fr [.kwUse] s) (hx : V.exc .alterations) :
    wp V (useTraitStatement r) (fun _ => s.toks.length + 1 - fr [.kwUse] s) (s.toks.length - fr [.kwUse] s) s := by
  unfold useTraitStatement
  wp_auto

macro_rules | `(tactic| wp_spec) => `(tactic| (with_reducible refine wp_useTraitStatement (by assumption) ?_ (by assumption); omega))

theorem wp_modifiers (hr : RT V N r) (h : s.toks.length < N) :
    wp V (modifiers r) (fun _ => s.toks.length + 1) (0) s := by
  unfold modifiers
  refine wp_loopP (Nat.lt_of_le_of_lt (by omega) hr.fuel) ?_ _
  intro b s' hs hsub
  refine wp_ifNext ?_ (by wp_auto)
  intro s1 _ _ hl1 hp hf
  obtain ⟨t, h1, h2⟩ := fr_one hf
  -- one of the four steps takes the token
  have key : t = .kwAbstract ∨ t = .kwFinal ∨ ([TT.kwPublic, .kwVar, .kwPrivate, .kwProtected].contains t = true) ∨ t = .kwStatic := by
    simp [modifierSet] at h2 ⊢
    grind
  rcases key with rfl | rfl | hv | rfl
  · refine wp_takeIf_take h1 (fun a ha => by simp [ha]) ?_
    wp_auto
  · refine wp_takeIf_skip h1 (fun a ha => by simp [ha]) ?_
    intro s2 _ _ _ h2
    refine wp_takeIf_take h2 (fun a ha => by simp [ha]) ?_
    wp_auto
  · have hne : t ≠ .kwAbstract ∧ t ≠ .kwFinal := by
      simp at hv
      rcases hv with rfl | rfl | rfl | rfl <;> decide
    refine wp_takeIf_skip h1 (fun a ha => by simp [ha, hne]) ?_
    intro s2 _ _ _ h2
    refine wp_takeIf_skip h2 (fun a ha => by simp [ha, hne]) ?_
    intro s3 _ _ _ h3
    refine wp_takeIf_take h3 (fun a ha => by rw [ha]; exact hv) ?_
    wp_auto
  · refine wp_takeIf_skip h1 (fun a ha => by simp [ha]) ?_
    intro s2 _ _ _ h2
    refine wp_takeIf_skip h2 (fun a ha => by simp [ha]) ?_
    intro s3 _ _ _ h3
    refine wp_takeIf_skip h3 (fun a ha => by simp [ha]) ?_
    intro s4 _ _ _ h4
    refine wp_takeIf_take h4 (fun a ha => by simp [ha]) ?_
    wp_auto

macro_rules | `(tactic| wp_spec) => `(tactic| (with_reducible refine wp_modifiers (by assumption) ?_; omega))

theorem wp_classConsts {v : Option Token} (hr : RT V N r) (h : s.toks.length < N) :
    wp V (classConsts r v) (fun _ => s.toks.length + 1) (s.toks.length) s := by
  unfold classConsts
  wp_auto

macro_rules | `(tactic| wp_spec) => `(tactic| (with_reducible refine wp_classConsts (by assumption) ?_; omega))

theorem wp_classProps (hr : RT V N r) (h : s.toks.length < N) :
    wp V (classProps r) (fun _ => s.toks.length + 1) (s.toks.length - 1) s := by
  unfold classProps
  wp_auto

macro_rules | `(tactic| wp_spec) => `(tactic| (with_reducible refine wp_classProps (by assumption) ?_; omega))

theorem wp_classMember {doc : Option Node} {attributes : List Node} (hr : RT V N r) (h : s.toks.length < N) :
    wp V (classMember r doc attributes) (fun _ => s.toks.length - 1 + 1) (s.toks.length - 1) s := by
  unfold classMember
  wp_auto

macro_rules | `(tactic| wp_spec) => `(tactic| (with_reducible refine wp_classMember (by assumption) ?_; omega))

theorem wp_classBlockStatement {f : Token} (hr : RT V N r) (h : s.toks.length < N) (hc : classLike.contains f.t = true) (hP : V.P (f :: s.toks)) :
    wp V (classBlockStatement r) (fun _ => s.toks.length - 1 + 1) (s.toks.length - 1) s := by
  unfold classBlockStatement
  refine wp_ifNext ?_ ?_
  · intro s1 _ hs1 hl1 _ hf
    obtain ⟨a, l, h1, h2⟩ := front_token_behind (V.sub (hs1.cons_cons f) hP) hf
    have hx := V.alterations h2 hc h1
    wp_auto
  · wp_auto

theorem wp_classBlock {f : Token} (hr : RT V N r) (h : s.toks.length < N) (hc : classLike.contains f.t = true) (hP : V.P (f :: s.toks)) :
    wp V (classBlock r) (fun _ => s.toks.length + 1) (s.toks.length) s := by
  unfold classBlock
  refine wp_bindC wp_consume (Nat.zero_le _) ?_
  intro _ s1 _ hs1 hl1
  refine wp_bindW ?_ ?_
  · refine wp_loopP (Nat.lt_of_le_of_lt (by omega) hr.fuel) ?_ _
    intro b s2 hl2 hs2
    refine wp_ifNext ?_ ?_
    · wp_auto
    · intro s3 _ hs3 hl3
      refine wp_bindC (n1 := s3.toks.length - 1 + 1) (m1 := 0) ?_ (Nat.zero_le _) ?_
      · refine wp_catchErrC (wp_classBlockStatement hr (by omega) hc ?_) ?_ ?_
        · exact V.sub ((hs3.trans (hs2.trans hs1)).cons_cons f) hP
        · wp_auto
        · wp_auto
      · wp_auto
  · wp_auto

macro_rules | `(tactic| wp_spec) => `(tactic| (with_reducible refine wp_classBlock (by assumption) ?_ (by assumption) (V.sub (List.Sublist.cons_cons _ ?_) (by assumption)); (omega); (assumption)))

theorem wp_extendsOne (hr : RT V N r) (h : s.toks.length < N) :
    wp V (extendsOne r) (fun _ => s.toks.length + 1) (s.toks.length) s := by
  unfold extendsOne
  wp_auto

macro_rules | `(tactic| wp_spec) => `(tactic| (with_reducible refine wp_extendsOne (by assumption) ?_; omega))

theorem wp_clauseList {t : TT} (hr : RT V N r) (h : s.toks.length < N) :
    wp V (clauseList r t) (fun _ => s.toks.length + 1) (s.toks.length) s := by
  unfold clauseList
  wp_auto

macro_rules | `(tactic| wp_spec) => `(tactic| (with_reducible refine wp_clauseList (by assumption) ?_; omega))

theorem wp_classStatement {ab fi : Option Token} {attributes : List Node} (hr : RT V N r) (h : s.toks.length < N + fr [.kwClass] s) (hf : (∃ f : Token, classLike.contains f.t = true ∧ V.P (f :: s.toks)) ∨ fr [.kwClass] s = 1) :
    wp V (classStatement r ab fi attributes) (fun _ => s.toks.length + 1 - fr [.kwClass] s) (s.toks.length - fr [.kwClass] s) s := by
  unfold classStatement
  refine wp_ready fun hready => ?_
  refine wp_same (popDoc_same ..) ?_
  intro doc s0 hs0 hr0
  have hfr : fr [.kwClass] s0 = fr [.kwClass] s := by unfold fr; rw [hs0]
  have hlen : s0.toks.length = s.toks.length := by rw [hs0]
  have hle := fr_le [.kwClass] s
  have hpos := fr_pos_len (ts := [.kwClass]) (s := s)
  have rest : ∀ (f : Token) (token : Token) (s1 : PSt), classLike.contains f.t = true → V.P (f :: s1.toks) →
      s1.toks.length < N → wp V (do
        let name ← consumeIdentifier
        let ext ← extendsOne r
        let impl ← clauseList r .kwImplements
        let body ← classBlock r
        pure (Node.classStatement token name ab fi impl ext body doc attributes))
        (fun _ => s1.toks.length + 1) s1.toks.length s1 := by
    intro f token s1 hc hP hl1
    refine wp_bindC wp_consumeIdentifier (Nat.zero_le _) ?_
    intro _ s2 _ hs2 hl2
    refine wp_bindC (wp_extendsOne hr (by omega)) (by omega) ?_
    intro _ s3 _ hs3 hl3
    refine wp_bindC (wp_clauseList hr (by omega)) (by omega) ?_
    intro _ s4 _ hs4 hl4
    refine wp_bindC (wp_classBlock hr (by omega) hc (V.sub ((hs4.trans (hs3.trans hs2)).cons_cons f) hP)) (by omega) ?_
    wp_auto
  rcases hf with ⟨f, hc, hP⟩ | hf
  · refine wp_bindC wp_consume (Nat.zero_le _) ?_
    intro token s1 _ hs1 hl1
    refine wp_monoC (rest f token s1 hc (V.sub (hs1.cons_cons f) (hs0 ▸ hP)) (by omega)) (by omega) (by omega)
  · refine wpG_bind (consume_front (hfr.trans hf)) (fun _ h => h.elim) ?_
    intro f s1 _ _ ⟨ht, hsub, hl⟩
    refine wp_monoC (rest f f s1 (by rw [ht]; rfl) (V.sub hsub (hs0 ▸ hready.1)) (by omega)) (by omega) (by omega)

theorem wp_abstractClassStatement {attributes : List Node} (hr : RT V N r) (h : s.toks.length < N + 1) (hf : fr [.kwAbstract] s = 1) :
    wp V (abstractClassStatement r attributes) (fun _ => s.toks.length) (s.toks.length - 1) s := by
  unfold abstractClassStatement
  refine wp_ready fun hready => ?_
  refine wpG_bind (consume_front hf) (fun _ h => h.elim) ?_
  intro f s1 _ _ ⟨ht, hsub, hl⟩
  have hle := fr_le [.kwClass] s1
  refine wp_monoC (wp_classStatement hr (by omega) (.inl ⟨f, by rw [ht]; rfl, V.sub hsub hready.1⟩)) (by omega) (by omega)

macro_rules | `(tactic| wp_spec) => `(tactic| (with_reducible refine wp_abstractClassStatement (by assumption) ?_ (by assumption); omega))

theorem wp_finalClassStatement {attributes : List Node} (hr : RT V N r) (h : s.toks.length < N + 1) (hf : fr [.kwFinal] s = 1) :
    wp V (finalClassStatement r attributes) (fun _ => s.toks.length) (s.toks.length - 1) s := by
  unfold finalClassStatement
  refine wp_ready fun hready => ?_
  refine wpG_bind (consume_front hf) (fun _ h => h.elim) ?_
  intro f s1 _ _ ⟨ht, hsub, hl⟩
  have hle := fr_le [.kwClass] s1
  refine wp_monoC (wp_classStatement hr (by omega) (.inl ⟨f, by rw [ht]; rfl, V.sub hsub hready.1⟩)) (by omega) (by omega)

macro_rules | `(tactic| wp_spec) => `(tactic| (with_reducible refine wp_finalClassStatement (by assumption) ?_ (by assumption); omega))

theorem wp_interface (hr : RT V N r) (h : s.toks.length < N + 1) (hf : fr [.kwInterface] s = 1) :
    wp V (interface' r) (fun _ => s.toks.length) (s.toks.length - 1) s := by
  unfold interface'
  refine wp_ready fun hready => ?_
  refine wp_same (popDoc_same ..) ?_
  intro doc s0 hs0 hr0
  have hfr : fr [.kwInterface] s0 = 1 := by unfold fr at hf ⊢; rw [hs0]; exact hf
  have hlen : s0.toks.length = s.toks.length := by rw [hs0]
  refine wpG_bind (consume_front hfr) (fun _ h => h.elim) ?_
  intro f s1 _ _ ⟨ht, hsub, hl⟩
  change wp V _ _ _ s1
  have hc : classLike.contains f.t = true := by rw [ht]; rfl
  refine wp_bindC wp_consume (Nat.zero_le _) ?_
  intro _ s2 _ hs2 hl2
  refine wp_bindC (wp_clauseList hr (by omega)) (by omega) ?_
  intro _ s3 _ hs3 hl3
  refine wp_bindC (wp_classBlock hr (by omega) hc (V.sub (((hs3.trans hs2).cons_cons f).trans hsub) (hs0 ▸ hready.1))) (by omega) ?_
  wp_auto

macro_rules | `(tactic| wp_spec) => `(tactic| (with_reducible refine wp_interface (by assumption) ?_ (by assumption); omega))

theorem wp_traitStatement (hr : RT V N r) (h : s.toks.length < N + 1) (hf : fr [.kwTrait] s = 1) :
    wp V (traitStatement r) (fun _ => s.toks.length) (s.toks.length - 1) s := by
  unfold traitStatement
  refine wp_ready fun hready => ?_
  refine wp_same (popDoc_same ..) ?_
  intro doc s0 hs0 hr0
  have hfr : fr [.kwTrait] s0 = 1 := by unfold fr at hf ⊢; rw [hs0]; exact hf
  have hlen : s0.toks.length = s.toks.length := by rw [hs0]
  refine wpG_bind (consume_front hfr) (fun _ h => h.elim) ?_
  intro f s1 _ _ ⟨ht, hsub, hl⟩
  change wp V _ _ _ s1
  have hc : classLike.contains f.t = true := by rw [ht]; rfl
  refine wp_bindC wp_consume (Nat.zero_le _) ?_
  intro _ s2 _ hs2 hl2
  refine wp_bindC (wp_classBlock hr (by omega) hc (V.sub ((hs2.cons_cons f).trans hsub) (hs0 ▸ hready.1))) (by omega) ?_
  wp_auto

macro_rules | `(tactic| wp_spec) => `(tactic| (with_reducible refine wp_traitStatement (by assumption) ?_ (by assumption); omega))

theorem wp_anonymousClass {attributes : List Node} (hr : RT V N r) (h : s.toks.length < N + 1) (hf : fr [.kwClass] s = 1) :
    wp V (anonymousClass r attributes) (fun _ => s.toks.length) (s.toks.length - 1) s := by
  unfold anonymousClass
  refine wp_ready fun hready => ?_
  refine wpG_bind (consume_front hf) (fun _ h => h.elim) ?_
  intro f s1 _ _ ⟨ht, hsub, hl⟩
  change wp V _ _ _ s1
  have hc : classLike.contains f.t = true := by rw [ht]; rfl
  refine wp_bindC (n1 := s1.toks.length + 1) (m1 := s1.toks.length) ?_ (by omega) ?_
  · wp_auto
  intro _ s2 _ hs2 hl2
  refine wp_bindC (wp_extendsOne hr (by omega)) (by omega) ?_
  intro _ s3 _ hs3 hl3
  refine wp_bindC (wp_clauseList hr (by omega)) (by omega) ?_
  intro _ s4 _ hs4 hl4
  refine wp_bindC (wp_classBlock hr (by omega) hc (V.sub (((hs4.trans (hs3.trans hs2)).cons_cons f).trans hsub) hready.1)) (by omega) ?_
  wp_auto

macro_rules | `(tactic| wp_spec) => `(tactic| (with_reducible refine wp_anonymousClass (by assumption) ?_ (by assumption); omega))

end PhpLs.Parser
