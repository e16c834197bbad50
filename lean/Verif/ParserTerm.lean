import Verif.ParserLemmas

/-!
# A logic for the termination of the parser

`wp V p q m s`: started in `s`, the parser function `p` does not run out of fuel, except at a loop that `V.exc` excuses; if
it returns `Ok(a)`, fewer than `q a` tokens are left, and if it returns `Err`, at most `m` tokens are left.  The rules
below are used in `Verif/GrammarTerm.lean` for every function of the grammar.
-/

namespace PhpLs.Parser

open PhpLs

/-- The type of the token `peek` returns on the given tokens. -/
def front : List Token → Option TT
  | [] => none
  | k :: r =>
    if k.t = .eof then none
    else if k.t = .multilineComment then front r
    else if isTrivia k then front r
    else some k.t

/-- Whether (1) or not (0) `peek` returns a token of one of the given types. -/
def fr (ts : List TT) (s : PSt) : Nat :=
  match front s.toks with
  | some t => if ts.contains t then 1 else 0
  | none => 0

/-- The types of tokens that open a class body. -/
def classLike : List TT := [.kwClass, .kwAbstract, .kwFinal, .kwInterface, .kwTrait]

/-- What is known about the tokens of a run: `P` holds of all remaining tokens; `exc` are the loops that may run forever;
`c = 1` says that there are no closing and no echo tags, so that the parser stays in the script context. -/
structure Env where
  P : List Token → Prop
  sub : ∀ {a b : List Token}, a.Sublist b → P b → P a
  c : Nat
  exc : Site → Prop
  tags : ∀ {k l}, c = 1 → P (k :: l) → k.t ≠ .scriptEnd ∧ k.t ≠ .scriptStartEcho
  c_le : c ≤ 1
  loops : c = 0 → exc .ast ∧ exc .block ∧ exc .altBlock
  globals : ∀ {k l}, P (k :: l) → k.t = .kwGlobal → exc .globals
  lexicals : ∀ {f k l}, P (f :: k :: l) → f.t = .kwFunction → k.t = .kwUse → exc .lexicals
  alterations : ∀ {f k l}, P (f :: k :: l) → classLike.contains f.t = true → k.t = .kwUse → exc .alterations

variable (V : Env)

/-- The states of such a run. -/
def Env.Ready (s : PSt) : Prop := V.P s.toks ∧ (V.c = 1 → s.ctx = .script)

/-- Weakest precondition. -/
def wpG (p : P α) (Q : α → PSt → Prop) (E : PSt → Prop) (s : PSt) : Prop :=
  V.Ready s → match p s with
    | .ok a s' => V.Ready s' ∧ s'.toks.Sublist s.toks ∧ Q a s'
    | .err _ s' => V.Ready s' ∧ s'.toks.Sublist s.toks ∧ E s'
    | .panic => True
    | .diverge x => V.exc x

/-- Weakest precondition for bounds on the number of tokens left. -/
def wp (p : P α) (q : α → Nat) (m : Nat) (s : PSt) : Prop :=
  wpG V p (fun a s' => s'.toks.length < q a) (fun s' => s'.toks.length ≤ m) s

variable {V}

section rules
variable {α β : Type} {q : α → Nat} {m : Nat} {s : PSt}

theorem wpG_bind {p : P α} {k : α → P β} {Q : α → PSt → Prop} {R : β → PSt → Prop} {E F : PSt → Prop}
    (h : wpG V p Q E s) (he : ∀ s', E s' → F s')
    (hk : ∀ a s', V.Ready s' → s'.toks.Sublist s.toks → Q a s' → wpG V (k a) R F s') : wpG V (p >>= k) R F s := by
  intro hr
  have h1 := h hr
  rw [bind_run]
  cases hp : p s with
  | ok a s' =>
    rw [hp] at h1
    obtain ⟨h1, h2, h3⟩ := h1
    have h4 := hk a s' h1 h2 h3 h1
    dsimp only
    cases hq : k a s' with
    | ok b s2 => rw [hq] at h4; exact ⟨h4.1, h4.2.1.trans h2, h4.2.2⟩
    | err e s2 => rw [hq] at h4; exact ⟨h4.1, h4.2.1.trans h2, h4.2.2⟩
    | panic => trivial
    | diverge x => rw [hq] at h4; exact h4
  | err e s' => rw [hp] at h1; exact ⟨h1.1, h1.2.1, he _ h1.2.2⟩
  | panic => trivial
  | diverge x => rw [hp] at h1; exact h1

theorem wpG_mono {p : P α} {Q R : α → PSt → Prop} {E F : PSt → Prop} (h : wpG V p Q E s)
    (hq : ∀ a s', s'.toks.Sublist s.toks → Q a s' → R a s') (he : ∀ s', E s' → F s') : wpG V p R F s := by
  intro hr
  have h1 := h hr
  cases hp : p s with
  | ok a s' => rw [hp] at h1; exact ⟨h1.1, h1.2.1, hq _ _ h1.2.1 h1.2.2⟩
  | err e s' => rw [hp] at h1; exact ⟨h1.1, h1.2.1, he _ h1.2.2⟩
  | panic => trivial
  | diverge x => rw [hp] at h1; exact h1

theorem wp_mono {p : P α} {q' : α → Nat} {m' : Nat} (h : wp V p q' m' s) (hq : ∀ a, q' a ≤ q a) (hm : m' ≤ m) :
    wp V p q m s :=
  wpG_mono h (fun a _ _ h => Nat.lt_of_lt_of_le h (hq a)) (fun _ h => Nat.le_trans h hm)

theorem wp_bind {p : P α} {k : α → P β} {q1 : α → Nat} {m1 : Nat} {q : β → Nat} (h : wp V p q1 m1 s) (hm : m1 ≤ m)
    (hk : ∀ a s', V.Ready s' → s'.toks.Sublist s.toks → s'.toks.length < q1 a → wp V (k a) q m s') :
    wp V (p >>= k) q m s :=
  wpG_bind h (fun _ h => Nat.le_trans h hm) hk

theorem wp_pure {a : α} (h : s.toks.length < q a) : wp V (pure a) q m s :=
  fun hr => ⟨hr, List.Sublist.refl _, h⟩

theorem wp_fail {e : Err} (h : s.toks.length ≤ m) : wp V (P.fail e : P α) q m s :=
  fun hr => ⟨hr, List.Sublist.refl _, h⟩

theorem wp_panic : wp V (P.panic : P α) q m s := fun _ => trivial

theorem wp_ite {c : Prop} [Decidable c] {p p' : P α} (h1 : c → wp V p q m s) (h2 : ¬ c → wp V p' q m s) :
    wp V (if c then p else p') q m s := by
  by_cases h : c
  · rw [if_pos h]; exact h1 h
  · rw [if_neg h]; exact h2 h

theorem wp_catchErr {p : P α} {ok : α → P β} {err : Err → P β} {q1 : α → Nat} {m1 : Nat} {q : β → Nat}
    (h : wp V p q1 m1 s)
    (ho : ∀ a s', V.Ready s' → s'.toks.Sublist s.toks → s'.toks.length < q1 a → wp V (ok a) q m s')
    (he : ∀ e s', V.Ready s' → s'.toks.Sublist s.toks → s'.toks.length ≤ m1 → wp V (err e) q m s') :
    wp V (P.catchErr p ok err) q m s := by
  intro hr
  have h1 := h hr
  unfold P.catchErr
  cases hp : p s with
  | ok a s' =>
    rw [hp] at h1
    have h4 := ho a s' h1.1 h1.2.1 h1.2.2 h1.1
    dsimp only
    cases hq : ok a s' with
    | ok b s2 => rw [hq] at h4; exact ⟨h4.1, h4.2.1.trans h1.2.1, h4.2.2⟩
    | err e s2 => rw [hq] at h4; exact ⟨h4.1, h4.2.1.trans h1.2.1, h4.2.2⟩
    | panic => trivial
    | diverge x => rw [hq] at h4; exact h4
  | err e s' =>
    rw [hp] at h1
    have h4 := he e s' h1.1 h1.2.1 h1.2.2 h1.1
    dsimp only
    cases hq : err e s' with
    | ok b s2 => rw [hq] at h4; exact ⟨h4.1, h4.2.1.trans h1.2.1, h4.2.2⟩
    | err e s2 => rw [hq] at h4; exact ⟨h4.1, h4.2.1.trans h1.2.1, h4.2.2⟩
    | panic => trivial
    | diverge x => rw [hq] at h4; exact h4
  | panic => trivial
  | diverge x => rw [hp] at h1; exact h1

theorem wpG_loopP {site : Site} {body : β → P (β ⊕ α)} {Q : α → PSt → Prop} {E : PSt → Prop} :
    ∀ (n : Nat) (s : PSt), s.toks.length < n →
    (∀ b s', s'.toks.length ≤ s.toks.length → s'.toks.Sublist s.toks →
      wpG V (body b) (fun x s'' => match x with | .inl _ => s''.toks.length < s'.toks.length | .inr a => Q a s'') E s') →
    ∀ b, wpG V (loopP site n body b) Q E s
  | 0, s, hn, _, _ => absurd hn (Nat.not_lt_zero _)
  | n + 1, s, hn, hb, b => by
    unfold loopP
    refine wpG_bind (hb b s (Nat.le_refl _) (List.Sublist.refl _)) (fun _ h => h) ?_
    rintro (b' | a) s' hr hsub hq
    · dsimp only at hq ⊢
      exact wpG_loopP n s' (by omega) (fun b2 s2 h2 hs2 => hb b2 s2 (by omega) (hs2.trans hsub)) b'
    · exact fun hr' => ⟨hr', List.Sublist.refl _, hq⟩

/-- A loop whose every iteration consumes a token. -/
theorem wp_loopP {site : Site} {body : β → P (β ⊕ α)} {n : Nat} (hn : s.toks.length < n)
    (hb : ∀ b s', s'.toks.length ≤ s.toks.length → s'.toks.Sublist s.toks →
      wp V (body b) (Sum.elim (fun _ => s'.toks.length) q) m s') (b : β) : wp V (loopP site n body b) q m s := by
  refine wpG_loopP n s hn (fun b s' h h2 => wpG_mono (hb b s' h h2) ?_ (fun _ h => h)) b
  rintro (b' | a) s2 - hx <;> exact hx

/-- A loop whose first iteration leaves fewer tokens than the others promise. -/
theorem wp_loopFirst {site : Site} {body : β → P (β ⊕ α)} {n n2 : Nat} {b : β} (hn : s.toks.length < n)
    (h2 : s.toks.length ≤ n2) (h1 : wp V (body b) (Sum.elim (fun _ => s.toks.length) (fun _ => n2)) m s)
    (hb : ∀ b s', s'.toks.length < s.toks.length → s'.toks.Sublist s.toks →
      wp V (body b) (Sum.elim (fun _ => s'.toks.length) (fun _ => s'.toks.length + 1)) m s') :
    wp V (loopP site n body b) (fun _ => n2) m s := by
  cases n with
  | zero => exact absurd hn (Nat.not_lt_zero _)
  | succ n =>
    unfold loopP
    refine wp_bind h1 (Nat.le_refl _) ?_
    rintro (b' | a) s1 _ hs1 hl1
    · have hl1 : s1.toks.length < s.toks.length := hl1
      refine wp_mono (wp_loopP (V := V) (site := site) (q := fun _ => s1.toks.length + 1) (m := m) (n := n) (by omega) ?_ b')
        (fun _ => by omega) (Nat.le_refl _)
      intro b2 s2 h3 h4
      refine wp_mono (hb b2 s2 (by omega) (h4.trans hs1)) ?_ (Nat.le_refl _)
      rintro (_ | _) <;> simp; omega
    · exact wp_pure hl1

/-- A loop that may run forever. -/
theorem wp_loopHang {site : Site} {body : β → P (β ⊕ α)} (hx : V.exc site) :
    ∀ (n : Nat) (s : PSt),
    (∀ b s', s'.toks.length ≤ s.toks.length → s'.toks.Sublist s.toks →
      wp V (body b) (Sum.elim (fun _ => s'.toks.length + 1) q) m s') → ∀ b, wp V (loopP site n body b) q m s
  | 0, s, _, _ => fun _ => hx
  | n + 1, s, hb, b => by
    unfold loopP
    refine wp_bind (hb b s (Nat.le_refl _) (List.Sublist.refl _)) (Nat.le_refl _) ?_
    rintro (b' | a) s' hr hsub hq
    · dsimp only [Sum.elim] at hq ⊢
      exact wp_loopHang hx n s' (fun b2 s2 h2 hs2 => hb b2 s2 (by omega) (hs2.trans hsub)) b'
    · exact wp_pure hq

end rules

/-! ## Primitives -/

theorem peekOn_front_type (l : List Token) (s : PSt) : (peekOn l s).1.map (·.t) = front l := by
  induction l generalizing s with
  | nil => rfl
  | cons k r ih =>
    unfold peekOn front
    split
    · rfl
    · split
      · exact ih _
      · split
        · exact ih _
        · rfl

theorem peekOn_ctx (l : List Token) (s : PSt) : (peekOn l s).2.ctx = s.ctx := by
  induction l generalizing s with
  | nil => rfl
  | cons k r ih =>
    unfold peekOn
    split
    · rfl
    · split
      · exact ih _
      · split
        · exact ih _
        · rfl

theorem peekOn_sub (l : List Token) (s : PSt) : (peekOn l s).2.toks.Sublist l := by
  induction l generalizing s with
  | nil => exact List.Sublist.refl _
  | cons k r ih =>
    unfold peekOn
    split
    · exact List.sublist_cons_self ..
    · split
      · exact (ih _).trans (List.sublist_cons_self ..)
      · split
        · exact (ih _).trans (List.sublist_cons_self ..)
        · exact List.Sublist.refl _

theorem peekOn_none_len (l : List Token) (s : PSt) (h : (peekOn l s).1 = none) :
    (peekOn l s).2.toks.length ≤ l.length - 1 := by
  induction l generalizing s with
  | nil => exact Nat.le_refl _
  | cons k r ih =>
    unfold peekOn at h ⊢
    split
    · simp
    · rename_i h1
      rw [if_neg h1] at h
      split
      · rename_i h2
        rw [if_pos h2] at h
        have := ih _ h
        simp; omega
      · rename_i h2
        rw [if_neg h2] at h
        split
        · rename_i h3
          rw [if_pos h3] at h
          have := ih _ h
          simp; omega
        · rename_i h3
          rw [if_neg h3] at h
          cases h

theorem front_cons {k : Token} {r : List Token} (hk : solid k = true) (he : k.t ≠ .eof) : front (k :: r) = some k.t := by
  obtain ⟨h1, h2, h3⟩ := solid_iff.1 hk
  simp [front, h1, h2, h3, he, isTrivia]

/-- What `peek` does, in one statement. -/
theorem peek_spec (s : PSt) :
    (∃ s', peekOn s.toks s = (none, s') ∧ s'.toks.Sublist s.toks ∧ s'.ctx = s.ctx ∧
      s'.toks.length ≤ s.toks.length - 1 ∧ front s.toks = none) ∨
    (∃ k s' r, peekOn s.toks s = (some k, s') ∧ s'.toks.Sublist s.toks ∧ s'.ctx = s.ctx ∧ s'.toks = k :: r ∧
      solid k = true ∧ k.t ≠ .eof ∧ front s.toks = some k.t ∧ front s'.toks = some k.t) := by
  have h1 := peekOn_front_type s.toks s
  have h2 := peekOn_ctx s.toks s
  have h3 := peekOn_sub s.toks s
  have h4 := peekOn_none_len s.toks s
  cases h : peekOn s.toks s with
  | mk a s' =>
    rw [h] at h1 h2 h3 h4
    cases a with
    | none => exact .inl ⟨s', rfl, h3, h2, h4 rfl, h1.symm⟩
    | some k =>
      obtain ⟨⟨r, hr⟩, hk, he⟩ := peekOn_some h
      exact .inr ⟨k, s', r, rfl, h3, h2, hr, hk, he, h1.symm, by rw [hr]; exact front_cons hk he⟩

theorem Env.Ready.of_sub {s s' : PSt} (h : V.Ready s) (hs : s'.toks.Sublist s.toks) (hc : s'.ctx = s.ctx) : V.Ready s' :=
  ⟨V.sub hs h.1, fun h1 => hc.trans (h.2 h1)⟩

theorem fr_of_front {s : PSt} {t : TT} {ts : List TT} (h : front s.toks = some t) : fr ts s = if ts.contains t then 1 else 0 := by
  unfold fr; rw [h]

theorem fr_none {s : PSt} {ts : List TT} (h : front s.toks = none) : fr ts s = 0 := by
  unfold fr; rw [h]

theorem fr_le (ts : List TT) (s : PSt) : fr ts s ≤ 1 := by
  unfold fr; split
  · split <;> omega
  · omega

theorem fr_one {ts : List TT} {s : PSt} (h : fr ts s = 1) : ∃ t, front s.toks = some t ∧ ts.contains t = true := by
  unfold fr at h
  split at h
  · rename_i t ht
    refine ⟨t, ht, ?_⟩
    split at h
    · assumption
    · omega
  · omega

theorem fr_pos_len {ts : List TT} {s : PSt} : fr ts s ≤ s.toks.length := by
  have := fr_le ts s
  cases h : s.toks with
  | nil => simp [fr, h, front]
  | cons k r => simp; omega

section prims
variable {α β : Type} {q : β → Nat} {m : Nat} {s : PSt}

/-- Rule for `peek`. -/
theorem wp_peek {k : Option Token → P β}
    (h1 : ∀ s', V.Ready s' → s'.toks.Sublist s.toks → s'.toks.length ≤ s.toks.length - 1 → wp V (k none) q m s')
    (h2 : ∀ a s', V.Ready s' → s'.toks.Sublist s.toks → s'.toks.length ≤ s.toks.length → 0 < s'.toks.length →
      front s.toks = some a.t → front s'.toks = some a.t → wp V (k (some a)) q m s') :
    wp V (peek >>= k) q m s := by
  intro hr
  rw [bind_ok (peek_run s)]
  rcases peek_spec s with ⟨s', e, hs, hc, hl, hf⟩ | ⟨a, s', r, e, hs, hc, ht, hk, he, hf, hf'⟩
  · rw [e]
    have hr' := hr.of_sub hs hc
    have := h1 s' hr' hs hl hr'
    dsimp only
    cases hq : k none s' with
    | ok b s2 => rw [hq] at this; exact ⟨this.1, this.2.1.trans hs, this.2.2⟩
    | err e s2 => rw [hq] at this; exact ⟨this.1, this.2.1.trans hs, this.2.2⟩
    | panic => trivial
    | diverge x => rw [hq] at this; exact this
  · rw [e]
    have hr' := hr.of_sub hs hc
    have := h2 a s' hr' hs hs.length_le (by rw [ht]; simp) hf hf' hr'
    dsimp only
    cases hq : k (some a) s' with
    | ok b s2 => rw [hq] at this; exact ⟨this.1, this.2.1.trans hs, this.2.2⟩
    | err e s2 => rw [hq] at this; exact ⟨this.1, this.2.1.trans hs, this.2.2⟩
    | panic => trivial
    | diverge x => rw [hq] at this; exact this

/-- Rule for a test of the next token. -/
theorem wp_nextOneOfFr {ts : List TT} {p p' : P β}
    (h1 : ∀ s', V.Ready s' → s'.toks.Sublist s.toks → s'.toks.length ≤ s.toks.length → 0 < s'.toks.length →
      fr ts s = 1 → fr ts s' = 1 → wp V p q m s')
    (h2 : ∀ s', V.Ready s' → s'.toks.Sublist s.toks → s'.toks.length ≤ s.toks.length → fr ts s = 0 → fr ts s' = 0 ∨
      s'.toks.length ≤ s.toks.length - 1 → wp V p' q m s') :
    wp V (nextOneOf ts >>= fun b => if b = true then p else p') q m s := by
  intro hr
  unfold nextOneOf nextIs
  rw [bind_run, bind_ok (peek_run s)]
  rcases peek_spec s with ⟨s', e, hs, hc, hl, hf⟩ | ⟨a, s', r, e, hs, hc, ht, hk, he, hf, hf'⟩
  · rw [e]
    have hr' := hr.of_sub hs hc
    have := h2 s' hr' hs (by omega) (fr_none hf) (.inr hl) hr'
    show match (if false = true then p else p') s' with | .ok a s' => _ | .err _ s' => _ | .panic => _ | .diverge x => _
    rw [if_neg (by simp)]
    cases hq : p' s' with
    | ok b s2 => rw [hq] at this; exact ⟨this.1, this.2.1.trans hs, this.2.2⟩
    | err e s2 => rw [hq] at this; exact ⟨this.1, this.2.1.trans hs, this.2.2⟩
    | panic => trivial
    | diverge x => rw [hq] at this; exact this
  · rw [e]
    have hr' := hr.of_sub hs hc
    show match (if ts.contains a.t = true then p else p') s' with
      | .ok a s' => _ | .err _ s' => _ | .panic => _ | .diverge x => _
    by_cases hx : ts.contains a.t = true
    · rw [if_pos hx]
      have := h1 s' hr' hs hs.length_le (by rw [ht]; simp) (by rw [fr_of_front hf, if_pos hx]) (by rw [fr_of_front hf', if_pos hx]) hr'
      cases hq : p s' with
      | ok b s2 => rw [hq] at this; exact ⟨this.1, this.2.1.trans hs, this.2.2⟩
      | err e s2 => rw [hq] at this; exact ⟨this.1, this.2.1.trans hs, this.2.2⟩
      | panic => trivial
      | diverge x => rw [hq] at this; exact this
    · rw [if_neg hx]
      have := h2 s' hr' hs hs.length_le (by rw [fr_of_front hf, if_neg hx]) (.inl (by rw [fr_of_front hf', if_neg hx])) hr'
      cases hq : p' s' with
      | ok b s2 => rw [hq] at this; exact ⟨this.1, this.2.1.trans hs, this.2.2⟩
      | err e s2 => rw [hq] at this; exact ⟨this.1, this.2.1.trans hs, this.2.2⟩
      | panic => trivial
      | diverge x => rw [hq] at this; exact this

/-- As above, without the facts about the tokens before the test. -/
theorem wp_nextOneOf {ts : List TT} {p p' : P β}
    (h1 : ∀ s', V.Ready s' → s'.toks.Sublist s.toks → s'.toks.length ≤ s.toks.length → 0 < s'.toks.length →
      fr ts s' = 1 → wp V p q m s')
    (h2 : ∀ s', V.Ready s' → s'.toks.Sublist s.toks → s'.toks.length ≤ s.toks.length → fr ts s' = 0 ∨
      s'.toks.length ≤ s.toks.length - 1 → wp V p' q m s') :
    wp V (nextOneOf ts >>= fun b => if b = true then p else p') q m s :=
  wp_nextOneOfFr (fun s' a b c d _ e => h1 s' a b c d e) (fun s' a b c _ e => h2 s' a b c e)

/-- Taking the front token: at least it is gone. -/
theorem takeFront_wp {a : α} {k : Token} {r : List Token} {s s' : PSt} (hr : V.Ready s) (hs : s'.toks.Sublist s.toks)
    (hc : s'.ctx = s.ctx) (ht : s'.toks = k :: r) :
    match takeFront k s' a with
    | .ok b s2 => b = a ∧ V.Ready s2 ∧ s2.toks.Sublist s.toks ∧ s2.toks.length < s.toks.length ∧
        (k :: s2.toks).Sublist s.toks
    | .err _ _ => False
    | .panic => True
    | .diverge _ => False := by
  unfold takeFront
  cases k.range with
  | none => trivial
  | some rg =>
    dsimp only
    rw [ht] at hs ⊢
    have h2 : r.Sublist s.toks := (List.sublist_cons_self ..).trans hs
    refine ⟨rfl, ?_, h2, ?_, hs⟩
    · exact Env.Ready.of_sub (s' := { s' with endPrev := rg, toks := r }) hr h2 hc
    · have := hs.length_le
      simp at this ⊢; omega

/-- Rule for `consume_or_ignore` and its relatives. -/
theorem wp_takeIf {f : Token → Bool} {k : Option Token → P β}
    (h1 : ∀ a s', V.Ready s' → s'.toks.Sublist s.toks → s'.toks.length < s.toks.length → f a = true →
      (a :: s'.toks).Sublist s.toks → wp V (k (some a)) q m s')
    (h2 : ∀ s', V.Ready s' → s'.toks.Sublist s.toks → s'.toks.length ≤ s.toks.length → wp V (k none) q m s') :
    wp V (takeIf f >>= k) q m s := by
  intro hr
  rw [bind_run]
  have fin : ∀ o s', s'.toks.Sublist s.toks → V.Ready s' → wp V (k o) q m s' →
      match k o s' with
      | .ok a s' => V.Ready s' ∧ s'.toks.Sublist s.toks ∧ s'.toks.length < q a
      | .err _ s' => V.Ready s' ∧ s'.toks.Sublist s.toks ∧ s'.toks.length ≤ m
      | .panic => True
      | .diverge x => V.exc x := by
    intro o s' hs hr' hw
    have := hw hr'
    cases hq : k o s' with
    | ok b s2 => rw [hq] at this; exact ⟨this.1, this.2.1.trans hs, this.2.2⟩
    | err e s2 => rw [hq] at this; exact ⟨this.1, this.2.1.trans hs, this.2.2⟩
    | panic => trivial
    | diverge x => rw [hq] at this; exact this
  rcases peek_spec s with ⟨s', e, hs, hc, hl, hf⟩ | ⟨a, s', r, e, hs, hc, ht, hk, he, hf, hf'⟩
  · rw [takeIf_none e]
    have hr' := hr.of_sub hs hc
    exact fin _ _ hs hr' (h2 s' hr' hs (by omega))
  · cases hfa : f a
    · rw [takeIf_no e hfa]
      have hr' := hr.of_sub hs hc
      exact fin _ _ hs hr' (h2 s' hr' hs hs.length_le)
    · rw [takeIf_yes e hfa]
      have := takeFront_wp (a := some a) hr hs hc ht
      cases hx : takeFront a s' (some a) with
      | ok b s2 =>
        rw [hx] at this
        obtain ⟨rfl, g1, g2, g3, g4⟩ := this
        exact fin _ _ g2 g1 (h1 a s2 g1 g2 g3 hfa g4)
      | err e s2 => rw [hx] at this; exact this.elim
      | panic => trivial
      | diverge x => rw [hx] at this; exact this.elim

/-- Rule for `takeIf` when the next token is known not to be taken. -/
theorem wp_takeIf_skip {f : Token → Bool} {k : Option Token → P β} {t : TT} (ht : front s.toks = some t)
    (hf : ∀ a : Token, a.t = t → f a = false)
    (h2 : ∀ s', V.Ready s' → s'.toks.Sublist s.toks → s'.toks.length ≤ s.toks.length → front s'.toks = some t →
      wp V (k none) q m s') :
    wp V (takeIf f >>= k) q m s := by
  intro hr
  rw [bind_run]
  rcases peek_spec s with ⟨s', e, hs, hc, hl, hf1⟩ | ⟨a, s', r, e, hs, hc, ht', hk, he, hf1, hf'⟩
  · rw [ht] at hf1; cases hf1
  · rw [ht] at hf1
    cases hf1
    rw [takeIf_no e (hf a rfl)]
    have hr' := hr.of_sub hs hc
    have := h2 s' hr' hs hs.length_le hf' hr'
    dsimp only
    cases hq : k none s' with
    | ok b s2 => rw [hq] at this; exact ⟨this.1, this.2.1.trans hs, this.2.2⟩
    | err e s2 => rw [hq] at this; exact ⟨this.1, this.2.1.trans hs, this.2.2⟩
    | panic => trivial
    | diverge x => rw [hq] at this; exact this

/-- Rule for `takeIf` when the next token is known to be taken. -/
theorem wp_takeIf_take {f : Token → Bool} {k : Option Token → P β} {t : TT} (ht : front s.toks = some t)
    (hf : ∀ a : Token, a.t = t → f a = true)
    (h1 : ∀ a s', V.Ready s' → s'.toks.Sublist s.toks → s'.toks.length < s.toks.length → wp V (k (some a)) q m s') :
    wp V (takeIf f >>= k) q m s := by
  intro hr
  rw [bind_run]
  rcases peek_spec s with ⟨s', e, hs, hc, hl, hf1⟩ | ⟨a, s', r, e, hs, hc, ht', hk, he, hf1, hf'⟩
  · rw [ht] at hf1; cases hf1
  · rw [ht] at hf1
    cases hf1
    rw [takeIf_yes e (hf a rfl)]
    have := takeFront_wp (a := some a) hr hs hc ht'
    cases hx : takeFront a s' (some a) with
    | ok b s2 =>
      rw [hx] at this
      obtain ⟨rfl, g1, g2, g3, g4⟩ := this
      have := h1 a s2 g1 g2 g3 g1
      dsimp only
      cases hq : k (some a) s2 with
      | ok b s3 => rw [hq] at this; exact ⟨this.1, this.2.1.trans g2, this.2.2⟩
      | err e s3 => rw [hq] at this; exact ⟨this.1, this.2.1.trans g2, this.2.2⟩
      | panic => trivial
      | diverge x => rw [hq] at this; exact this
    | err e s2 => rw [hx] at this; exact this.elim
    | panic => trivial
    | diverge x => rw [hx] at this; exact this.elim

/-- Rule for `takeOr`. -/
theorem wp_takeOr {f : Token → Bool} {k : Option (Token × Bool) → P β}
    (h0 : ∀ s', V.Ready s' → s'.toks.Sublist s.toks → s'.toks.length ≤ s.toks.length - 1 → wp V (k none) q m s')
    (h1 : ∀ a s', V.Ready s' → s'.toks.Sublist s.toks → s'.toks.length < s.toks.length → f a = true →
      wp V (k (some (a, true))) q m s')
    (h2 : ∀ a s', V.Ready s' → s'.toks.Sublist s.toks → s'.toks.length ≤ s.toks.length → 0 < s'.toks.length →
      f a = false → front s.toks = some a.t → front s'.toks = some a.t → wp V (k (some (a, false))) q m s') :
    wp V (takeOr f >>= k) q m s := by
  intro hr
  rw [bind_run]
  have fin : ∀ o s', s'.toks.Sublist s.toks → V.Ready s' → wp V (k o) q m s' →
      match k o s' with
      | .ok a s' => V.Ready s' ∧ s'.toks.Sublist s.toks ∧ s'.toks.length < q a
      | .err _ s' => V.Ready s' ∧ s'.toks.Sublist s.toks ∧ s'.toks.length ≤ m
      | .panic => True
      | .diverge x => V.exc x := by
    intro o s' hs hr' hw
    have := hw hr'
    cases hq : k o s' with
    | ok b s2 => rw [hq] at this; exact ⟨this.1, this.2.1.trans hs, this.2.2⟩
    | err e s2 => rw [hq] at this; exact ⟨this.1, this.2.1.trans hs, this.2.2⟩
    | panic => trivial
    | diverge x => rw [hq] at this; exact this
  rcases peek_spec s with ⟨s', e, hs, hc, hl, hf⟩ | ⟨a, s', r, e, hs, hc, ht, hk, he, hf, hf'⟩
  · rw [takeOr_none e]
    have hr' := hr.of_sub hs hc
    exact fin _ _ hs hr' (h0 s' hr' hs hl)
  · cases hfa : f a
    · rw [takeOr_no e hfa]
      have hr' := hr.of_sub hs hc
      exact fin _ _ hs hr' (h2 a s' hr' hs hs.length_le (by rw [ht]; simp) hfa hf hf')
    · rw [takeOr_yes e hfa]
      have := takeFront_wp (a := some (a, true)) hr hs hc ht
      cases hx : takeFront a s' (some (a, true)) with
      | ok b s2 =>
        rw [hx] at this
        obtain ⟨rfl, g1, g2, g3, g4⟩ := this
        exact fin _ _ g2 g1 (h1 a s2 g1 g2 g3 hfa)
      | err e s2 => rw [hx] at this; exact this.elim
      | panic => trivial
      | diverge x => rw [hx] at this; exact this.elim

end prims

theorem wp_pushErr {e : Err} {s : PSt} : wp V (pushErr e) (fun _ => s.toks.length + 1) 0 s :=
  fun hr => ⟨⟨hr.1, hr.2⟩, List.Sublist.refl _, Nat.lt_succ_self _⟩

theorem wp_setScript {s : PSt} : wp V (setCtx .script) (fun _ => s.toks.length + 1) 0 s :=
  fun hr => ⟨⟨hr.1, fun _ => rfl⟩, List.Sublist.refl _, Nat.lt_succ_self _⟩

theorem wp_setOut {s : PSt} (hc : V.c = 0) : wp V (setCtx .out) (fun _ => s.toks.length + 1) 0 s :=
  fun hr => ⟨⟨hr.1, fun h => by omega⟩, List.Sublist.refl _, Nat.lt_succ_self _⟩

/-- The continuation of a step that leaves the tokens alone. -/
theorem wp_same {α β : Type} {p : P α} {k : α → P β} {q : β → Nat} {m : Nat} {s : PSt}
    (hp : (∃ a s', p s = .ok a s' ∧ s'.toks = s.toks ∧ s'.ctx = s.ctx) ∨ p s = .panic)
    (hk : ∀ a s', s'.toks = s.toks → V.Ready s' → wp V (k a) q m s') : wp V (p >>= k) q m s := by
  intro hr
  rcases hp with ⟨a, s', h1, h2, h3⟩ | hp
  · rw [bind_ok h1]
    have hr' : V.Ready s' := hr.of_sub (by rw [h2]; exact List.Sublist.refl _) h3
    have := hk a s' h2 hr' hr'
    rw [h2] at this
    exact this
  · rw [bind_panic hp]; trivial

theorem popDoc_same (doc : Token → Option Node) (s : PSt) :
    (∃ a s', popDoc doc s = .ok a s' ∧ s'.toks = s.toks ∧ s'.ctx = s.ctx) ∨ popDoc doc s = .panic := by
  unfold popDoc
  cases s.docs with
  | nil => exact .inl ⟨_, _, rfl, rfl, rfl⟩
  | cons c r =>
    dsimp only
    cases doc c with
    | none => exact .inr rfl
    | some n => exact .inl ⟨_, _, rfl, rfl, rfl⟩

theorem drainDocs_same (doc : Token → Option Node) (s : PSt) :
    (∃ a s', drainDocs doc s = .ok a s' ∧ s'.toks = s.toks ∧ s'.ctx = s.ctx) ∨ drainDocs doc s = .panic := by
  unfold drainDocs
  have : ∀ l, (∃ a s', drainDocsOn doc l s = .ok a s' ∧ s'.toks = s.toks ∧ s'.ctx = s.ctx) ∨
      drainDocsOn doc l s = .panic := by
    intro l
    induction l with
    | nil => exact .inl ⟨_, _, rfl, rfl, rfl⟩
    | cons c r ih =>
      unfold drainDocsOn
      cases doc c with
      | none => exact .inr rfl
      | some n =>
        dsimp only
        rcases ih with ⟨a, s', h1, h2, h3⟩ | h
        · rw [h1]; exact .inl ⟨_, _, rfl, h2, h3⟩
        · rw [h]; exact .inr rfl
  exact this _

theorem wp_popDoc {doc : Token → Option Node} {s : PSt} : wp V (popDoc doc) (fun _ => s.toks.length + 1) 0 s := by
  intro hr
  rcases popDoc_same doc s with ⟨a, s', h1, h2, h3⟩ | h
  · rw [h1]
    exact ⟨hr.of_sub (by rw [h2]; exact List.Sublist.refl _) h3, by rw [h2]; exact List.Sublist.refl _, by show s'.toks.length < s.toks.length + 1; rw [h2]; omega⟩
  · rw [h]; trivial

theorem wp_drainDocs {doc : Token → Option Node} {s : PSt} : wp V (drainDocs doc) (fun _ => s.toks.length + 1) 0 s := by
  intro hr
  rcases drainDocs_same doc s with ⟨a, s', h1, h2, h3⟩ | h
  · rw [h1]
    exact ⟨hr.of_sub (by rw [h2]; exact List.Sublist.refl _) h3, by rw [h2]; exact List.Sublist.refl _, by show s'.toks.length < s.toks.length + 1; rw [h2]; omega⟩
  · rw [h]; trivial

/-- Outcome of a step that only drops tokens: at least `d` of them, if there are any. -/
def Drops (d : Nat) (l : List Token) (c : Ctx) : Res α → Prop
  | .ok _ s' => s'.toks.Sublist l ∧ s'.ctx = c ∧ s'.toks.length ≤ l.length - d
  | .err _ _ => False
  | .panic => True
  | .diverge _ => False

theorem Drops.cons {d : Nat} {l : List Token} {c : Ctx} {k : Token} {x : Res α} (h : Drops d l c x) :
    Drops d (k :: l) c x := by
  cases x with
  | ok a s' => exact ⟨h.1.trans (List.sublist_cons_self ..), h.2.1, by have := h.2.2; simp; omega⟩
  | err e s' => exact h
  | panic => trivial
  | diverge x => exact h

theorem ffBeforeOn_wp (ts : List TT) : ∀ (l : List Token) (s : PSt), Drops 0 l s.ctx (ffBeforeOn ts l s)
  | [], s => ⟨List.Sublist.refl _, rfl, Nat.le_refl _⟩
  | k :: r, s => by
    unfold ffBeforeOn
    by_cases h1 : k.t = .eof
    · rw [if_pos h1]; exact ⟨List.sublist_cons_self .., rfl, by simp⟩
    rw [if_neg h1]
    by_cases h2 : k.t = .multilineComment
    · rw [if_pos h2]; exact (ffBeforeOn_wp ts r { s with docs := k :: s.docs }).cons
    rw [if_neg h2]
    by_cases h3 : isTrivia k = true
    · rw [if_pos h3]; exact (ffBeforeOn_wp ts r s).cons
    rw [if_neg h3]
    by_cases h4 : ts.contains k.t = true
    · rw [if_pos h4]; exact ⟨List.Sublist.refl _, rfl, Nat.le_refl _⟩
    rw [if_neg h4]
    cases k.range with
    | none => trivial
    | some rg => exact (ffBeforeOn_wp ts r { s with endPrev := rg }).cons

theorem wp_ffBefore {ts : List TT} {s : PSt} : wp V (ffBefore ts) (fun _ => s.toks.length + 1) 0 s := by
  intro hr
  have := ffBeforeOn_wp ts s.toks s
  unfold ffBefore
  cases hx : ffBeforeOn ts s.toks s with
  | ok a s' => rw [hx] at this; exact ⟨hr.of_sub this.1 this.2.1, this.1, Nat.lt_succ_of_le this.1.length_le⟩
  | err e s' => rw [hx] at this; exact this.elim
  | panic => trivial
  | diverge x => rw [hx] at this; exact this.elim

theorem wp_errorFastForward {s : PSt} : wp V errorFastForward (fun _ => s.toks.length + 1) 0 s := wp_ffBefore

theorem ffAfterOn_wp (ts : List TT) : ∀ (l : List Token) (s : PSt), Drops 1 l s.ctx (ffAfterOn ts l s)
  | [], s => ⟨List.Sublist.refl _, rfl, Nat.le_refl _⟩
  | k :: r, s => by
    unfold ffAfterOn
    cases k.range with
    | none => trivial
    | some rg =>
      dsimp only
      by_cases h2 : k.t = .multilineComment
      · rw [if_pos h2]; exact (ffAfterOn_wp ts r { s with endPrev := rg, docs := k :: s.docs }).cons
      rw [if_neg h2]
      by_cases h3 : isTrivia k = true
      · rw [if_pos h3]; exact (ffAfterOn_wp ts r { s with endPrev := rg }).cons
      rw [if_neg h3]
      by_cases h4 : ts.contains k.t = true
      · rw [if_pos h4]; exact ⟨List.sublist_cons_self .., rfl, by simp⟩
      rw [if_neg h4]
      exact (ffAfterOn_wp ts r { s with endPrev := rg }).cons

theorem wp_ffAfter {ts : List TT} {s : PSt} : wp V (ffAfter ts) (fun _ => s.toks.length - 1 + 1) 0 s := by
  intro hr
  have := ffAfterOn_wp ts s.toks s
  unfold ffAfter
  cases hx : ffAfterOn ts s.toks s with
  | ok a s' => rw [hx] at this; exact ⟨hr.of_sub this.1 this.2.1, this.1, Nat.lt_succ_of_le this.2.2⟩
  | err e s' => rw [hx] at this; exact this.elim
  | panic => trivial
  | diverge x => rw [hx] at this; exact this.elim

theorem nextOn_wp : ∀ (l : List Token) (s : PSt),
    Drops 1 l s.ctx (nextOn l s) ∧ ∀ k s', nextOn l s = .ok (some k) s' → s'.toks.length < l.length
  | [], s => ⟨⟨List.Sublist.refl _, rfl, Nat.le_refl _⟩, by intro k s' h; cases h⟩
  | k :: r, s => by
    unfold nextOn
    cases k.range with
    | none => exact ⟨trivial, by intro k s' h; cases h⟩
    | some rg =>
      dsimp only
      by_cases h2 : k.t = .multilineComment
      · rw [if_pos h2]
        have := nextOn_wp r { s with endPrev := rg, docs := k :: s.docs }
        exact ⟨this.1.cons, fun a s' h => by have := this.2 a s' h; simp; omega⟩
      rw [if_neg h2]
      by_cases h3 : isTrivia k = true
      · rw [if_pos h3]
        have := nextOn_wp r { s with endPrev := rg }
        exact ⟨this.1.cons, fun a s' h => by have := this.2 a s' h; simp; omega⟩
      rw [if_neg h3]
      exact ⟨⟨List.sublist_cons_self .., rfl, by simp⟩, by intro a s' h; cases h; simp⟩

theorem wp_next {s : PSt} :
    wp V next (fun o => if o.isSome then s.toks.length else s.toks.length - 1 + 1) 0 s := by
  intro hr
  obtain ⟨this, h2⟩ := nextOn_wp s.toks s
  unfold next
  cases hx : nextOn s.toks s with
  | ok a s' =>
    rw [hx] at this
    refine ⟨hr.of_sub this.1 this.2.1, this.1, ?_⟩
    cases a with
    | some k => exact h2 k s' hx
    | none => exact Nat.lt_succ_of_le this.2.2
  | err e s' => rw [hx] at this; exact this.elim
  | panic => trivial
  | diverge x => rw [hx] at this; exact this.elim

/-- Rule for `next`. -/
theorem wp_next_bind {β : Type} {k : Option Token → P β} {q : β → Nat} {m : Nat} {s : PSt}
    (h1 : ∀ s', V.Ready s' → s'.toks.Sublist s.toks → s'.toks.length ≤ s.toks.length - 1 → wp V (k none) q m s')
    (h2 : ∀ a s', V.Ready s' → s'.toks.Sublist s.toks → s'.toks.length < s.toks.length → wp V (k (some a)) q m s') :
    wp V (next >>= k) q m s := by
  refine wp_bind wp_next (Nat.zero_le _) ?_
  rintro (_ | a) s' hr hs hl
  · simp at hl; exact h1 s' hr hs (by omega)
  · simp at hl; exact h2 a s' hr hs hl

section
variable {s : PSt}

theorem wp_takeOrMissing {f : Token → Bool} {ts : List TT} (hf : ∀ a : Token, ts.contains a.t = true → f a = true) :
    wp V (takeOrMissing f) (fun a => if a.2 then s.toks.length + 1 - fr ts s else s.toks.length) 0 s := by
  intro hr
  rcases peek_spec s with ⟨s', e, hs, hc, hl, hf1⟩ | ⟨a, s', r, e, hs, hc, ht, hk, he, hf1, hf'⟩
  · rw [takeOrMissing_none e]
    refine ⟨hr.of_sub hs hc, hs, ?_⟩
    simp only [fr_none hf1, if_true]; omega
  · cases hfa : f a
    · rw [takeOrMissing_no e hfa]
      refine ⟨hr.of_sub hs hc, hs, ?_⟩
      have : ¬ (ts.contains a.t = true) := fun h => by rw [hf a h] at hfa; cases hfa
      simp only [fr_of_front hf1, if_neg this, if_true]
      exact Nat.lt_succ_of_le hs.length_le
    · rw [takeOrMissing_yes e hfa]
      have := takeFront_wp (a := (a, false)) hr hs hc ht
      cases hx : takeFront a s' (a, false) with
      | ok b s2 =>
        rw [hx] at this
        obtain ⟨rfl, g1, g2, g3, g4⟩ := this
        refine ⟨g1, g2, ?_⟩
        simpa using g3
      | err e s2 => rw [hx] at this; exact this.elim
      | panic => trivial
      | diverge x => rw [hx] at this; exact this.elim

theorem wp_consume {t : TT} : wp V (consume t) (fun _ => s.toks.length + 1 - fr [t] s) 0 s := by
  have hfr := fr_le [t] s
  have hfl := fr_pos_len (ts := [t]) (s := s)
  unfold consume
  refine wp_bind (wp_takeOrMissing (ts := [t]) (fun a h => by simpa using h)) (Nat.le_refl _) ?_
  rintro ⟨k, w⟩ s' hr hs hl
  cases w
  · dsimp only at hl ⊢
    simp only [Bool.false_eq_true, if_false] at hl ⊢
    refine wp_pure ?_
    omega
  · dsimp only at hl ⊢
    simp only [if_true] at hl ⊢
    refine wp_bind wp_errorFastForward (Nat.le_refl _) ?_
    intro _ s2 _ _ h2
    refine wp_bind wp_pushErr (Nat.le_refl _) ?_
    intro _ s3 _ _ h3
    refine wp_pure ?_
    omega

/-- A required token that is next is taken. -/
theorem consume_front {t : TT} (h : fr [t] s = 1) :
    wpG V (consume t) (fun a s' => a.t = t ∧ (a :: s'.toks).Sublist s.toks ∧ s'.toks.length < s.toks.length)
      (fun _ => False) s := by
  intro hr
  obtain ⟨t', h1, h2⟩ := fr_one h
  simp at h2
  subst h2
  unfold consume
  rcases peek_spec s with ⟨s', e, hs, hc, hl, hf1⟩ | ⟨a, s', r, e, hs, hc, ht, hk, he, hf1, hf'⟩
  · rw [h1] at hf1; cases hf1
  · rw [h1] at hf1
    cases hf1
    have hy := takeOrMissing_yes (f := fun k => k.t == a.t) e (by simp)
    have := takeFront_wp (a := (a, false)) hr hs hc ht
    rw [bind_run, hy]
    cases hx : takeFront a s' (a, false) with
    | ok b s2 =>
      rw [hx] at this
      obtain ⟨rfl, g1, g2, g3, g4⟩ := this
      exact ⟨g1, g2, rfl, g4, g3⟩
    | err e s2 => rw [hx] at this; exact this.elim
    | panic => trivial
    | diverge x => rw [hx] at this; exact this.elim

theorem wp_consumeIdentifier :
    wp V consumeIdentifier (fun _ => s.toks.length + 1 - fr [.identifier] s) 0 s := by
  have hfr := fr_le [.identifier] s
  have hfl := fr_pos_len (ts := [.identifier]) (s := s)
  unfold consumeIdentifier
  refine wp_bind (wp_takeOrMissing (ts := [.identifier])
    (fun a h => by simp at h; simp [Token.isIdentifier, h, TT.isIdentifier])) (Nat.le_refl _) ?_
  rintro ⟨k, w⟩ s' hr hs hl
  cases w
  · dsimp only at hl ⊢
    simp only [Bool.false_eq_true, if_false] at hl ⊢
    refine wp_pure ?_
    omega
  · dsimp only at hl ⊢
    simp only [if_true] at hl ⊢
    refine wp_bind wp_pushErr (Nat.le_refl _) ?_
    intro _ s3 _ _ h3
    refine wp_pure ?_
    omega

theorem wp_consumeEndOfStatement : wp V consumeEndOfStatement (fun _ => s.toks.length + 1) 0 s := by
  unfold consumeEndOfStatement
  refine wp_takeOr ?_ ?_ ?_
  · intro s' _ _ h
    exact wp_mono wp_pushErr (fun _ => by omega) (Nat.le_refl _)
  · intro a s' _ _ h _
    simp only [if_true]
    exact wp_pure (by omega)
  · intro a s' _ _ h _ _ _ _
    simp only [Bool.false_eq_true, if_false]
    refine wp_ite (fun _ => wp_pure (by omega)) fun _ => ?_
    refine wp_bind wp_errorFastForward (Nat.le_refl _) ?_
    intro _ s2 _ _ h2
    exact wp_mono wp_pushErr (fun _ => by omega) (Nat.le_refl _)

theorem wp_consumeOrFfAfter {t : TT} {ts : List TT} :
    wp V (consumeOrFfAfter t ts) (fun _ => s.toks.length - 1 + 1) 0 s := by
  unfold consumeOrFfAfter
  refine wp_takeOr ?_ ?_ ?_
  · intro s' _ _ h
    exact wp_mono wp_pushErr (fun _ => by omega) (Nat.le_refl _)
  · intro a s' _ _ h _
    simp only [if_true]
    exact wp_pure (by omega)
  · intro a s' _ _ h _ _ _ _
    simp only [Bool.false_eq_true, if_false]
    refine wp_bind wp_pushErr (Nat.le_refl _) ?_
    intro _ s2 _ _ h2
    exact wp_mono wp_ffAfter (fun _ => by omega) (Nat.le_refl _)

theorem wp_consumeOrFfBefore {t : TT} {ts : List TT} :
    wp V (consumeOrFfBefore t ts) (fun _ => s.toks.length + 1 - fr [t] s) (s.toks.length - 1) s := by
  have hfr := fr_le [t] s
  have hfl := fr_pos_len (ts := [t]) (s := s)
  unfold consumeOrFfBefore
  refine wp_takeOr ?_ ?_ ?_
  · intro s' _ _ h
    refine wp_bind wp_pushErr (Nat.zero_le _) ?_
    intro _ s2 _ _ h2
    exact wp_fail (by omega)
  · intro a s' _ _ h _
    simp only [if_true]
    exact wp_pure (by omega)
  · intro a s' _ _ h _ hf hf1 _
    simp only [Bool.false_eq_true, if_false]
    have h0 : fr [t] s = 0 := by
      rw [fr_of_front hf1, if_neg]
      simp at hf ⊢
      exact hf
    refine wp_bind wp_pushErr (Nat.zero_le _) ?_
    intro _ s2 _ _ h2
    refine wp_bind wp_ffBefore (Nat.zero_le _) ?_
    intro _ s3 _ _ h3
    exact wp_pure (by omega)

theorem wp_consumeMember : wp V consumeMember (fun _ => s.toks.length) (s.toks.length - 1) s := by
  unfold consumeMember
  refine wp_next_bind ?_ ?_
  · intro s' _ _ h
    exact wp_fail h
  · intro a s' _ _ h
    exact wp_ite (fun _ => wp_pure h) fun _ => wp_fail (by omega)

theorem wp_consumeOneOf {ts : List TT} : wp V (consumeOneOf ts) (fun _ => s.toks.length) (s.toks.length - 1) s := by
  unfold consumeOneOf
  refine wp_next_bind ?_ ?_
  · intro s' _ _ h
    exact wp_fail h
  · intro a s' _ _ h
    exact wp_ite (fun _ => wp_pure h) fun _ => wp_fail (by omega)

/-- Rule for a discarded test of the next token. -/
theorem wp_nextIs {f : Token → Bool} : wp V (nextIs f) (fun _ => s.toks.length + 1) 0 s := by
  unfold nextIs
  refine wp_peek ?_ ?_
  · intro s' _ _ h
    exact wp_pure (by omega)
  · intro a s' _ _ h _ _ _
    exact wp_pure (by omega)

/-- Rule for `lookahead`: if nothing is taken, the token in front is the same. -/
theorem wp_lookahead {β : Type} {f g : Token → Bool} {k : Option Token → P β} {q : β → Nat} {m : Nat}
    (h1 : ∀ a s', V.Ready s' → s'.toks.Sublist s.toks → s'.toks.length < s.toks.length → wp V (k (some a)) q m s')
    (h2 : ∀ s', V.Ready s' → s'.toks.Sublist s.toks → s'.toks.length ≤ s.toks.length → wp V (k none) q m s') :
    wp V (lookahead f g >>= k) q m s := by
  intro hr
  rw [bind_run]
  have fin : ∀ o s', s'.toks.Sublist s.toks → V.Ready s' → wp V (k o) q m s' →
      match k o s' with
      | .ok a s' => V.Ready s' ∧ s'.toks.Sublist s.toks ∧ s'.toks.length < q a
      | .err _ s' => V.Ready s' ∧ s'.toks.Sublist s.toks ∧ s'.toks.length ≤ m
      | .panic => True
      | .diverge x => V.exc x := by
    intro o s' hs hr' hw
    have := hw hr'
    cases hq : k o s' with
    | ok b s2 => rw [hq] at this; exact ⟨this.1, this.2.1.trans hs, this.2.2⟩
    | err e s2 => rw [hq] at this; exact ⟨this.1, this.2.1.trans hs, this.2.2⟩
    | panic => trivial
    | diverge x => rw [hq] at this; exact this
  rcases peek_spec s with ⟨s', e, hs, hc, hl, hf⟩ | ⟨a, s', r, e, hs, hc, ht, hk, he, hf, hf'⟩
  · rw [lookahead_none (takeIf_none e)]
    have hr' := hr.of_sub hs hc
    exact fin _ _ hs hr' (h2 s' hr' hs (by omega))
  · cases hfa : f a
    · rw [lookahead_none (takeIf_no e hfa)]
      have hr' := hr.of_sub hs hc
      exact fin _ _ hs hr' (h2 s' hr' hs hs.length_le)
    · have hy := takeIf_yes e hfa
      have := takeFront_wp (a := some a) hr hs hc ht
      cases hx : takeFront a s' (some a) with
      | ok b s2 =>
        rw [hx] at this hy
        obtain ⟨rfl, g1, g2, g3, g4⟩ := this
        rcases peek_spec s2 with ⟨s3, e3, hs3, hc3, hl3, -⟩ | ⟨a3, s3, r3, e3, hs3, hc3, ht3, -, -, -, -⟩
        · rw [lookahead_some hy (nextIs_none e3)]
          have hsub : (a :: s3.toks).Sublist s.toks := (hs3.cons_cons a).trans g4
          have hr' : V.Ready { s3 with toks := a :: s3.toks } :=
            Env.Ready.of_sub (s' := { s3 with toks := a :: s3.toks }) hr hsub (hc3.trans ?_)
          · exact fin none { s3 with toks := a :: s3.toks } hsub hr' (h2 _ hr' hsub hsub.length_le)
          · have := takeIf_yes e hfa
            rw [hy] at this
            unfold takeFront at this
            split at this
            · cases this
            · cases this; exact hc
        · rw [lookahead_some hy (nextIs_some e3)]
          cases hg : g a3
          · have hsub : (a :: s3.toks).Sublist s.toks := (hs3.cons_cons a).trans g4
            have hr' : V.Ready { s3 with toks := a :: s3.toks } :=
              Env.Ready.of_sub (s' := { s3 with toks := a :: s3.toks }) hr hsub (hc3.trans ?_)
            · exact fin none { s3 with toks := a :: s3.toks } hsub hr' (h2 _ hr' hsub hsub.length_le)
            · have := takeIf_yes e hfa
              rw [hy] at this
              unfold takeFront at this
              split at this
              · cases this
              · cases this; exact hc
          · have hr3 := g1.of_sub hs3 hc3
            have := hs3.length_le
            exact fin (some a) s3 (hs3.trans g2) hr3 (h1 a s3 hr3 (hs3.trans g2) (by omega))
      | err e s2 => rw [hx] at this; exact this.elim
      | panic => rw [hx] at hy; rw [lookahead_panic hy]; trivial
      | diverge x => rw [hx] at this; exact this.elim

/-- Rule for the start of a heredoc. -/
theorem wp_hereDocBody {β : Type} {k : Option Token → P β} {q : β → Nat} {m : Nat}
    (h1 : ∀ a s', V.Ready s' → s'.toks.Sublist s.toks → s'.toks.length < s.toks.length → wp V (k (some a)) q m s')
    (h2 : ∀ s', V.Ready s' → s'.toks.Sublist s.toks → s'.toks.length ≤ s.toks.length → wp V (k none) q m s') :
    wp V (hereDocBody >>= k) q m s := by
  have key : wp V hereDocBody (fun o => if o.isSome then s.toks.length else s.toks.length + 1) 0 s := by
    unfold hereDocBody
    refine wp_nextOneOf ?_ ?_
    · intro s' _ _ hl h0 hf
      refine wp_bind wp_consumeOrFfAfter (Nat.le_refl _) ?_
      intro _ s2 _ _ h2
      unfold nextUnwrap
      refine wp_bind (q1 := fun _ => s.toks.length) (m1 := 0) ?_ (Nat.le_refl _) ?_
      · refine wp_next_bind ?_ ?_
        · intro s3 _ _ h3
          exact wp_panic
        · intro a s3 _ _ h3
          exact wp_pure (by omega)
      · intro a s3 _ _ h3
        exact wp_pure (by simpa using h3)
    · intro s' _ _ hl _
      exact wp_pure (by simp; omega)
  refine wp_bind key (Nat.zero_le _) ?_
  rintro (_ | a) s' hr hs hl
  · simp at hl; exact h2 s' hr hs (by omega)
  · simp at hl; exact h1 a s' hr hs hl

end

end PhpLs.Parser
