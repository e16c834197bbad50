import Verif.ExprLemmas

/-!
# Reading whole programs: the calculus

`Rd doc d f ts rest a` is the variant of `Reads` (`Verif/ParserRun.lean`) for the functions that look at the doc comments: the
parser stands inside of a script, the doc comments `d` wait for a declaration, and afterwards none waits.  The end of the file
is part of it: an `Eof` token is popped as soon as it is looked at, so the remaining tokens are determined up to that.
-/

namespace PhpLs.Parser

open PhpLs

/-- `xs` are the tokens `ts`, or `ts` is the `Eof` token alone and it is gone. -/
def Settled (ts xs : List Token) : Prop := xs = ts ∨ (xs = [] ∧ ∃ e : Token, ts = [e] ∧ e.t = .eof)

/-- With enough fuel, `f` reads `ts` off the front of `ts ++ rest` and returns `a`; it uses the waiting doc comments `d` and
reports no error. -/
def Rd (doc : Token → Option Node) (d : List Token) (f : Rec → P α) (ts rest : List Token) (a : α) : Prop :=
  ∀ s : PSt, s.docs = d → s.ctx = .script → Settled (ts ++ rest) s.toks →
    ∃ s' : PSt, Settled rest s'.toks ∧ s'.docs = [] ∧ s'.ctx = .script ∧ s'.errors = s.errors ∧
      ∃ n0, ∀ n, n0 ≤ n → f (knot doc n) s = .ok a s'

/-- The same for a loop; no doc comment waits at the beginning. -/
def LoopRd (doc : Token → Option Node) (site : Site) (body : Rec → β → P (β ⊕ α)) (b : β) (ts rest : List Token)
    (a : α) : Prop :=
  ∀ s : PSt, s.docs = [] → s.ctx = .script → Settled (ts ++ rest) s.toks →
    ∃ s' : PSt, Settled rest s'.toks ∧ s'.docs = [] ∧ s'.ctx = .script ∧ s'.errors = s.errors ∧
      ∃ n0, ∀ n m, n0 ≤ n → n0 ≤ m → loopP site m (body (knot doc n)) b s = .ok a s'

/-- A token of a given type. -/
def Tok (t : TT) (k : Token) : Prop := Plain k ∧ k.t = t

/-- An identifier in the sense of `Token::is_identifier`. -/
def Word (k : Token) : Prop := Plain k ∧ k.isIdentifier = true

/-- The next token exists and its type satisfies `p`. -/
def Next (xs : List Token) (p : TT → Bool) : Prop := ∃ k r, xs = k :: r ∧ Plain k ∧ p k.t = true

/-- The next token, unless the file ends here, has a type that satisfies `p`. -/
def Ahead (xs : List Token) (p : TT → Bool) : Prop :=
  Next xs p ∨ xs = [] ∨ ∃ e : Token, xs = [e] ∧ e.t = .eof

variable {doc : Token → Option Node} {α β : Type} {ts us rest d : List Token} {k : Token} {p q : TT → Bool}

theorem Tok.next {t : TT} (h : Tok t k) : Next (k :: rest) (· == t) := ⟨k, rest, rfl, h.1, by simp [h.2]⟩

theorem Word.next (h : Word k) : Next (k :: rest) TT.isIdentifier := ⟨k, rest, rfl, h.1, h.2⟩

theorem Next.append (h : Next ts p) : Next (ts ++ rest) p := by
  obtain ⟨k, r, e, h1, h2⟩ := h
  exact ⟨k, r ++ rest, by rw [e]; rfl, h1, h2⟩

theorem Next.mono (h : Next ts p) (hpq : ∀ t, p t = true → q t = true) : Next ts q := by
  obtain ⟨k, r, e, h1, h2⟩ := h
  exact ⟨k, r, e, h1, hpq _ h2⟩

theorem Next.ahead (h : Next ts p) : Ahead ts p := .inl h

theorem Ahead.mono (h : Ahead ts p) (hpq : ∀ t, p t = true → q t = true) : Ahead ts q := by
  rcases h with h | h
  · exact .inl (h.mono hpq)
  · exact .inr h

theorem Settled.refl (ts : List Token) : Settled ts ts := .inl rfl

theorem Settled.next {xs : List Token} (h : Settled ts xs) (hn : Next ts p) : xs = ts := by
  rcases h with h | ⟨-, e, h1, h2⟩
  · exact h
  · obtain ⟨k, r, e1, h3, -⟩ := hn
    rw [e1] at h1
    injection h1 with h1 _
    subst h1
    exact absurd h2 h3.noEof

theorem Rd.pure {a : α} : Rd doc [] (fun _ => Pure.pure a) [] rest a :=
  fun s hd hc hs => ⟨s, hs, hd, hc, rfl, 0, fun _ _ => rfl⟩

theorem Rd.bind {f : Rec → P α} {g : Rec → α → P β} {a : α} {b : β} (h1 : Rd doc d f ts (us ++ rest) a)
    (h2 : Rd doc [] (fun r => g r a) us rest b) : Rd doc d (fun r => f r >>= g r) (ts ++ us) rest b := by
  intro s hd hc hs
  obtain ⟨s1, ht1, hd1, hc1, he1, n1, hn1⟩ := h1 s hd hc (by rwa [List.append_assoc] at hs)
  obtain ⟨s2, ht2, hd2, hc2, he2, n2, hn2⟩ := h2 s1 hd1 hc1 ht1
  refine ⟨s2, ht2, hd2, hc2, he2.trans he1, max n1 n2, fun n hn => ?_⟩
  refine (bind_ok (hn1 n (by omega))).trans ?_
  exact hn2 n (by omega)

theorem Rd.bind0 {f : Rec → P α} {g : Rec → α → P β} {a : α} {b : β} (h1 : Rd doc d f [] (ts ++ rest) a)
    (h2 : Rd doc [] (fun r => g r a) ts rest b) : Rd doc d (fun r => f r >>= g r) ts rest b :=
  Rd.bind (ts := []) h1 h2

theorem Rd.bind1 {f : Rec → P α} {g : Rec → α → P β} {a : α} {b : β} (h1 : Rd doc d f [k] (ts ++ rest) a)
    (h2 : Rd doc [] (fun r => g r a) ts rest b) : Rd doc d (fun r => f r >>= g r) (k :: ts) rest b :=
  Rd.bind (ts := [k]) h1 h2

theorem Rd.bind_last {f : Rec → P α} {g : Rec → α → P β} {a : α} {b : β} (h1 : Rd doc d f ts rest a)
    (h2 : Rd doc [] (fun r => g r a) [] rest b) : Rd doc d (fun r => f r >>= g r) ts rest b := by
  have := Rd.bind (us := []) h1 h2
  rwa [List.append_nil] at this

/-- A run that touches no doc comment, in front of a next token. -/
theorem Rd.of {f : Rec → P α} {a : α} (h : Reads doc f ts rest a) (hn : Next (ts ++ rest) p) : Rd doc [] f ts rest a := by
  intro s hd hc hs
  obtain ⟨s', h1, h2, h3⟩ := h s (hs.next hn)
  exact ⟨s', .inl h1, by rw [h2.docs, hd], by rw [h2.ctx, hc], h2.errors, h3⟩

/-- A step that touches no doc comment. -/
theorem Rd.after {f : Rec → P α} {g : Rec → α → P β} {a : α} {b : β} (h1 : Reads doc f ts (us ++ rest) a)
    (hn : Next (ts ++ (us ++ rest)) p) (h2 : Rd doc d (fun r => g r a) us rest b) :
    Rd doc d (fun r => f r >>= g r) (ts ++ us) rest b := by
  intro s hd hc hs
  obtain ⟨s1, ht1, hk1, n1, hn1⟩ := h1 s (by rw [List.append_assoc] at hs; exact hs.next hn)
  obtain ⟨s2, ht2, hd2, hc2, he2, n2, hn2⟩ := h2 s1 (by rw [hk1.docs, hd]) (by rw [hk1.ctx, hc]) (.inl ht1)
  refine ⟨s2, ht2, hd2, hc2, he2.trans hk1.errors, max n1 n2, fun n hn => ?_⟩
  refine (bind_ok (hn1 n (by omega))).trans ?_
  exact hn2 n (by omega)

theorem Rd.loop {site : Site} {body : Rec → β → P (β ⊕ α)} {b : β} {a : α}
    (h : LoopRd doc site body b ts rest a) : Rd doc [] (fun r => loopP site r.fuel (body r) b) ts rest a := by
  intro s hd hc hs
  obtain ⟨s', ht, h1, h2, h3, n0, hn⟩ := h s hd hc hs
  refine ⟨s', ht, h1, h2, h3, n0 + 1, fun n hnn => ?_⟩
  cases n with
  | zero => omega
  | succ n => exact hn (n + 1) (n + 1) (by omega) (by omega)

theorem LoopRd.step {site : Site} {body : Rec → β → P (β ⊕ α)} {b b' : β} {a : α}
    (h1 : Rd doc [] (fun r => body r b) ts (us ++ rest) (.inl b')) (h2 : LoopRd doc site body b' us rest a) :
    LoopRd doc site body b (ts ++ us) rest a := by
  intro s hd hc hs
  obtain ⟨s1, ht1, hd1, hc1, he1, n1, hn1⟩ := h1 s hd hc (by rwa [List.append_assoc] at hs)
  obtain ⟨s2, ht2, hd2, hc2, he2, n2, hn2⟩ := h2 s1 hd1 hc1 ht1
  refine ⟨s2, ht2, hd2, hc2, he2.trans he1, max n1 n2 + 1, fun n m hn hm => ?_⟩
  cases m with
  | zero => omega
  | succ m =>
    unfold loopP
    refine (bind_ok (hn1 n (by omega))).trans ?_
    exact hn2 n m (by omega) (by omega)

theorem LoopRd.stop {site : Site} {body : Rec → β → P (β ⊕ α)} {b : β} {a : α}
    (h1 : Rd doc [] (fun r => body r b) ts rest (.inr a)) : LoopRd doc site body b ts rest a := by
  intro s hd hc hs
  obtain ⟨s1, ht1, hd1, hc1, he1, n1, hn1⟩ := h1 s hd hc hs
  refine ⟨s1, ht1, hd1, hc1, he1, n1 + 1, fun n m hn hm => ?_⟩
  cases m with
  | zero => omega
  | succ m =>
    unfold loopP
    exact (bind_ok (hn1 n (by omega))).trans rfl

/-- An error that would be caught does not occur. -/
theorem Rd.catchErr {f : Rec → P α} {g : Rec → α → P β} {e : Rec → Err → P β} {a : α} {b : β}
    (h1 : Rd doc d f ts (us ++ rest) a) (h2 : Rd doc [] (fun r => g r a) us rest b) :
    Rd doc d (fun r => P.catchErr (f r) (g r) (e r)) (ts ++ us) rest b := by
  intro s hd hc hs
  obtain ⟨s1, ht1, hd1, hc1, he1, n1, hn1⟩ := h1 s hd hc (by rwa [List.append_assoc] at hs)
  obtain ⟨s2, ht2, hd2, hc2, he2, n2, hn2⟩ := h2 s1 hd1 hc1 ht1
  refine ⟨s2, ht2, hd2, hc2, he2.trans he1, max n1 n2, fun n hn => ?_⟩
  show P.catchErr _ _ _ s = _
  unfold P.catchErr
  rw [hn1 n (by omega)]
  exact hn2 n (by omega)

/-! ## The entry points of the recursion -/

theorem Rd.expression {b : Nat} {a : Node} (h : Rd doc d (fun r => expressionF r b) ts rest a) :
    Rd doc d (fun r => r.expression b) ts rest a := by
  intro s hd hc hs
  obtain ⟨s', ht, h1, h2, h3, n0, hn⟩ := h s hd hc hs
  refine ⟨s', ht, h1, h2, h3, n0 + 1, fun n hnn => ?_⟩
  cases n with
  | zero => omega
  | succ n => exact hn n (by omega)

theorem Rd.call {a : Node} (h : Rd doc d callF ts rest a) : Rd doc d (fun r => r.call) ts rest a := by
  intro s hd hc hs
  obtain ⟨s', ht, h1, h2, h3, n0, hn⟩ := h s hd hc hs
  refine ⟨s', ht, h1, h2, h3, n0 + 1, fun n hnn => ?_⟩
  cases n with
  | zero => omega
  | succ n => exact hn n (by omega)

theorem Rd.statement {a : Node} (h : Rd doc d statementF ts rest a) : Rd doc d (fun r => r.statement) ts rest a := by
  intro s hd hc hs
  obtain ⟨s', ht, h1, h2, h3, n0, hn⟩ := h s hd hc hs
  refine ⟨s', ht, h1, h2, h3, n0 + 1, fun n hnn => ?_⟩
  cases n with
  | zero => omega
  | succ n => exact hn n (by omega)

/-! ## Tokens that are there -/

variable {t : TT}

theorem Rd.consume (h : Tok t k) : Rd doc [] (fun _ => consume t) [k] rest k :=
  Rd.of (Reads.consume h.1 h.2) h.next

theorem Rd.consumeIdentifier (h : Word k) : Rd doc [] (fun _ => consumeIdentifier) [k] rest k :=
  Rd.of (Reads.consumeIdentifier h.1 h.2) h.next

theorem Rd.ignore_yes (h : Tok t k) : Rd doc [] (fun _ => consumeOrIgnore t) [k] rest (some k) :=
  Rd.of (Reads.ignore_yes h.1 h.2) h.next

theorem Rd.oneOf_yes (h : Tok t k) {l : List TT} (ht : t ∈ l) :
    Rd doc [] (fun _ => consumeOneOfOrIgnore l) [k] rest (some k) :=
  Rd.of (Reads.oneOf_yes h.1 (by rw [h.2]; exact ht)) h.next

theorem Rd.consumeOneOf (h : Tok t k) {l : List TT} (ht : t ∈ l) : Rd doc [] (fun _ => consumeOneOf l) [k] rest k :=
  Rd.of (Reads.consumeOneOf h.1 (by rw [h.2]; exact ht)) h.next

theorem Rd.ffAfter_yes (h : Tok t k) {l : List TT} : Rd doc [] (fun _ => consumeOrFfAfter t l) [k] rest () :=
  Rd.of (Reads.ffAfter_yes h.1 h.2) h.next

theorem Rd.ffBefore_yes (h : Tok t k) {l : List TT} : Rd doc [] (fun _ => consumeOrFfBefore t l) [k] rest k :=
  Rd.of (Reads.ffBefore_yes h.1 h.2) h.next

theorem Rd.endOfStatement (h : Tok .semicolon k) : Rd doc [] (fun _ => consumeEndOfStatement) [k] rest () := by
  unfold consumeEndOfStatement
  exact Rd.bind1 (ts := []) (Rd.of (Reads.takeOr_yes h.1 (by simp [h.2])) h.next) Rd.pure

theorem Rd.takeIf_yes {f : Token → Bool} (h : Plain k) (hf : f k = true) :
    Rd doc [] (fun _ => takeIf f) [k] rest (some k) :=
  Rd.of (p := fun _ => true) (Reads.takeIf_yes h hf) ⟨k, rest, rfl, h, rfl⟩

theorem Rd.nextOneOf_yes {l : List TT} (h : Next rest p) (hl : ∀ t, p t = true → t ∈ l) :
    Rd doc [] (fun _ => nextOneOf l) [] rest true := by
  refine Rd.of (p := p) ?_ h
  obtain ⟨k, r, rfl, h1, h2⟩ := h
  exact Reads.nextOneOf_yes h1 (hl _ h2)

theorem Rd.nextOneOf_tok {l : List TT} (h : Tok t k) (hl : t ∈ l) :
    Rd doc [] (fun _ => nextOneOf l) [] (k :: rest) true :=
  Rd.of (Reads.nextOneOf_yes h.1 (by rw [h.2]; exact hl)) h.next

theorem Rd.peek (h : Next rest p) : ∃ k r, rest = k :: r ∧ Plain k ∧ p k.t = true ∧
    Rd doc [] (fun _ => peek) [] rest (some k) := by
  obtain ⟨k, r, rfl, h1, h2⟩ := h
  exact ⟨k, r, rfl, h1, h2, Rd.of (Reads.peek h1) ⟨k, r, rfl, h1, h2⟩⟩

/-! ## Tokens that are not there -/

/-- A run that only looks at the next token. -/
theorem Rd.ofPeek {f : Rec → P α} {a : α} (h : Ahead rest p)
    (h1 : ∀ k s s' n, peekOn s.toks s = (some k, s') → p k.t = true → f (knot doc n) s = .ok a s')
    (h2 : ∀ s s' n, peekOn s.toks s = (none, s') → f (knot doc n) s = .ok a s') : Rd doc [] f [] rest a := by
  intro s hd hc hs
  rcases h with hn | h
  · have e := hs.next hn
    obtain ⟨k, r, e1, h3, h4⟩ := hn
    exact ⟨s, hs, hd, hc, rfl, 0, fun n _ => h1 k s s n (peekOn_plain h3 (e.trans e1)) h4⟩
  · have key : s.toks = [] ∨ ∃ e : Token, s.toks = [e] ∧ e.t = .eof := by
      rcases hs with hs | ⟨hs, -⟩
      · rcases h with h | ⟨e, h, he⟩
        · exact .inl (hs.trans h)
        · exact .inr ⟨e, hs.trans h, he⟩
      · exact .inl hs
    have hp : peekOn s.toks s = (none, { s with toks := [] }) := by
      rcases key with key | ⟨e, key, he⟩
      · rw [key]; rfl
      · rw [key]; simp [peekOn, he]
    refine ⟨{ s with toks := [] }, ?_, hd, hc, rfl, 0, fun n _ => h2 s _ n hp⟩
    rcases h with h | ⟨e, h, he⟩
    · exact .inl h.symm
    · exact .inr ⟨rfl, e, h, he⟩

theorem Rd.takeIf_no {f : Token → Bool} (h : Ahead rest p) (hf : ∀ k : Token, p k.t = true → f k = false) :
    Rd doc [] (fun _ => takeIf f) [] rest none :=
  Rd.ofPeek h (fun k _ _ _ e hk => PhpLs.Parser.takeIf_no e (hf k hk)) (fun _ _ _ e => PhpLs.Parser.takeIf_none e)

theorem Rd.ignore_no (h : Ahead rest p) (hp : p t = false) : Rd doc [] (fun _ => consumeOrIgnore t) [] rest none :=
  Rd.takeIf_no h fun k hk => by
    cases hkt : k.t == t with
    | false => rfl
    | true => rw [eq_of_beq hkt, hp] at hk; cases hk

theorem not_contains {l : List TT} (hp : l.all (fun t => !p t) = true) {k : Token} (hk : p k.t = true) :
    l.contains k.t = false := by
  cases hc : l.contains k.t with
  | false => rfl
  | true =>
    have := List.all_eq_true.1 hp k.t (by simpa using hc)
    rw [hk] at this
    cases this

theorem Rd.oneOf_no (h : Ahead rest p) {l : List TT} (hp : l.all (fun t => !p t) = true) :
    Rd doc [] (fun _ => consumeOneOfOrIgnore l) [] rest none :=
  Rd.takeIf_no h fun _ hk => not_contains hp hk

theorem Rd.nextOneOf_no (h : Ahead rest p) {l : List TT} (hp : l.all (fun t => !p t) = true) :
    Rd doc [] (fun _ => nextOneOf l) [] rest false :=
  Rd.ofPeek h (fun _ _ _ _ e hk => (PhpLs.Parser.nextIs_some e).trans (by rw [not_contains hp hk]))
    (fun _ _ _ e => PhpLs.Parser.nextIs_none e)

theorem Rd.hereDocBody_no (h : Ahead rest p) (hp : p .hereDocStart = false) :
    Rd doc [] (fun _ => hereDocBody) [] rest none := by
  unfold hereDocBody
  exact Rd.bind0 (ts := []) (Rd.nextOneOf_no h (by simp [hp])) Rd.pure

/-! ## Doc comments -/

theorem Rd.popDoc_none : Rd doc [] (fun r => popDoc r.doc) [] rest none := by
  intro s hd hc hs
  refine ⟨s, hs, hd, hc, rfl, 0, fun n _ => ?_⟩
  show popDoc _ s = _
  unfold popDoc
  rw [hd]

theorem knot_doc (n : Nat) : (knot doc n).doc = doc := by cases n <;> rfl

theorem Rd.drain : Rd doc [] (fun r => drainDocs r.doc) [] rest [] := by
  intro s hd hc hs
  refine ⟨s, hs, hd, hc, rfl, 0, fun n _ => ?_⟩
  show drainDocs _ s = _
  unfold drainDocs
  rw [hd]
  obtain ⟨a, b, c, d, e, f⟩ := s
  cases hd
  rfl

/-- What waits for a declaration: nothing, or one comment and what is read from it. -/
inductive Waits (doc : Token → Option Node) : List Token → Option Node → Prop where
  | none : Waits doc [] none
  | one {c : Token} {n : Node} (h : doc c = some n) : Waits doc [c] (some n)

theorem Rd.popDoc {o : Option Node} (h : Waits doc d o) : Rd doc d (fun r => popDoc r.doc) [] rest o := by
  cases h with
  | none => exact Rd.popDoc_none
  | one hc =>
    rename_i c x
    intro s hd hctx hs
    refine ⟨{ s with docs := [] }, hs, rfl, hctx, rfl, 0, fun n _ => ?_⟩
    show Parser.popDoc _ s = _
    unfold Parser.popDoc
    rw [hd]
    simp only [knot_doc, hc]

/-- A comment a declaration can carry. -/
structure Comment (c : Token) : Prop where
  type : c.t = .multilineComment

/-- A comment in front of the next token waits as soon as that token is looked at. -/
theorem peekOn_comment {c k : Token} {s : PSt} {r : List Token} (hc : Comment c) (hk : Plain k) (hs : s.toks = c :: k :: r) :
    peekOn s.toks s = (some k, { s with docs := c :: s.docs, toks := k :: r }) := by
  rw [hs]
  have h := peekOn_plain (s := { s with docs := c :: s.docs, toks := k :: r }) hk rfl
  have e : peekOn (c :: k :: r) s = peekOn (k :: r) { s with docs := c :: s.docs } := by
    simp [peekOn, hc.type]
  rw [e]
  obtain ⟨h1, h2, h3⟩ := solid_iff.1 hk.solid
  simp [peekOn, hk.noEof, h1, h2, h3, isTrivia]

end PhpLs.Parser
