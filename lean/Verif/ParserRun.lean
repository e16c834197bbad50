import Verif.ParserLemmas

/-!
# Reading tokens: runs of the parser without errors

`Reads doc f ts rest a` says that the grammar function `f`, given enough fuel, reads exactly the tokens `ts` if `rest` follows
them, returns `a`, and neither reports an error nor touches anything but the remaining tokens (and the range of the last
token).  The lemmas of this file compose such statements along the code of the grammar.
-/

namespace PhpLs.Parser

open PhpLs

/-- A token `peek` and `next` hand out: no comment, no line break, not the end of the file, and with a range. -/
structure Plain (k : Token) : Prop where
  solid : solid k = true
  noEof : k.t ≠ .eof
  range : ∃ rg, k.range = some rg

/-- The parts of the state a run without errors keeps. -/
structure Keeps (s s' : PSt) : Prop where
  docs : s'.docs = s.docs
  errors : s'.errors = s.errors
  ctx : s'.ctx = s.ctx
  eof : s'.eof = s.eof

theorem Keeps.refl (s : PSt) : Keeps s s := ⟨rfl, rfl, rfl, rfl⟩

theorem Keeps.trans {a b c : PSt} (h : Keeps a b) (h' : Keeps b c) : Keeps a c :=
  ⟨h'.docs.trans h.docs, h'.errors.trans h.errors, h'.ctx.trans h.ctx, h'.eof.trans h.eof⟩

/-- With enough fuel, `f` reads `ts` off the front of `ts ++ rest`, returns `a` and keeps everything else. -/
def Reads (doc : Token → Option Node) (f : Rec → P α) (ts rest : List Token) (a : α) : Prop :=
  ∀ s : PSt, s.toks = ts ++ rest →
    ∃ s' : PSt, s'.toks = rest ∧ Keeps s s' ∧ ∃ n0, ∀ n, n0 ≤ n → f (knot doc n) s = .ok a s'

/-- The same for a loop. -/
def LoopReads (doc : Token → Option Node) (site : Site) (body : Rec → β → P (β ⊕ α)) (b : β) (ts rest : List Token)
    (a : α) : Prop :=
  ∀ s : PSt, s.toks = ts ++ rest →
    ∃ s' : PSt, s'.toks = rest ∧ Keeps s s' ∧
      ∃ n0, ∀ n m, n0 ≤ n → n0 ≤ m → loopP site m (body (knot doc n)) b s = .ok a s'

variable {doc : Token → Option Node} {α β : Type} {ts us rest : List Token} {k : Token}

theorem Reads.pure {a : α} : Reads doc (fun _ => Pure.pure a) [] rest a :=
  fun s hs => ⟨s, hs, .refl s, 0, fun _ _ => rfl⟩

theorem Reads.bind {f : Rec → P α} {g : Rec → α → P β} {a : α} {b : β} (h1 : Reads doc f ts (us ++ rest) a)
    (h2 : Reads doc (fun r => g r a) us rest b) : Reads doc (fun r => f r >>= g r) (ts ++ us) rest b := by
  intro s hs
  obtain ⟨s1, ht1, hk1, n1, hn1⟩ := h1 s (by rw [hs, List.append_assoc])
  obtain ⟨s2, ht2, hk2, n2, hn2⟩ := h2 s1 ht1
  refine ⟨s2, ht2, hk1.trans hk2, max n1 n2, fun n hn => ?_⟩
  refine (bind_ok (hn1 n (by omega))).trans ?_
  exact hn2 n (by omega)

/-- A step that reads nothing. -/
theorem Reads.bind0 {f : Rec → P α} {g : Rec → α → P β} {a : α} {b : β} (h1 : Reads doc f [] (ts ++ rest) a)
    (h2 : Reads doc (fun r => g r a) ts rest b) : Reads doc (fun r => f r >>= g r) ts rest b :=
  Reads.bind (ts := []) h1 h2

/-- A step that reads one token. -/
theorem Reads.bind1 {f : Rec → P α} {g : Rec → α → P β} {a : α} {b : β} (h1 : Reads doc f [k] (ts ++ rest) a)
    (h2 : Reads doc (fun r => g r a) ts rest b) : Reads doc (fun r => f r >>= g r) (k :: ts) rest b :=
  Reads.bind (ts := [k]) h1 h2

/-- The last step. -/
theorem Reads.bind_last {f : Rec → P α} {g : Rec → α → P β} {a : α} {b : β} (h1 : Reads doc f ts rest a)
    (h2 : Reads doc (fun r => g r a) [] rest b) : Reads doc (fun r => f r >>= g r) ts rest b := by
  have := Reads.bind (us := []) h1 h2
  rwa [List.append_nil] at this

theorem Reads.loop {site : Site} {body : Rec → β → P (β ⊕ α)} {b : β} {a : α}
    (h : LoopReads doc site body b ts rest a) : Reads doc (fun r => loopP site r.fuel (body r) b) ts rest a := by
  intro s hs
  obtain ⟨s', ht, hk, n0, hn⟩ := h s hs
  refine ⟨s', ht, hk, n0 + 1, fun n hnn => ?_⟩
  cases n with
  | zero => omega
  | succ n => exact hn (n + 1) (n + 1) (by omega) (by omega)

theorem LoopReads.step {site : Site} {body : Rec → β → P (β ⊕ α)} {b b' : β} {a : α}
    (h1 : Reads doc (fun r => body r b) ts (us ++ rest) (.inl b')) (h2 : LoopReads doc site body b' us rest a) :
    LoopReads doc site body b (ts ++ us) rest a := by
  intro s hs
  obtain ⟨s1, ht1, hk1, n1, hn1⟩ := h1 s (by rw [hs, List.append_assoc])
  obtain ⟨s2, ht2, hk2, n2, hn2⟩ := h2 s1 ht1
  refine ⟨s2, ht2, hk1.trans hk2, max n1 n2 + 1, fun n m hn hm => ?_⟩
  cases m with
  | zero => omega
  | succ m =>
    unfold loopP
    refine (bind_ok (hn1 n (by omega))).trans ?_
    exact hn2 n m (by omega) (by omega)

theorem LoopReads.stop {site : Site} {body : Rec → β → P (β ⊕ α)} {b : β} {a : α}
    (h1 : Reads doc (fun r => body r b) ts rest (.inr a)) : LoopReads doc site body b ts rest a := by
  intro s hs
  obtain ⟨s1, ht1, hk1, n1, hn1⟩ := h1 s hs
  refine ⟨s1, ht1, hk1, n1 + 1, fun n m hn hm => ?_⟩
  cases m with
  | zero => omega
  | succ m =>
    unfold loopP
    exact (bind_ok (hn1 n (by omega))).trans rfl

/-! ## The entry points of the recursion -/

theorem Reads.expression {b : Nat} {a : Node} (h : Reads doc (fun r => expressionF r b) ts rest a) :
    Reads doc (fun r => r.expression b) ts rest a := by
  intro s hs
  obtain ⟨s', ht, hk, n0, hn⟩ := h s hs
  refine ⟨s', ht, hk, n0 + 1, fun n hnn => ?_⟩
  cases n with
  | zero => omega
  | succ n => exact hn n (by omega)

theorem Reads.call {a : Node} (h : Reads doc callF ts rest a) : Reads doc (fun r => r.call) ts rest a := by
  intro s hs
  obtain ⟨s', ht, hk, n0, hn⟩ := h s hs
  refine ⟨s', ht, hk, n0 + 1, fun n hnn => ?_⟩
  cases n with
  | zero => omega
  | succ n => exact hn n (by omega)

theorem Reads.statement {a : Node} (h : Reads doc statementF ts rest a) : Reads doc (fun r => r.statement) ts rest a := by
  intro s hs
  obtain ⟨s', ht, hk, n0, hn⟩ := h s hs
  refine ⟨s', ht, hk, n0 + 1, fun n hnn => ?_⟩
  cases n with
  | zero => omega
  | succ n => exact hn n (by omega)

/-! ## Token helpers -/

section
variable {f : Token → Bool}

theorem takeFront_plain {a : α} {s : PSt} (hk : Plain k) (hs : s.toks = k :: rest) :
    ∃ s', s'.toks = rest ∧ Keeps s s' ∧ takeFront k s a = .ok a s' := by
  obtain ⟨rg, hr⟩ := hk.range
  refine ⟨{ s with endPrev := rg, toks := s.toks.tail }, by rw [hs]; rfl, ⟨rfl, rfl, rfl, rfl⟩, ?_⟩
  unfold takeFront
  rw [hr]

theorem peekOn_plain {s : PSt} (hk : Plain k) (hs : s.toks = k :: rest) : peekOn s.toks s = (some k, s) :=
  peekOn_front hs hk.solid hk.noEof

theorem Reads.next (hk : Plain k) : Reads doc (fun _ => next) [k] rest (some k) := by
  intro s hs
  obtain ⟨s', h1, h2, h3⟩ := takeFront_plain (a := some k) hk hs
  exact ⟨s', h1, h2, 0, fun _ _ => (next_front hs hk.solid).trans h3⟩

theorem Reads.peek (hk : Plain k) : Reads doc (fun _ => peek) [] (k :: rest) (some k) := by
  intro s hs
  refine ⟨s, hs, .refl s, 0, fun _ _ => ?_⟩
  show PhpLs.Parser.peek s = _
  rw [peek_run, peekOn_plain hk hs]

theorem Reads.takeIf_yes (hk : Plain k) (hf : f k = true) : Reads doc (fun _ => takeIf f) [k] rest (some k) := by
  intro s hs
  obtain ⟨s', h1, h2, h3⟩ := takeFront_plain (a := some k) hk hs
  exact ⟨s', h1, h2, 0, fun _ _ => (PhpLs.Parser.takeIf_yes (peekOn_plain hk hs) hf).trans h3⟩

theorem Reads.takeIf_no (hk : Plain k) (hf : f k = false) : Reads doc (fun _ => takeIf f) [] (k :: rest) none := by
  intro s hs
  exact ⟨s, hs, .refl s, 0, fun _ _ => PhpLs.Parser.takeIf_no (peekOn_plain hk hs) hf⟩

theorem Reads.takeOr_yes (hk : Plain k) (hf : f k = true) :
    Reads doc (fun _ => takeOr f) [k] rest (some (k, true)) := by
  intro s hs
  obtain ⟨s', h1, h2, h3⟩ := takeFront_plain (a := some (k, true)) hk hs
  exact ⟨s', h1, h2, 0, fun _ _ => (PhpLs.Parser.takeOr_yes (peekOn_plain hk hs) hf).trans h3⟩

theorem Reads.takeOr_no (hk : Plain k) (hf : f k = false) :
    Reads doc (fun _ => takeOr f) [] (k :: rest) (some (k, false)) := by
  intro s hs
  exact ⟨s, hs, .refl s, 0, fun _ _ => PhpLs.Parser.takeOr_no (peekOn_plain hk hs) hf⟩

theorem Reads.nextIs (hk : Plain k) : Reads doc (fun _ => nextIs f) [] (k :: rest) (f k) := by
  intro s hs
  exact ⟨s, hs, .refl s, 0, fun _ _ => PhpLs.Parser.nextIs_some (peekOn_plain hk hs)⟩

theorem Reads.takeOrMissing (hk : Plain k) (hf : f k = true) :
    Reads doc (fun _ => takeOrMissing f) [k] rest (k, false) := by
  intro s hs
  obtain ⟨s', h1, h2, h3⟩ := takeFront_plain (a := (k, false)) hk hs
  exact ⟨s', h1, h2, 0, fun _ _ => (PhpLs.Parser.takeOrMissing_yes (peekOn_plain hk hs) hf).trans h3⟩

end

theorem Reads.consume (hk : Plain k) {t : TT} (ht : k.t = t) : Reads doc (fun _ => consume t) [k] rest k := by
  unfold PhpLs.Parser.consume
  exact Reads.bind_last (Reads.takeOrMissing hk (by simp [ht])) Reads.pure

theorem Reads.consumeIdentifier (hk : Plain k) (ht : k.isIdentifier = true) :
    Reads doc (fun _ => consumeIdentifier) [k] rest k := by
  unfold PhpLs.Parser.consumeIdentifier
  exact Reads.bind_last (Reads.takeOrMissing hk ht) Reads.pure

theorem Reads.ignore_yes (hk : Plain k) {t : TT} (ht : k.t = t) :
    Reads doc (fun _ => consumeOrIgnore t) [k] rest (some k) := Reads.takeIf_yes hk (by simp [ht])

theorem Reads.ignore_no (hk : Plain k) {t : TT} (ht : k.t ≠ t) :
    Reads doc (fun _ => consumeOrIgnore t) [] (k :: rest) none := Reads.takeIf_no hk (by simp [ht])

theorem Reads.oneOf_yes (hk : Plain k) {l : List TT} (ht : k.t ∈ l) :
    Reads doc (fun _ => consumeOneOfOrIgnore l) [k] rest (some k) := Reads.takeIf_yes hk (by simp [ht])

theorem Reads.oneOf_no (hk : Plain k) {l : List TT} (ht : k.t ∉ l) :
    Reads doc (fun _ => consumeOneOfOrIgnore l) [] (k :: rest) none := Reads.takeIf_no hk (by simp [ht])

theorem Reads.nextOneOf_yes (hk : Plain k) {l : List TT} (ht : k.t ∈ l) :
    Reads doc (fun _ => nextOneOf l) [] (k :: rest) true := by
  have := Reads.nextIs (doc := doc) (f := fun k => l.contains k.t) (rest := rest) hk
  have e : l.contains k.t = true := by simp [ht]
  rwa [e] at this

theorem Reads.nextOneOf_no (hk : Plain k) {l : List TT} (ht : k.t ∉ l) :
    Reads doc (fun _ => nextOneOf l) [] (k :: rest) false := by
  have := Reads.nextIs (doc := doc) (f := fun k => l.contains k.t) (rest := rest) hk
  have e : l.contains k.t = false := by simp [ht]
  rwa [e] at this

theorem Reads.ffAfter_yes (hk : Plain k) {t : TT} {l : List TT} (ht : k.t = t) :
    Reads doc (fun _ => consumeOrFfAfter t l) [k] rest () := by
  unfold consumeOrFfAfter
  exact Reads.bind_last (Reads.takeOr_yes hk (by simp [ht])) Reads.pure

theorem Reads.hereDocBody_no (hk : Plain k) (ht : k.t ≠ .hereDocStart) :
    Reads doc (fun _ => hereDocBody) [] (k :: rest) none := by
  intro s hs
  obtain ⟨s', h1, h2, n0, hn⟩ := Reads.nextOneOf_no (doc := doc) hk (l := [.hereDocStart]) (by simpa using ht) s hs
  exact ⟨s', h1, h2, n0, fun n h => PhpLs.Parser.hereDocBody_no (hn n h)⟩

theorem Reads.ffBefore_yes (hk : Plain k) {t : TT} {l : List TT} (ht : k.t = t) :
    Reads doc (fun _ => consumeOrFfBefore t l) [k] rest k := by
  unfold consumeOrFfBefore
  exact Reads.bind_last (Reads.takeOr_yes hk (by simp [ht])) Reads.pure

theorem Reads.consumeMember (hk : Plain k) (ht : (k.isIdentifier || k.t == .variable) = true) :
    Reads doc (fun _ => consumeMember) [k] rest k := by
  unfold PhpLs.Parser.consumeMember
  refine Reads.bind_last (Reads.next hk) ?_
  simp only [ht, if_true]
  exact Reads.pure

theorem Reads.consumeOneOf (hk : Plain k) {l : List TT} (ht : k.t ∈ l) :
    Reads doc (fun _ => consumeOneOf l) [k] rest k := by
  unfold PhpLs.Parser.consumeOneOf
  refine Reads.bind_last (Reads.next hk) ?_
  have e : l.contains k.t = true := by simp [ht]
  simp only [e, if_true]
  exact Reads.pure

/-- Looking ahead reads nothing if the second token is not the wanted one. -/
theorem Reads.lookahead_no {f g : Token → Bool} {k' : Token} (hk : Plain k) (hk' : Plain k') (hg : g k' = false) :
    Reads doc (fun _ => lookahead f g) [] (k :: k' :: rest) none := by
  cases hf : f k with
  | false =>
    unfold lookahead
    exact Reads.bind0 (Reads.takeIf_no hk hf) Reads.pure
  | true =>
    intro s hs
    obtain ⟨s1, h1, h2, n1, h3⟩ := Reads.takeIf_yes (doc := doc) (rest := k' :: rest) hk hf s hs
    obtain ⟨s2, h4, h5, n2, h6⟩ := Reads.nextIs (doc := doc) (f := g) (rest := rest) hk' s1 h1
    refine ⟨{ s2 with toks := k :: s2.toks }, by rw [h4], ?_, max n1 n2, fun n hn => ?_⟩
    · have := h2.trans h5
      exact ⟨this.docs, this.errors, this.ctx, this.eof⟩
    · unfold lookahead
      refine (bind_ok (h3 n (by omega))).trans ?_
      refine (bind_ok (h6 n (by omega))).trans ?_
      rw [hg]
      rfl

/-- Looking ahead takes the first token if the second one is the wanted one. -/
theorem Reads.lookahead_yes {f g : Token → Bool} {k' : Token} (hk : Plain k) (hf : f k = true) (hk' : Plain k')
    (hg : g k' = true) : Reads doc (fun _ => lookahead f g) [k] (k' :: rest) (some k) := by
  unfold lookahead
  refine Reads.bind1 (ts := []) (Reads.takeIf_yes hk hf) ?_
  refine Reads.bind0 (Reads.nextIs hk') ?_
  simp only [hg]
  exact Reads.pure

/-- Reading in two different ways gives the same value: the parser is a function. -/
theorem Reads.unique {f : Rec → P α} {a b : α} {rest' ts' : List Token} (h1 : Reads doc f ts rest a)
    (h2 : Reads doc f ts' rest' b) (h : ts ++ rest = ts' ++ rest') : a = b ∧ rest = rest' := by
  let s : PSt := ⟨[], ts ++ rest, [], .out, (0, 0), ⟨0, 0, 0, 0⟩⟩
  obtain ⟨s1, ht1, -, n1, hn1⟩ := h1 s rfl
  obtain ⟨s2, ht2, -, n2, hn2⟩ := h2 s h
  have e1 := hn1 (max n1 n2) (by omega)
  have e2 := hn2 (max n1 n2) (by omega)
  rw [e1] at e2
  injection e2 with ea es
  subst es
  exact ⟨ea, ht1.symm.trans ht2⟩

end PhpLs.Parser
