import Verif.FlawSpec
import Verif.SyntaxSem

/-!
# Programs with missing semicolons: the calculus

`RdE doc d f ts rest a es` is `Rd` (`Verif/SyntaxRun.lean`) for runs that report exactly the errors `es`.
-/

namespace PhpLs.Parser

open PhpLs

/-- With enough fuel, `f` reads `ts` off the front of `ts ++ rest`, returns `a` and reports the errors `es`. -/
def RdE (doc : Token → Option Node) (d : List Token) (f : Rec → P α) (ts rest : List Token) (a : α) (es : List Err) : Prop :=
  ∀ s : PSt, s.docs = d → s.ctx = .script → Settled (ts ++ rest) s.toks →
    ∃ s' : PSt, Settled rest s'.toks ∧ s'.docs = [] ∧ s'.ctx = .script ∧ s'.errors = s.errors ++ es ∧
      ∃ n0, ∀ n, n0 ≤ n → f (knot doc n) s = .ok a s'

/-- The same for a loop. -/
def LoopRdE (doc : Token → Option Node) (site : Site) (body : Rec → β → P (β ⊕ α)) (b : β) (ts rest : List Token)
    (a : α) (es : List Err) : Prop :=
  ∀ s : PSt, s.docs = [] → s.ctx = .script → Settled (ts ++ rest) s.toks →
    ∃ s' : PSt, Settled rest s'.toks ∧ s'.docs = [] ∧ s'.ctx = .script ∧ s'.errors = s.errors ++ es ∧
      ∃ n0, ∀ n m, n0 ≤ n → n0 ≤ m → loopP site m (body (knot doc n)) b s = .ok a s'

variable {doc : Token → Option Node} {α β γ : Type} {ts us rest d : List Token} {k : Token} {p q : TT → Bool}
  {es es' : List Err}

theorem Rd.e {f : Rec → P α} {a : α} (h : Rd doc d f ts rest a) : RdE doc d f ts rest a [] := by
  intro s hd hc hs
  obtain ⟨s', h1, h2, h3, h4, h5⟩ := h s hd hc hs
  exact ⟨s', h1, h2, h3, by rw [h4, List.append_nil], h5⟩

theorem RdE.pure {a : α} : RdE doc [] (fun _ => Pure.pure a) [] rest a [] := Rd.pure.e

theorem RdE.bind {f : Rec → P α} {g : Rec → α → P β} {a : α} {b : β} (h1 : RdE doc d f ts (us ++ rest) a es)
    (h2 : RdE doc [] (fun r => g r a) us rest b es') : RdE doc d (fun r => f r >>= g r) (ts ++ us) rest b (es ++ es') := by
  intro s hd hc hs
  obtain ⟨s1, ht1, hd1, hc1, he1, n1, hn1⟩ := h1 s hd hc (by rwa [List.append_assoc] at hs)
  obtain ⟨s2, ht2, hd2, hc2, he2, n2, hn2⟩ := h2 s1 hd1 hc1 ht1
  refine ⟨s2, ht2, hd2, hc2, by rw [he2, he1, List.append_assoc], max n1 n2, fun n hn => ?_⟩
  refine (bind_ok (hn1 n (by omega))).trans ?_
  exact hn2 n (by omega)

/-- First a step without errors. -/
theorem Rd.then {f : Rec → P α} {g : Rec → α → P β} {a : α} {b : β} (h1 : Rd doc d f ts (us ++ rest) a)
    (h2 : RdE doc [] (fun r => g r a) us rest b es) : RdE doc d (fun r => f r >>= g r) (ts ++ us) rest b es :=
  RdE.bind (es := []) h1.e h2

theorem Rd.then0 {f : Rec → P α} {g : Rec → α → P β} {a : α} {b : β} (h1 : Rd doc d f [] (ts ++ rest) a)
    (h2 : RdE doc [] (fun r => g r a) ts rest b es) : RdE doc d (fun r => f r >>= g r) ts rest b es :=
  Rd.then (ts := []) h1 h2

theorem Rd.then1 {f : Rec → P α} {g : Rec → α → P β} {a : α} {b : β} (h1 : Rd doc d f [k] (ts ++ rest) a)
    (h2 : RdE doc [] (fun r => g r a) ts rest b es) : RdE doc d (fun r => f r >>= g r) (k :: ts) rest b es :=
  Rd.then (ts := [k]) h1 h2

/-- Then a step without errors. -/
theorem RdE.bindR {f : Rec → P α} {g : Rec → α → P β} {a : α} {b : β} (h1 : RdE doc d f ts (us ++ rest) a es)
    (h2 : Rd doc [] (fun r => g r a) us rest b) : RdE doc d (fun r => f r >>= g r) (ts ++ us) rest b es := by
  have := RdE.bind h1 h2.e
  rwa [List.append_nil] at this

/-- The last step, without errors. -/
theorem RdE.bind_last {f : Rec → P α} {g : Rec → α → P β} {a : α} {b : β} (h1 : RdE doc d f ts rest a es)
    (h2 : Rd doc [] (fun r => g r a) [] rest b) : RdE doc d (fun r => f r >>= g r) ts rest b es := by
  have := RdE.bindR (us := []) h1 h2
  rwa [List.append_nil] at this

theorem RdE.assoc {f : Rec → P α} {g : Rec → α → P β} {h : Rec → β → P γ} {a : γ}
    (H : RdE doc d (fun r => (f r >>= g r) >>= h r) ts rest a es) :
    RdE doc d (fun r => f r >>= fun x => g r x >>= h r) ts rest a es := by
  intro s hd hc hs
  obtain ⟨s', h1, h2, h3, h4, n0, hn⟩ := H s hd hc hs
  refine ⟨s', h1, h2, h3, h4, n0, fun n hnn => ?_⟩
  rw [← hn n hnn]
  show Bind.bind (m := P) _ _ s = Bind.bind (m := P) _ _ s
  simp only [Bind.bind, P.bind]
  cases f (knot doc n) s <;> rfl

/-- A step that touches no doc comment. -/
theorem RdE.after {f : Rec → P α} {g : Rec → α → P β} {a : α} {b : β} (h1 : Reads doc f ts (us ++ rest) a)
    (hn : Next (ts ++ (us ++ rest)) p) (h2 : RdE doc d (fun r => g r a) us rest b es) :
    RdE doc d (fun r => f r >>= g r) (ts ++ us) rest b es := by
  intro s hd hc hs
  obtain ⟨s1, ht1, hk1, n1, hn1⟩ := h1 s (by rw [List.append_assoc] at hs; exact hs.next hn)
  obtain ⟨s2, ht2, hd2, hc2, he2, n2, hn2⟩ := h2 s1 (by rw [hk1.docs, hd]) (by rw [hk1.ctx, hc]) (.inl ht1)
  refine ⟨s2, ht2, hd2, hc2, by rw [he2, hk1.errors], max n1 n2, fun n hn => ?_⟩
  refine (bind_ok (hn1 n (by omega))).trans ?_
  exact hn2 n (by omega)

theorem RdE.loop {site : Site} {body : Rec → β → P (β ⊕ α)} {b : β} {a : α}
    (h : LoopRdE doc site body b ts rest a es) : RdE doc [] (fun r => loopP site r.fuel (body r) b) ts rest a es := by
  intro s hd hc hs
  obtain ⟨s', ht, h1, h2, h3, n0, hn⟩ := h s hd hc hs
  refine ⟨s', ht, h1, h2, h3, n0 + 1, fun n hnn => ?_⟩
  cases n with
  | zero => omega
  | succ n => exact hn (n + 1) (n + 1) (by omega) (by omega)

theorem LoopRdE.step {site : Site} {body : Rec → β → P (β ⊕ α)} {b b' : β} {a : α}
    (h1 : RdE doc [] (fun r => body r b) ts (us ++ rest) (.inl b') es) (h2 : LoopRdE doc site body b' us rest a es') :
    LoopRdE doc site body b (ts ++ us) rest a (es ++ es') := by
  intro s hd hc hs
  obtain ⟨s1, ht1, hd1, hc1, he1, n1, hn1⟩ := h1 s hd hc (by rwa [List.append_assoc] at hs)
  obtain ⟨s2, ht2, hd2, hc2, he2, n2, hn2⟩ := h2 s1 hd1 hc1 ht1
  refine ⟨s2, ht2, hd2, hc2, by rw [he2, he1, List.append_assoc], max n1 n2 + 1, fun n m hn hm => ?_⟩
  cases m with
  | zero => omega
  | succ m =>
    unfold loopP
    refine (bind_ok (hn1 n (by omega))).trans ?_
    exact hn2 n m (by omega) (by omega)

theorem LoopRdE.stop {site : Site} {body : Rec → β → P (β ⊕ α)} {b : β} {a : α}
    (h1 : RdE doc [] (fun r => body r b) ts rest (.inr a) es) : LoopRdE doc site body b ts rest a es := by
  intro s hd hc hs
  obtain ⟨s1, ht1, hd1, hc1, he1, n1, hn1⟩ := h1 s hd hc hs
  refine ⟨s1, ht1, hd1, hc1, he1, n1 + 1, fun n m hn hm => ?_⟩
  cases m with
  | zero => omega
  | succ m =>
    unfold loopP
    exact (bind_ok (hn1 n (by omega))).trans rfl

theorem RdE.catchErr {f : Rec → P α} {g : Rec → α → P β} {e : Rec → Err → P β} {a : α} {b : β}
    (h1 : RdE doc d f ts (us ++ rest) a es) (h2 : Rd doc [] (fun r => g r a) us rest b) :
    RdE doc d (fun r => P.catchErr (f r) (g r) (e r)) (ts ++ us) rest b es := by
  intro s hd hc hs
  obtain ⟨s1, ht1, hd1, hc1, he1, n1, hn1⟩ := h1 s hd hc (by rwa [List.append_assoc] at hs)
  obtain ⟨s2, ht2, hd2, hc2, he2, n2, hn2⟩ := h2 s1 hd1 hc1 ht1
  refine ⟨s2, ht2, hd2, hc2, by rw [he2, he1], max n1 n2, fun n hn => ?_⟩
  show P.catchErr _ _ _ s = _
  unfold P.catchErr
  rw [hn1 n (by omega)]
  exact hn2 n (by omega)

theorem RdE.statement {a : Node} (h : RdE doc d statementF ts rest a es) : RdE doc d (fun r => r.statement) ts rest a es := by
  intro s hd hc hs
  obtain ⟨s', ht, h1, h2, h3, n0, hn⟩ := h s hd hc hs
  refine ⟨s', ht, h1, h2, h3, n0 + 1, fun n hnn => ?_⟩
  cases n with
  | zero => omega
  | succ n => exact hn n (by omega)

theorem RdE.scriptStatement {n : Node} (h : RdE doc d Parser.scriptStatement ts rest n es) :
    RdE doc d (fun r => r.statement) ts rest n es := by
  refine RdE.statement ?_
  intro s hd hc hs
  obtain ⟨s', h1, h2, h3, h4, n0, hn⟩ := h s hd hc hs
  refine ⟨s', h1, h2, h3, h4, n0, fun n hnn => ?_⟩
  unfold statementF
  refine (bind_ok (a := Ctx.script) (s' := s) ?_).trans (hn n hnn)
  show getCtx s = _
  unfold getCtx
  rw [hc]

/-! ## Recovery -/

theorem plain_kind (hk : Plain k) : k.t ≠ .multilineComment ∧ isTrivia k = false := by
  obtain ⟨h1, h2, h3⟩ := solid_iff.1 hk.solid
  simp [isTrivia, h1, h2, h3]

/-- `ffAfterOn` skips everything up to and including the first token it looks for. -/
theorem ffAfterOn_skip {l : List TT} {e : Token} (hu : Syntax.Skipped l us) (he : Plain e) (hl : e.t ∈ l) (s : PSt) :
    ∃ rg, ffAfterOn l (us ++ e :: rest) s = .ok () { s with endPrev := rg, toks := rest } := by
  induction us generalizing s with
  | nil =>
    obtain ⟨rg, hr⟩ := he.range
    obtain ⟨h1, h2⟩ := plain_kind he
    refine ⟨rg, ?_⟩
    show ffAfterOn l (e :: rest) s = _
    have hc : l.contains e.t = true := by simpa using hl
    simp only [ffAfterOn, hr, h1, h2, hc]
    simp
  | cons u us ih =>
    obtain ⟨hp, hn⟩ := hu u (List.mem_cons_self ..)
    obtain ⟨rg, hr⟩ := hp.range
    obtain ⟨h1, h2⟩ := plain_kind hp
    have hc : l.contains u.t = false := by simpa using hn
    obtain ⟨rg', h⟩ := ih (fun v hv => hu v (List.mem_cons_of_mem _ hv)) { s with endPrev := rg }
    refine ⟨rg', ?_⟩
    show ffAfterOn l (u :: (us ++ e :: rest)) s = _
    simp only [ffAfterOn, hr, h1, h2, hc]
    simpa using h

/-- `ffBeforeOn` skips everything in front of the first token it looks for. -/
theorem ffBeforeOn_skip {l : List TT} {e : Token} (hu : Syntax.Skipped l us) (he : Plain e) (hl : e.t ∈ l) (s : PSt) :
    ∃ rg, ffBeforeOn l (us ++ e :: rest) s = .ok () { s with endPrev := rg, toks := e :: rest } := by
  induction us generalizing s with
  | nil =>
    obtain ⟨h1, h2⟩ := plain_kind he
    refine ⟨s.endPrev, ?_⟩
    show ffBeforeOn l (e :: rest) s = _
    have hc : l.contains e.t = true := by simpa using hl
    simp only [ffBeforeOn, he.noEof, h1, h2, hc]
    simp
  | cons u us ih =>
    obtain ⟨hp, hn⟩ := hu u (List.mem_cons_self ..)
    obtain ⟨rg, hr⟩ := hp.range
    obtain ⟨h1, h2⟩ := plain_kind hp
    have hc : l.contains u.t = false := by simpa using hn
    obtain ⟨rg', h⟩ := ih (fun v hv => hu v (List.mem_cons_of_mem _ hv)) { s with endPrev := rg }
    refine ⟨rg', ?_⟩
    show ffBeforeOn l (u :: (us ++ e :: rest)) s = _
    simp only [ffBeforeOn, hp.noEof, hr, h1, h2, hc]
    simpa using h

/-- A missing token: what is found is reported, everything up to and including the next one of the list is lost. -/
theorem RdE.ffAfter {t : TT} {l : List TT} {x e : Token} (hx : Plain x) (ht : x.t ≠ t) (hu : Syntax.Skipped l (x :: us))
    (he : Plain e) (hl : e.t ∈ l) :
    RdE doc [] (fun _ => consumeOrFfAfter t l) (x :: (us ++ [e])) rest () [.wrongToken [t] x] := by
  intro s hd hc hs
  have hs' : s.toks = x :: (us ++ e :: rest) := by
    have := hs.next (p := fun _ => true) ⟨x, _, rfl, hx, rfl⟩
    simpa using this
  obtain ⟨rg, h⟩ := ffAfterOn_skip (rest := rest) hu he hl { s with errors := s.errors ++ [.wrongToken [t] x] }
  refine ⟨{ s with errors := s.errors ++ [.wrongToken [t] x], endPrev := rg, toks := rest }, .inl rfl, hd, hc, rfl, 0,
    fun n _ => ?_⟩
  unfold consumeOrFfAfter
  refine (bind_ok (PhpLs.Parser.takeOr_no (peekOn_plain hx hs') (by simpa using ht))).trans ?_
  show (pushErr (.wrongToken [t] x) >>= fun _ => PhpLs.Parser.ffAfter l) s = _
  refine (bind_ok (p := pushErr (.wrongToken [t] x)) (a := ()) (s' := { s with errors := s.errors ++ [.wrongToken [t] x] }) rfl).trans ?_
  rw [List.cons_append, ← hs'] at h
  exact h

/-- A missing end of an `echo`: what is found is reported, everything in front of the next token to stop at is lost. -/
theorem RdE.endHalt {x y : Token} (h : Syntax.Halt x us y) :
    RdE doc [] (fun _ => consumeEndOfStatement) us (y :: rest) () [Syntax.missingEnd x] := by
  intro s hd hc hs
  obtain ⟨r, hr⟩ := h.first
  have hx : Plain x := by
    cases us with
    | nil => cases hr; exact h.plain
    | cons u us => cases hr; exact (h.skip _ (List.mem_cons_self ..)).1
  have e1 : us ++ y :: rest = x :: (r ++ rest) := by
    have : us ++ y :: rest = us ++ [y] ++ rest := by simp
    rw [this, hr]
    rfl
  have hs' : s.toks = us ++ y :: rest := hs.next (p := fun _ => true) ⟨x, _, e1, hx, rfl⟩
  obtain ⟨rg, hf⟩ := ffBeforeOn_skip (rest := rest) h.skip h.plain h.sync s
  refine ⟨{ s with endPrev := rg, toks := y :: rest, errors := s.errors ++ [Syntax.missingEnd x] }, .inl rfl, hd, hc, rfl, 0,
    fun n _ => ?_⟩
  unfold consumeEndOfStatement
  refine (bind_ok (PhpLs.Parser.takeOr_no (peekOn_plain hx (hs'.trans e1)) (by simpa using h.no.1))).trans ?_
  refine (congrFun (if_neg h.no.2.1) _).trans ?_
  refine (bind_ok (a := ()) (s' := { s with endPrev := rg, toks := y :: rest }) ?_).trans rfl
  show ffBeforeOn syncSet s.toks s = _
  rw [hs']
  exact hf

end PhpLs.Parser
