import Verif.FlawRun

/-!
# Programs with missing semicolons: what the parser does with them

Every rule of `Has` (`Verif/FlawSpec.lean`) is a run of the parser that reports the errors of the rule.
-/

namespace PhpLs.Syntax

open PhpLs PhpLs.Parser PhpLs.Parser.Ex

variable {doc : Token → Option Node} {ts us vs ws rest : List Token} {k lp rp x e : Token} {n c b b' : Node} {ns : List Node}
  {p : TT → Bool} {t : TT} {o o' : Tail} {a a' : After} {es es' : List Err} {c' : Token}

/-! ## What the parts mean -/

/-- A statement. -/
structure StmtE (doc : Token → Option Node) (a : After) (ts : List Token) (n : Node) (es : List Err) : Prop where
  first : Next ts stmtStart
  reads : ∀ rest, a.Holds rest → RdE doc [] scriptStatement ts rest n es

/-- A statement in a list, with the comment in front of it. -/
def TopE (doc : Token → Option Node) (a : After) (ts : List Token) (n : Node) (es : List Err) : Prop :=
  ∃ cs us, ts = cs ++ us ∧ Lead cs ∧ Next us stmtStart ∧ ∀ rest, a.Holds rest → RdE doc cs scriptStatement us rest n es

/-- A list of statements. -/
inductive SeqE (doc : Token → Option Node) : After → List Token → List Node → List Err → Prop where
  | nil : SeqE doc (.tail .done) [] [] []
  | cons {a a' : After} {ts us : List Token} {n : Node} {ns : List Node} {es es' : List Err} (h : TopE doc a ts n es)
      (hm : SeqE doc a' us ns es') (hf : us = [] ∨ a.Holds us) : SeqE doc (lastAfter ns a a') (ts ++ us) (n :: ns) (es ++ es')

/-- A block. -/
structure BlockE (doc : Token → Option Node) (ts : List Token) (n : Node) (es : List Err) : Prop where
  first : Next ts (· == .openCurly)
  reads : ∀ rest, RdE doc [] Parser.block ts rest n es

theorem BlockE.next (h : BlockE doc ts n es) (hp : p .openCurly = true) : Next (ts ++ rest) p :=
  (h.first.mono fun t ht => by rw [eq_of_beq ht]; exact hp).append

/-- The body of a loop. -/
def BodyE (doc : Token → Option Node) (t : TT) (o : Tail) (ts : List Token) (n : Node) (es : List Err) : Prop :=
  ∀ rest, Follows o rest → RdE doc [] (fun r => alternativeBlockOrStatement r t) ts rest n es

/-- A function behind its name. -/
def FuncE (doc : Token → Option Node) (d : Option Node) (ts : List Token) (n : Node) (es : List Err) : Prop :=
  ∀ rest, RdE doc [] (fun r => anonymousFunctionStatement r d) ts rest n es

/-- A declaration. -/
def DeclE (doc : Token → Option Node) (d : Option Node) (as : List Node) (ts : List Token) (n : Node) (es : List Err) : Prop :=
  ∃ k r, ts = k :: r ∧ Plain k ∧ k.t ∈ declStart ∧
    ∀ ds rest, Waits doc ds d → RdE doc ds (fun r' => dispatch r' as k.t) ts rest n es

/-- A member of a class. -/
structure MemberE (doc : Token → Option Node) (d : Option Node) (as : List Node) (ts : List Token) (n : Node) (es : List Err) :
    Prop where
  first : Next ts memberStart
  reads : ∀ rest, RdE doc [] (fun r => classMember r d as) ts rest n es

/-- A member in the body of a class, with the comment in front of it. -/
def EntryE (doc : Token → Option Node) (ts : List Token) (n : Node) (es : List Err) : Prop :=
  ∃ cs us, ts = cs ++ us ∧ Lead cs ∧ Next us (· != .closeCurly) ∧ ∀ rest, RdE doc cs classBlockStatement us rest n es

/-- The members of a class. -/
inductive EntriesE (doc : Token → Option Node) : List Token → List Node → List Err → Prop where
  | nil : EntriesE doc [] [] []
  | cons {ts us : List Token} {n : Node} {ns : List Node} {es es' : List Err} (h : EntryE doc ts n es)
      (hm : EntriesE doc us ns es') : EntriesE doc (ts ++ us) (n :: ns) (es ++ es')

/-- The body of a class. -/
structure ClassE (doc : Token → Option Node) (ts : List Token) (n : Node) (es : List Err) : Prop where
  first : Next ts (· == .openCurly)
  reads : ∀ rest, RdE doc [] classBlock ts rest n es

theorem ClassE.next (h : ClassE doc ts n es) (hp : p .openCurly = true) : Next (ts ++ rest) p :=
  (h.first.mono fun t ht => by rw [eq_of_beq ht]; exact hp).append

/-! ## Lists of statements -/

theorem StmtE.statement (h : StmtE doc (.tail o) ts n es) (hf : Follows o rest) :
    RdE doc [] (fun r => r.statement) ts rest n es := RdE.scriptStatement (h.reads rest hf)

theorem StmtE.top (h : StmtE doc a ts n es) : TopE doc a ts n es := ⟨[], ts, rfl, .inl rfl, h.first, h.reads⟩

theorem After.Holds.append (h : a.Holds us) (hu : Next us p ∨ ∃ c r, us = c :: r ∧ Comment c) : a.Holds (us ++ rest) := by
  cases a with
  | tail o => exact Follows.append (o := o) h hu
  | stop y =>
    obtain ⟨r, rfl⟩ := h
    exact ⟨r ++ rest, rfl⟩

theorem SeqE.empty (h : SeqE doc a ts [] es) : a = .tail .done ∧ ts = [] ∧ es = [] := by
  cases h with
  | nil => exact ⟨rfl, rfl, rfl⟩

theorem SeqE.first (h : SeqE doc a ts ns es) (hn : ns ≠ []) : Next ts stmtStart ∨ ∃ c r, ts = c :: r ∧ Comment c := by
  cases h with
  | nil => exact absurd rfl hn
  | cons h _ _ =>
    obtain ⟨cs, us, rfl, hc, h1, -⟩ := h
    rcases hc with rfl | ⟨c, rfl, hc⟩
    · exact .inl h1.append
    · exact .inr ⟨c, _, rfl, hc⟩

/-- The loops over statements. -/
theorem SeqE.loop {site : Site} {body : Rec → List Node → P (List Node ⊕ List Node)} (h : SeqE doc a ts ns es)
    (hstep : ∀ acc a ts n es rest, TopE doc a ts n es → a.Holds rest →
      RdE doc [] (fun r => body r acc) ts rest (.inl (acc ++ [n])) es)
    (hstop : ∀ acc, Rd doc [] (fun r => body r acc) [] rest (.inr acc)) (hf : a.Holds rest) (acc : List Node) :
    LoopRdE doc site body acc ts rest (acc ++ ns) es := by
  induction h generalizing acc with
  | nil =>
    rw [List.append_nil]
    exact LoopRdE.stop (hstop acc).e
  | @cons a a' ts us n ns es es' h hm hfu ih =>
    have ihh : a'.Holds rest → LoopRdE doc site body (acc ++ [n]) us rest (acc ++ n :: ns) es' := fun hf' => by
      have := ih hf' (acc ++ [n])
      rwa [List.append_assoc] at this
    cases ns with
    | nil =>
      obtain ⟨rfl, rfl, rfl⟩ := hm.empty
      exact LoopRdE.step (hstep acc a ts n es rest h hf) (ihh trivial)
    | cons m ns =>
      have h1 := hm.first (fun e => nomatch e)
      refine LoopRdE.step (hstep acc a ts n es _ h ?_) (ihh hf)
      rcases hfu with rfl | hfu
      · rcases h1 with ⟨k, r, e, -⟩ | ⟨c, r, e, -⟩ <;> cases e
      · exact hfu.append h1

/-- A look at the next token that says no moves the comment in front of it to the waiting ones. -/
theorem RdE.first_no {α : Type} {cs : List Token} {g : Rec → Bool → P α} {v : α} {l : List TT} (hc : Lead cs)
    (hn : Next (ts ++ rest) p) (hl : l.all (fun t => !p t) = true) (h : RdE doc cs (fun r => g r false) ts rest v es) :
    RdE doc [] (fun r => nextOneOf l >>= g r) (cs ++ ts) rest v es := by
  intro s hd hctx hs
  obtain ⟨k, r, e, hk, hp⟩ := hn
  have hs' : s.toks = cs ++ k :: r := by
    rw [List.append_assoc, e] at hs
    rcases hs with hs | ⟨-, x, hx, hx'⟩
    · exact hs
    · rcases hc with rfl | ⟨c, rfl, hc⟩
      · cases hx
        exact absurd hx' hk.noEof
      · cases hx
  have hpk := peek_lead hc hk hd hs'
  obtain ⟨s', h1, h2, h3, h4, n0, hn⟩ := h { s with docs := cs, toks := k :: r } rfl hctx (.inl e.symm)
  refine ⟨s', h1, h2, h3, h4, n0, fun n hnn => ?_⟩
  refine (bind_ok ?_).trans (hn n hnn)
  exact (PhpLs.Parser.nextIs_some hpk).trans (by rw [not_contains hl hp])

theorem RdE.first_peek {α : Type} {cs : List Token} {g : Rec → Option Token → P α} {v : α} (hc : Lead cs)
    (hn : Next (ts ++ rest) p) (h : ∀ k, Plain k → p k.t = true → RdE doc cs (fun r => g r (some k)) ts rest v es) :
    RdE doc [] (fun r => peek >>= g r) (cs ++ ts) rest v es := by
  intro s hd hctx hs
  obtain ⟨k, r, e, hk, hp⟩ := hn
  have hs' : s.toks = cs ++ k :: r := by
    rw [List.append_assoc, e] at hs
    rcases hs with hs | ⟨-, x, hx, hx'⟩
    · exact hs
    · rcases hc with rfl | ⟨c, rfl, hc⟩
      · cases hx
        exact absurd hx' hk.noEof
      · cases hx
  have hpk := peek_lead hc hk hd hs'
  obtain ⟨s', h1, h2, h3, h4, n0, hn⟩ := h k hk hp { s with docs := cs, toks := k :: r } rfl hctx (.inl e.symm)
  refine ⟨s', h1, h2, h3, h4, n0, fun n hnn => ?_⟩
  refine (bind_ok ?_).trans (hn n hnn)
  exact (PhpLs.Parser.peek_run s).trans (by rw [hpk])

theorem statementInto_readsE {acc : List Node} {d : List Token} (h : RdE doc d Parser.scriptStatement ts rest n es) :
    RdE doc d (fun r => statementInto r acc) ts rest (acc ++ [n]) es := by
  have h1 : RdE doc d (fun r => P.catchErr r.statement
    (fun n => do
      let ds ← drainDocs r.doc
      pure (acc ++ ds ++ [n]))
    (fun e => do
      pushErr e
      errorFastForward
      pure acc)) (ts ++ []) rest (acc ++ [] ++ [n]) es :=
    RdE.catchErr (RdE.scriptStatement h) (Rd.bind0 (ts := []) Rd.drain Rd.pure)
  rw [List.append_nil, List.append_nil] at h1
  exact h1

theorem SeqE.until {site : Site} {stop : List TT} (h : SeqE doc a ts ns es) (hk : Next rest p)
    (hp : ∀ t, p t = true → t ∈ stop) (hl : stop.all (fun t => !stmtStart t) = true) (hf : a.Holds rest) :
    RdE doc [] (fun r => statementsUntil r site stop) ts rest ns es := by
  refine RdE.loop (h.loop (fun acc a ts n es rest h hf => ?_) (fun acc => ?_) hf [])
  · obtain ⟨cs, us, rfl, hc, h1, h2⟩ := h
    refine RdE.first_no hc h1.append hl ?_
    obtain ⟨k, r, rfl, hk, -⟩ := h1
    refine RdE.after (ts := []) (p := fun _ => true) (Reads.peek (rest := r ++ rest) hk) ⟨k, _, rfl, hk, rfl⟩ ?_
    exact RdE.bind_last (statementInto_readsE (h2 rest hf)) Rd.pure
  · exact Rd.bind0 (ts := []) (Rd.nextOneOf_yes hk hp) Rd.pure

theorem SeqE.plain {stop : List TT} (h : SeqE doc a ts ns es) (hk : Next rest p) (hp : ∀ t, p t = true → t ∈ stop)
    (hl : stop.all (fun t => !stmtStart t) = true) (hf : a.Holds rest) :
    RdE doc [] (fun r => plainStatements r stop) ts rest ns es := by
  refine RdE.loop (h.loop (fun acc a ts n es rest h hf => ?_) (fun acc => ?_) hf [])
  · obtain ⟨cs, us, rfl, hc, h1, h2⟩ := h
    refine RdE.first_no hc h1.append hl ?_
    exact RdE.bind_last (RdE.scriptStatement (h2 rest hf)) Rd.pure
  · exact Rd.bind0 (ts := []) (Rd.nextOneOf_yes hk hp) Rd.pure

theorem closed_holds {cc : Token} (h : a.Closed cc) (hr : Tok t cc) (ht : continues.contains t = false) :
    a.Holds (cc :: rest) := by
  cases a with
  | tail o => exact follows_tok (o := o) h hr ht
  | stop y =>
    have h : y = cc := h
    subst h
    exact ⟨rest, rfl⟩

theorem BlockE.mk' {oc cc : Token} (hl : Tok .openCurly oc) (h : SeqE doc a ts ns es) (ho : a.Closed cc)
    (hr : Tok .closeCurly cc) : BlockE doc (oc :: (ts ++ [cc])) (.block oc ns cc) es where
  first := hl.next
  reads rest := by
    unfold Parser.block
    refine Rd.then1 (Rd.consume hl) ?_
    refine RdE.bindR (h.until hr.next (tok_mem (by decide)) (by decide) (closed_holds ho hr (by decide))) ?_
    exact Rd.bind1 (ts := []) (Rd.consume hr) Rd.pure

theorem StmtE.body (h : StmtE doc (.tail o) ts n es) : BodyE doc t o ts n es := by
  intro rest hf
  unfold alternativeBlockOrStatement
  exact Rd.then0 (Rd.nextOneOf_no h.first.append.ahead (by decide)) (h.statement hf)

theorem alternative_readsE (hc : Tok .colon c') (h : SeqE doc a ts ns es) (ho : a.Closed k)
    (ht : t ∈ [TT.endWhile, .endFor, .endForeach, .endIf]) (hk : Tok t k) (he : Tok .semicolon e) (rest : List Token) :
    RdE doc [] (fun r => alternativeBlock r t) (c' :: (ts ++ [k, e])) rest (.alternativeBlock c' ns k) es := by
  have ht1 : t ∈ [TT.endFor, .endForeach, .endWhile, .endIf] := by
    simp only [List.mem_cons, List.not_mem_nil, or_false] at ht ⊢
    rcases ht with h | h | h | h <;> simp [h]
  have ht2 : continues.contains t = false := by
    have : ∀ t ∈ [TT.endWhile, .endFor, .endForeach, .endIf], continues.contains t = false := by decide
    exact this t ht
  unfold alternativeBlock
  refine Rd.then1 (Rd.consume hc) ?_
  refine RdE.bindR (h.until hk.next (tok_mem ht1) (by decide) (closed_holds ho hk ht2)) ?_
  refine Rd.bind1 (Rd.consume hk) ?_
  exact Rd.bind1 (ts := []) (Rd.consume he) Rd.pure

theorem BodyE.alternative (hc : Tok .colon c') (h : SeqE doc a ts ns es) (ho : a.Closed k)
    (ht : t ∈ [TT.endWhile, .endFor, .endForeach]) (hk : Tok t k) (he : Tok .semicolon e) :
    BodyE doc t .done (c' :: (ts ++ [k, e])) (.alternativeBlock c' ns k) es := by
  intro rest _
  unfold alternativeBlockOrStatement
  refine Rd.then0 (Rd.nextOneOf_tok hc (by decide)) (alternative_readsE hc h ho ?_ hk he rest)
  simp only [List.mem_cons, List.not_mem_nil, or_false] at ht ⊢
  rcases ht with h | h | h <;> simp [h]

/-! ## Statements -/

theorem stmt_ofE {k : Token} (hk : Plain k) (ha : k.t ≠ .attributeStart)
    (H : RdE doc [] (fun r => dispatch r [] k.t) (k :: ts) rest n es) :
    RdE doc [] Parser.scriptStatement (k :: ts) rest n es := by
  unfold Parser.scriptStatement
  refine Rd.then0 (AttrsRd.none.block ⟨k, _, rfl, hk, by simpa using ha⟩) ?_
  exact Rd.then0 (Rd.of (p := fun _ => true) (Reads.peek hk) ⟨k, _, rfl, hk, rfl⟩) H

theorem StmtE.mk' (hk : Tok t k) (ht : (stmtStart t && t != .attributeStart) = true)
    (H : ∀ rest, a.Holds rest → RdE doc [] (fun r => dispatch r [] t) (k :: ts) rest n es) : StmtE doc a (k :: ts) n es where
  first := ⟨k, ts, rfl, hk.1, by rw [hk.2]; exact (Bool.and_eq_true_iff.1 ht).1⟩
  reads rest hf := by
    refine stmt_ofE hk.1 ?_ ?_
    · rw [hk.2]; simpa using (Bool.and_eq_true_iff.1 ht).2
    · rw [hk.2]; exact H rest hf

theorem StmtRd.flawless (h : StmtRd doc o ts n) : StmtE doc (.tail o) ts n [] := ⟨h.first, fun rest hf => (h.reads rest hf).e⟩

theorem TopRd.flawless (h : TopRd doc o ts n) : TopE doc (.tail o) ts n [] := by
  obtain ⟨cs, us, h1, h2, h3, h4⟩ := h
  exact ⟨cs, us, h1, h2, h3, fun rest hf => (h4 rest hf).e⟩

theorem BlockRd.flawless (h : BlockRd doc ts n) : BlockE doc ts n [] := ⟨h.first, fun rest => (h.reads rest).e⟩

theorem BodyRd.flawless (h : BodyRd doc t o ts n) : BodyE doc t o ts n [] := fun rest hf => (h rest hf).e

theorem DeclRd.flawless {d : Option Node} {as : List Node} (h : DeclRd doc d as ts n) : DeclE doc d as ts n [] := by
  obtain ⟨k, r, h1, h2, h3, h4⟩ := h
  exact ⟨k, r, h1, h2, h3, fun ds rest hd => (h4 ds rest hd).e⟩

theorem MemberRd.flawless {d : Option Node} {as : List Node} (h : MemberRd doc d as ts n) : MemberE doc d as ts n [] :=
  ⟨h.first, fun rest => (h.reads rest).e⟩

theorem EntryRd.flawless (h : EntryRd doc ts n) : EntryE doc ts n [] := by
  obtain ⟨cs, us, h1, h2, h3, h4⟩ := h
  exact ⟨cs, us, h1, h2, h3, fun rest => (h4 rest).e⟩

theorem ClassRd.flawless (h : ClassRd doc ts n) : ClassE doc ts n [] := ⟨h.first, fun rest => (h.reads rest).e⟩

/-! ### Without their semicolon -/

theorem Lost.reads (h : Lost x us e) :
    RdE doc [] (fun _ => consumeOrFfAfter .semicolon [.semicolon]) (x :: (us ++ [e])) rest () [missing x] := by
  refine RdE.ffAfter h.first h.no ?_ h.semi.1 (by rw [h.semi.2]; decide)
  intro u hu
  rcases List.mem_cons.1 hu with rfl | hu
  · exact ⟨h.first, by simpa using h.no⟩
  · exact h.skip u hu

theorem Lost.next (h : Lost x us e) (hx : p x.t = true) : Next (x :: (us ++ [e]) ++ rest) p := ⟨x, _, rfl, h.first, hx⟩

theorem StmtE.ret (hk : Tok .kwReturn k) (h : DelRd doc ends ts n) (hl : Lost x us e) (hx : ends x.t = true) :
    StmtE doc (.tail .done) (k :: (ts ++ x :: (us ++ [e]))) (.returnStatement k (some n)) [missing x] := by
  refine .mk' hk (by decide) fun rest _ => ?_
  show RdE doc [] returnStatement _ _ _ _
  unfold returnStatement
  refine Rd.then1 (Rd.consume hk) ?_
  refine Rd.then0 (Rd.nextOneOf_no (p := exprStart) ?_ (by decide)) ?_
  · rw [List.append_assoc]; exact h.first.append.ahead
  refine Rd.then (h.reads _ (hl.next hx)) ?_
  exact RdE.bind_last hl.reads Rd.pure

theorem StmtE.throw (hk : Tok .kwThrow k) (h : DelRd doc ends ts n) (hl : Lost x us e) (hx : ends x.t = true) :
    StmtE doc (.tail .done) (k :: (ts ++ x :: (us ++ [e]))) (.throwStatement k n) [missing x] := by
  refine .mk' hk (by decide) fun rest _ => ?_
  show RdE doc [] throwStatement _ _ _ _
  unfold throwStatement
  refine Rd.then1 (Rd.consume hk) ?_
  refine Rd.then (h.reads _ (hl.next hx)) ?_
  exact RdE.bind_last hl.reads Rd.pure

theorem break_readsE (hk : Tok t k) (h : DelRd doc ends ts n) (hl : Lost x us e) (hx : ends x.t = true) (rest : List Token) :
    RdE doc [] (fun r => breakStatement r t) (k :: (ts ++ x :: (us ++ [e]))) rest (.tokenStatement k (some n)) [missing x] := by
  unfold breakStatement
  refine Rd.then1 (Rd.consume hk) ?_
  refine Rd.then0 (Rd.nextOneOf_no (p := exprStart) ?_ (by decide)) ?_
  · rw [List.append_assoc]; exact h.first.append.ahead
  refine Rd.then (h.reads _ (hl.next hx)) ?_
  exact RdE.bind_last hl.reads Rd.pure

theorem StmtE.jump (hk : Tok t k) (ht : t ∈ [TT.kwBreak, .kwContinue]) (h : DelRd doc ends ts n) (hl : Lost x us e)
    (hx : ends x.t = true) :
    StmtE doc (.tail .done) (k :: (ts ++ x :: (us ++ [e]))) (.tokenStatement k (some n)) [missing x] := by
  rcases List.mem_cons.1 ht with rfl | ht
  · exact .mk' hk (by decide) fun rest _ => break_readsE hk h hl hx rest
  · cases List.mem_singleton.1 ht
    exact .mk' hk (by decide) fun rest _ => break_readsE hk h hl hx rest

theorem StmtE.goto {w : Token} (hk : Tok .kwGoto k) (hw : Word w) (hl : Lost x us e) :
    StmtE doc (.tail .done) (k :: w :: x :: (us ++ [e])) (.gotoStatement k w) [missing x] := by
  refine .mk' hk (by decide) fun rest _ => ?_
  show RdE doc [] (fun _ => gotoStatement) _ _ _ _
  unfold gotoStatement
  refine Rd.then1 (Rd.consume hk) ?_
  refine Rd.then1 (Rd.consumeIdentifier hw) ?_
  exact RdE.bind_last hl.reads Rd.pure

theorem StmtE.doWhile {w : Token} (hk : Tok .kwDo k) (hb : StmtE doc (.tail o) us b es) (ho : o.Free) (hw : Tok .kwWhile w)
    (hp : Tok .openParenthesis lp) (hc : DelRd doc ends ts c) (hr : Tok .closeParenthesis rp) (hl : Lost x vs e) :
    StmtE doc (.tail .done) (k :: (us ++ w :: lp :: (ts ++ rp :: x :: (vs ++ [e])))) (.doWhileStatement k lp rp w c b)
      (es ++ [missing x]) := by
  refine .mk' hk (by decide) fun rest _ => ?_
  show RdE doc [] doWhileStatement _ _ _ _
  unfold doWhileStatement
  refine Rd.then1 (Rd.consume hk) ?_
  refine RdE.bind (hb.statement (follows_tok ho hw (by decide))) ?_
  refine Rd.then1 (Rd.consume hw) ?_
  refine Rd.then1 (Rd.consume hp) ?_
  refine Rd.then (hc.tok hr (by decide)) ?_
  refine Rd.then1 (Rd.consume hr) ?_
  exact RdE.bind_last hl.reads Rd.pure

theorem StmtE.namespace (hk : Tok .kwNamespace k) (h : Name ts n) (hl : Lost x us e)
    (hx : x.t ≠ .namespaceSeparator ∧ x.t ≠ .openCurly) :
    StmtE doc (.tail .done) (k :: (ts ++ x :: (us ++ [e]))) (.namespaceStatement k n) [missing x] := by
  refine .mk' hk (by decide) fun rest _ => ?_
  show RdE doc [] namespaceStatement _ _ _ _
  unfold namespaceStatement
  refine Rd.then1 (Rd.consume hk) ?_
  refine Rd.then (h.typeRef (hl.next (by simpa [nameEnd] using hx.1))) ?_
  refine Rd.then0 (Rd.nextOneOf_no (p := (· != .openCurly)) (hl.next (by simpa using hx.2)).ahead (by decide)) ?_
  exact RdE.bind_last hl.reads Rd.pure

theorem StmtE.echo {y : Token} (hk : Tok .kwEcho k) (h : SepBy (DelRd doc ends) false ts ns) (hl : Halt x us y) :
    StmtE doc (.stop y) (k :: (ts ++ us)) (.echoStatement k ns) [missingEnd x] := by
  refine .mk' hk (by decide) fun rest hr => ?_
  obtain ⟨r, rfl⟩ := hr
  show RdE doc [] echoStatement _ _ _ _
  unfold echoStatement
  refine Rd.then1 (Rd.consume hk) (RdE.assoc ?_)
  refine Rd.then (more_list h ?_) ?_
  · obtain ⟨r', hr'⟩ := hl.first
    refine ⟨x, r' ++ r, ?_, ?_, ?_⟩
    · have : us ++ y :: r = us ++ [y] ++ r := by simp
      rw [this, hr']; rfl
    · cases us with
      | nil => cases hr'; exact hl.plain
      | cons u us => cases hr'; exact (hl.skip _ (List.mem_cons_self ..)).1
    · exact Bool.and_eq_true_iff.2 ⟨hl.ends, by simpa using hl.no.2.2⟩
  · exact RdE.bind_last (RdE.endHalt hl) Rd.pure

theorem StmtE.print {y : Token} (hk : Tok .kwPrint k) (h : DelRd doc ends ts n) (hl : Halt x us y) :
    StmtE doc (.stop y) (k :: (ts ++ us)) (.printStatement k [n]) [missingEnd x] := by
  refine .mk' hk (by decide) fun rest hr => ?_
  obtain ⟨r, rfl⟩ := hr
  show RdE doc [] printStatement _ _ _ _
  unfold printStatement
  refine Rd.then1 (Rd.consume hk) ?_
  refine Rd.then (h.reads _ ?_) ?_
  · obtain ⟨r', hr'⟩ := hl.first
    refine ⟨x, r' ++ r, ?_, ?_, hl.ends⟩
    · have : us ++ y :: r = us ++ [y] ++ r := by simp
      rw [this, hr']; rfl
    · cases us with
      | nil => cases hr'; exact hl.plain
      | cons u us => cases hr'; exact (hl.skip _ (List.mem_cons_self ..)).1
  · exact RdE.bind_last (RdE.endHalt hl) Rd.pure

theorem StmtE.expr (h : DelRd doc ends ts n) (hs : Next ts fun t => t != .kwFunction && t != .kwClass) (hl : Lost x us e)
    (hx : ends x.t = true) (hc : x.t ≠ .scriptEnd)
    (hw : 2 ≤ ts.length ∨ (x.t ≠ .colon ∧ (x.t = .variable → Next ts (· != .kwStatic)))) :
    StmtE doc (.tail .done) (ts ++ x :: (us ++ [e])) (.expressionStatement n) [missing x] where
  first := (h.first.mono exprStart_stmt).append
  reads rest _ := by
    have hread : RdE doc [] exprThenEnd (ts ++ x :: (us ++ [e])) rest (.expressionStatement n) [missing x] := by
      unfold exprThenEnd
      refine Rd.then (a := Node.expressionStatement n) ?_ ?_
      · exact Rd.bind_last (h.reads _ (hl.next hx)) Rd.pure
      · refine Rd.then0 (Rd.nextOneOf_no (p := (· != .scriptEnd)) (hl.next (by simpa using hc)).ahead (by decide)) ?_
        exact RdE.bind_last hl.reads Rd.pure
    obtain ⟨k0, k1, r, e1, h1, h2, h3, h4⟩ : ∃ k0 k1 r, ts ++ x :: (us ++ [e] ++ rest) = k0 :: k1 :: r ∧ Plain k0 ∧ Plain k1 ∧
        k1.t ≠ .colon ∧ (k0.t = .kwStatic → k1.t ≠ .variable) := by
      obtain ⟨k0, r, rfl, hk0, -⟩ := h.first
      cases r with
      | nil =>
        rcases hw with hw | ⟨hw1, hw2⟩
        · exact absurd hw (by simp)
        · refine ⟨k0, x, _, rfl, hk0, hl.first, hw1, fun hst hv => ?_⟩
          obtain ⟨k', r', e3, -, hne⟩ := hw2 hv
          have e3 := (List.cons.inj e3).1
          rw [← e3, hst] at hne
          cases hne
      | cons k1 r =>
        obtain ⟨k0', k1', r', e1, h1, h2, h3, h4⟩ := h.second e [] hl.semi.1 (by rw [hl.semi.2]; decide) (by rw [hl.semi.2]; decide)
        have e0 := (List.cons.inj e1).1
        have e2 := (List.cons.inj (List.cons.inj e1).2).1
        subst e0 e2
        exact ⟨k0, k1, _, rfl, h1, h2, h3, h4⟩
    obtain ⟨k, r', rfl, -, hst⟩ := h.first
    have e2 : k0 = k := (List.cons.inj e1).1.symm
    subst e2
    obtain ⟨k', r'', e3, -, hne⟩ := hs
    cases e3
    have hne := Bool.and_eq_true_iff.1 hne
    have ee : k0 :: r' ++ x :: (us ++ [e]) ++ rest = k0 :: k1 :: r := by rw [← e1]; simp
    refine stmt_ofE (ts := r' ++ x :: (us ++ [e])) h1 (start_ne' hst rfl) ?_
    rw [show (fun r : Rec => dispatch r [] k0.t) = fun r => defaultStatement r from
      funext fun r => dispatch_default hst (by simpa using hne.1) (by simpa using hne.2)]
    unfold defaultStatement
    have hnx : Next (k0 :: k1 :: r) fun _ => true := ⟨k0, _, rfl, h1, rfl⟩
    refine Rd.then0 (a := none) ?_ (Rd.then0 (a := none) ?_ hread)
    · show Rd doc [] _ [] (k0 :: r' ++ x :: (us ++ [e]) ++ rest) none
      rw [ee]
      by_cases hst : k0.t = .kwStatic
      · exact Rd.of (Reads.lookahead_no h1 h2 (by simpa using h4 hst)) hnx
      · unfold lookahead
        refine Rd.bind0 (ts := []) (Rd.of (a := none) (Reads.takeIf_no h1 (by simpa using hst)) hnx) Rd.pure
    · show Rd doc [] _ [] (k0 :: r' ++ x :: (us ++ [e]) ++ rest) none
      rw [ee]
      exact Rd.of (Reads.lookahead_no h1 h2 (by simpa using h3)) hnx

/-! ### Not reported -/

/-- A statement that does not look at what follows it. -/
theorem StmtRd.unset_any (hk : Tok .kwUnset k) (hl : Tok .openParenthesis lp) (h : SepBy (DelRd doc ends) true ts (n :: ns))
    (hr : Tok .closeParenthesis rp) : StmtRd doc .done (k :: lp :: (ts ++ [rp])) (.unsetStatement k lp (n :: ns) rp) := by
  refine .mk' hk (by decide) fun rest _ => ?_
  show Rd doc [] unsetStatement _ _ _
  unfold unsetStatement
  refine Rd.bind1 (Rd.consume hk) ?_
  refine Rd.bind1 (Rd.consume hl) ?_
  refine Rd.bind (params_nonEmpty h hr) ?_
  exact Rd.bind1 (ts := []) (Rd.consume hr) Rd.pure

theorem StmtRd.die0_any (hk : Tok .kwDie k) (hl : Tok .openParenthesis lp) (hr : Tok .closeParenthesis rp) :
    StmtRd doc .done [k, lp, rp] (.dieStatement k lp none rp) := by
  refine .mk' hk (by decide) fun rest _ => ?_
  show Rd doc [] dieStatement _ _ _
  unfold dieStatement
  refine Rd.bind1 (Rd.consume hk) ?_
  refine Rd.bind1 (Rd.consume hl) ?_
  exact Rd.bind1 (ts := []) (Rd.ignore_yes hr) Rd.pure

theorem StmtRd.die_any (hk : Tok .kwDie k) (hl : Tok .openParenthesis lp) (h : DelRd doc ends ts n)
    (hr : Tok .closeParenthesis rp) : StmtRd doc .done (k :: lp :: (ts ++ [rp])) (.dieStatement k lp (some n) rp) := by
  refine .mk' hk (by decide) fun rest _ => ?_
  show Rd doc [] dieStatement _ _ _
  unfold dieStatement
  refine Rd.bind1 (Rd.consume hk) ?_
  refine Rd.bind1 (Rd.consume hl) ?_
  refine Rd.bind0 (Rd.ignore_no (p := exprStart) ?_ rfl) ?_
  · rw [List.append_assoc]; exact h.first.append.ahead
  refine Rd.bind (h.tok hr (by decide)) ?_
  exact Rd.bind1 (ts := []) (Rd.consume hr) Rd.pure

theorem StmtRd.define_any {cm : Token} {v : Node} (hk : Tok .kwDefine k) (hl : Tok .openParenthesis lp)
    (h : DelRd doc ends ts n) (hc : Tok .comma cm) (hv : DelRd doc ends us v) (hr : Tok .closeParenthesis rp) :
    StmtRd doc .done (k :: lp :: (ts ++ cm :: (us ++ [rp]))) (.defineStatement n v lp rp k none) := by
  refine .mk' hk (by decide) fun rest _ => ?_
  show Rd doc [] defineStatement _ _ _
  unfold defineStatement
  refine Rd.bind1 (Rd.consume hk) ?_
  refine Rd.bind1 (Rd.consume hl) ?_
  refine Rd.bind (h.tok hc (by decide)) ?_
  refine Rd.bind1 (Rd.consume hc) ?_
  refine Rd.bind (hv.tok hr (by decide)) ?_
  refine Rd.bind0 (a := none) (Rd.bind0 (ts := []) (Rd.ignore_no hr.next.ahead rfl) Rd.pure) ?_
  exact Rd.bind1 (ts := []) (Rd.consume hr) Rd.pure

theorem StmtRd.declare_any {i w v : Token} (hk : Tok .kwDeclare k) (hl : Tok .openParenthesis lp) (hi : Tok .identifier i)
    (hw : Tok .assignment w) (hv : Tok t v) (ht : t ∈ [TT.kwFalse, .kwTrue, .kwNull, .longNumber, .decimalNumber,
        .exponentialNumber, .hexNumber, .binaryNumber, .constantEncapsedString, .encapsedAndWhitespaceString])
    (hr : Tok .closeParenthesis rp) : StmtRd doc .done [k, lp, i, w, v, rp] (.declareStatement i v w lp rp k) := by
  refine .mk' hk (by decide) fun rest _ => ?_
  show Rd doc [] (fun _ => declareStatement) _ _ _
  unfold declareStatement
  refine Rd.bind1 (Rd.consume hk) ?_
  refine Rd.bind1 (Rd.consume hl) ?_
  refine Rd.bind1 (Rd.consume hi) ?_
  refine Rd.bind1 (Rd.consume hw) ?_
  refine Rd.bind1 (Rd.consumeOneOf hv ht) ?_
  exact Rd.bind1 (ts := []) (Rd.consume hr) Rd.pure

end PhpLs.Syntax
