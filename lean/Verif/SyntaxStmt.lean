import Verif.SyntaxPrim

/-!
# Reading whole programs: statements
-/

namespace PhpLs.Syntax

open PhpLs PhpLs.Parser PhpLs.Parser.Ex

variable {doc : Token → Option Node} {ts us vs ws rest : List Token} {k lp rp : Token} {n : Node} {ns : List Node}
  {p : TT → Bool} {t : TT} {o o' : Tail}

/-! ## Statements and lists of them -/

/-- A token a statement may start with. -/
def stmtStart (t : TT) : Bool :=
  ![TT.closeCurly, .endWhile, .endFor, .endForeach, .endIf, .endSwitch, .kwElse, .elseIf, .kwCase, .kwDefault, .colon,
    .kwCatch, .kwFinally, .eof].contains t

/-- A statement. -/
structure StmtRd (doc : Token → Option Node) (o : Tail) (ts : List Token) (n : Node) : Prop where
  first : Next ts stmtStart
  reads : ∀ rest, Follows o rest → Rd doc [] scriptStatement ts rest n

/-- The comments in front of a declaration: none or one. -/
def Lead (cs : List Token) : Prop := cs = [] ∨ ∃ c, cs = [c] ∧ Comment c

/-- A statement in a list, with the comment in front of it. -/
def TopRd (doc : Token → Option Node) (o : Tail) (ts : List Token) (n : Node) : Prop :=
  ∃ cs us, ts = cs ++ us ∧ Lead cs ∧ Next us stmtStart ∧ ∀ rest, Follows o rest → Rd doc cs scriptStatement us rest n

/-- A list of statements. -/
inductive SeqRd (doc : Token → Option Node) : Tail → List Token → List Node → Prop where
  | nil : SeqRd doc .done [] []
  | cons {o o' : Tail} {ts us : List Token} {n : Node} {ns : List Node} (h : TopRd doc o ts n) (hm : SeqRd doc o' us ns)
      (hf : us = [] ∨ Follows o us) : SeqRd doc (lastTail ns o o') (ts ++ us) (n :: ns)

theorem Rd.scriptStatement {d : List Token} (h : Rd doc d Parser.scriptStatement ts rest n) :
    Rd doc d (fun r => r.statement) ts rest n := by
  refine Rd.statement ?_
  intro s hd hc hs
  obtain ⟨s', h1, h2, h3, h4, n0, hn⟩ := h s hd hc hs
  refine ⟨s', h1, h2, h3, h4, n0, fun n hnn => ?_⟩
  unfold statementF
  refine (bind_ok (a := Ctx.script) (s' := s) ?_).trans (hn n hnn)
  show getCtx s = _
  unfold getCtx
  rw [hc]

theorem StmtRd.statement (h : StmtRd doc o ts n) (hf : Follows o rest) : Rd doc [] (fun r => r.statement) ts rest n :=
  Rd.scriptStatement (h.reads rest hf)

theorem StmtRd.top (h : StmtRd doc o ts n) : TopRd doc o ts n := ⟨[], ts, rfl, .inl rfl, h.first, h.reads⟩

theorem or_eq_of_beq {t a b : TT} (h : (t == a || t == b) = true) : t = a ∨ t = b :=
  (Bool.or_eq_true_iff.1 h).imp eq_of_beq eq_of_beq

theorem follows_tok (ho : o.Free) (hk : Tok t k) (ht : continues.contains t = false) : Follows o (k :: rest) := by
  cases o with
  | done => trivial
  | loose => exact .inl ⟨k, rest, rfl, hk.1, by show (!continues.contains k.t) = true; rw [hk.2, ht]; rfl⟩
  | semi => rcases ho with h | h <;> cases h
  | tag => rcases ho with h | h <;> cases h

/-- A closing tag may follow any statement. -/
theorem follows_end (hk : Tok .scriptEnd k) : Follows o (k :: rest) := by
  cases o with
  | done => trivial
  | loose => exact .inl ⟨k, rest, rfl, hk.1, by rw [hk.2]; rfl⟩
  | semi => exact ⟨k, rest, rfl, hk.1, by rw [hk.2]; rfl⟩
  | tag => exact ⟨k, rest, rfl, hk.1, by rw [hk.2]; rfl⟩

theorem Follows.append (h : Follows o us) (hu : Next us p ∨ ∃ c r, us = c :: r ∧ Comment c) : Follows o (us ++ rest) := by
  have key : ∀ {q : TT → Bool}, Ahead us q → Ahead (us ++ rest) q := by
    intro q h
    rcases h with h | h | ⟨e, h, he⟩
    · exact .inl h.append
    · subst h
      rcases hu with ⟨k, r, e, -⟩ | ⟨c, r, e, -⟩ <;> cases e
    · subst h
      rcases hu with ⟨k, r, e1, h1, -⟩ | ⟨c, r, e1, hc⟩
      · cases e1
        exact absurd he h1.noEof
      · cases e1
        rw [hc.type] at he
        cases he
  cases o with
  | done => trivial
  | loose => exact key h
  | semi =>
    have h : Next us (fun t => t == .semicolon || t == .scriptEnd) := h
    show Next (us ++ rest) (fun t => t == .semicolon || t == .scriptEnd)
    exact h.append
  | tag =>
    have h : Next us (· == .scriptEnd) := h
    show Next (us ++ rest) (· == .scriptEnd)
    exact h.append

theorem SeqRd.empty (h : SeqRd doc o ts []) : o = .done ∧ ts = [] := by
  cases h with
  | nil => exact ⟨rfl, rfl⟩

theorem SeqRd.first (h : SeqRd doc o ts ns) (hn : ns ≠ []) : Next ts stmtStart ∨ ∃ c r, ts = c :: r ∧ Comment c := by
  cases h with
  | nil => exact absurd rfl hn
  | cons h _ _ =>
    obtain ⟨cs, us, rfl, hc, h1, -⟩ := h
    rcases hc with rfl | ⟨c, rfl, hc⟩
    · exact .inl h1.append
    · exact .inr ⟨c, _, rfl, hc⟩

/-- The loops over statements. -/
theorem SeqRd.loop {site : Site} {body : Rec → List Node → P (List Node ⊕ List Node)} (h : SeqRd doc o ts ns)
    (hstep : ∀ acc o ts n rest, TopRd doc o ts n → Follows o rest → Rd doc [] (fun r => body r acc) ts rest (.inl (acc ++ [n])))
    (hstop : ∀ acc, Rd doc [] (fun r => body r acc) [] rest (.inr acc)) (hf : Follows o rest) (acc : List Node) :
    LoopRd doc site body acc ts rest (acc ++ ns) := by
  induction h generalizing acc with
  | nil =>
    rw [List.append_nil]
    exact LoopRd.stop (hstop acc)
  | @cons o o' ts us n ns h hm hfu ih =>
    have ihh : Follows o' rest → LoopRd doc site body (acc ++ [n]) us rest (acc ++ n :: ns) := fun hf' => by
      have := ih hf' (acc ++ [n])
      rwa [List.append_assoc] at this
    cases ns with
    | nil =>
      obtain ⟨rfl, rfl⟩ := hm.empty
      exact LoopRd.step (hstep acc o ts n rest h hf) (ihh trivial)
    | cons m ns =>
      have h1 := hm.first (fun e => nomatch e)
      refine LoopRd.step (hstep acc o ts n _ h ?_) (ihh hf)
      rcases hfu with rfl | hfu
      · rcases h1 with ⟨k, r, e, -⟩ | ⟨c, r, e, -⟩ <;> cases e
      · exact hfu.append h1

/-! ### Looking at the first token of a statement -/

theorem peek_lead {cs r : List Token} {s : PSt} (hc : Lead cs) (hk : Plain k) (hd : s.docs = []) (hs : s.toks = cs ++ k :: r) :
    peekOn s.toks s = (some k, { s with docs := cs, toks := k :: r }) := by
  rcases hc with rfl | ⟨c, rfl, hc⟩
  · have e : peekOn s.toks s = (some k, s) := peekOn_plain hk hs
    rw [e]
    obtain ⟨a, b, c, d, e, f⟩ := s
    cases hd
    cases hs
    rfl
  · rw [peekOn_comment hc hk hs, hd]

/-- A look at the next token that says no moves the comment in front of it to the waiting ones. -/
theorem Rd.first_no {α : Type} {cs : List Token} {g : Rec → Bool → P α} {a : α} {l : List TT} (hc : Lead cs)
    (hn : Next (ts ++ rest) p) (hl : l.all (fun t => !p t) = true) (h : Rd doc cs (fun r => g r false) ts rest a) :
    Rd doc [] (fun r => nextOneOf l >>= g r) (cs ++ ts) rest a := by
  intro s hd hctx hs
  obtain ⟨k, r, e, hk, hp⟩ := hn
  have hs' : s.toks = cs ++ k :: r := by
    rw [List.append_assoc, e] at hs
    rcases hs with hs | ⟨-, x, hx, hx'⟩
    · exact hs
    · rcases hc with rfl | ⟨c, rfl, hc⟩
      · cases hx
        exact absurd hx' hk.noEof
      · cases hx
  have hpk := peek_lead hc hk hd hs'
  obtain ⟨s', h1, h2, h3, h4, n0, hn⟩ := h { s with docs := cs, toks := k :: r } rfl hctx (.inl e.symm)
  refine ⟨s', h1, h2, h3, h4, n0, fun n hnn => ?_⟩
  refine (bind_ok ?_).trans (hn n hnn)
  exact (PhpLs.Parser.nextIs_some hpk).trans (by rw [not_contains hl hp])

theorem Rd.first_peek {α : Type} {cs : List Token} {g : Rec → Option Token → P α} {a : α} (hc : Lead cs)
    (hn : Next (ts ++ rest) p) (h : ∀ k, Plain k → p k.t = true → Rd doc cs (fun r => g r (some k)) ts rest a) :
    Rd doc [] (fun r => peek >>= g r) (cs ++ ts) rest a := by
  intro s hd hctx hs
  obtain ⟨k, r, e, hk, hp⟩ := hn
  have hs' : s.toks = cs ++ k :: r := by
    rw [List.append_assoc, e] at hs
    rcases hs with hs | ⟨-, x, hx, hx'⟩
    · exact hs
    · rcases hc with rfl | ⟨c, rfl, hc⟩
      · cases hx
        exact absurd hx' hk.noEof
      · cases hx
  have hpk := peek_lead hc hk hd hs'
  obtain ⟨s', h1, h2, h3, h4, n0, hn⟩ := h k hk hp { s with docs := cs, toks := k :: r } rfl hctx (.inl e.symm)
  refine ⟨s', h1, h2, h3, h4, n0, fun n hnn => ?_⟩
  refine (bind_ok ?_).trans (hn n hnn)
  exact (PhpLs.Parser.peek_run s).trans (by rw [hpk])

theorem statementInto_reads {acc : List Node} {d : List Token} (h : Rd doc d Parser.scriptStatement ts rest n) :
    Rd doc d (fun r => statementInto r acc) ts rest (acc ++ [n]) := by
  have h1 : Rd doc d (fun r => P.catchErr r.statement
    (fun n => do
      let ds ← drainDocs r.doc
      pure (acc ++ ds ++ [n]))
    (fun e => do
      pushErr e
      errorFastForward
      pure acc)) (ts ++ []) rest (acc ++ [] ++ [n]) :=
    Rd.catchErr (Rd.scriptStatement h) (Rd.bind0 (ts := []) Rd.drain Rd.pure)
  rw [List.append_nil, List.append_nil] at h1
  exact h1

theorem stop_no {l : List TT} (hl : l.all (fun t => !stmtStart t) = true) : l.all (fun t => !stmtStart t) = true := hl

theorem SeqRd.until {site : Site} {stop : List TT} (h : SeqRd doc o ts ns) (hk : Next rest p) (hp : ∀ t, p t = true → t ∈ stop)
    (hl : stop.all (fun t => !stmtStart t) = true) (hf : Follows o rest) :
    Rd doc [] (fun r => statementsUntil r site stop) ts rest ns := by
  refine Rd.loop (h.loop (fun acc o ts n rest h hf => ?_) (fun acc => ?_) hf [])
  · obtain ⟨cs, us, rfl, hc, h1, h2⟩ := h
    refine Rd.first_no hc h1.append hl ?_
    obtain ⟨k, r, rfl, hk, -⟩ := h1
    refine Rd.after (ts := []) (p := fun _ => true) (Reads.peek (rest := r ++ rest) hk) ⟨k, _, rfl, hk, rfl⟩ ?_
    exact Rd.bind_last (statementInto_reads (h2 rest hf)) Rd.pure
  · exact Rd.bind0 (ts := []) (Rd.nextOneOf_yes hk hp) Rd.pure

theorem SeqRd.plain {stop : List TT} (h : SeqRd doc o ts ns) (hk : Next rest p) (hp : ∀ t, p t = true → t ∈ stop)
    (hl : stop.all (fun t => !stmtStart t) = true) (hf : Follows o rest) :
    Rd doc [] (fun r => plainStatements r stop) ts rest ns := by
  refine Rd.loop (h.loop (fun acc o ts n rest h hf => ?_) (fun acc => ?_) hf [])
  · obtain ⟨cs, us, rfl, hc, h1, h2⟩ := h
    refine Rd.first_no hc h1.append hl ?_
    exact Rd.bind_last (Rd.scriptStatement (h2 rest hf)) Rd.pure
  · exact Rd.bind0 (ts := []) (Rd.nextOneOf_yes hk hp) Rd.pure

/-! ### Blocks -/

theorem tok_mem {l : List TT} (h : t ∈ l) : ∀ t', (t' == t) = true → t' ∈ l := fun t' ht => by rw [eq_of_beq ht]; exact h

theorem BlockRd.mk' {oc cc : Token} (hl : Tok .openCurly oc) (h : SeqRd doc o ts ns) (ho : o.Free) (hr : Tok .closeCurly cc) :
    BlockRd doc (oc :: (ts ++ [cc])) (.block oc ns cc) where
  first := hl.next
  reads rest := by
    unfold Parser.block
    refine Rd.bind1 (Rd.consume hl) ?_
    refine Rd.bind (h.until hr.next (tok_mem (by decide)) (by decide) (follows_tok ho hr (by decide))) ?_
    exact Rd.bind1 (ts := []) (Rd.consume hr) Rd.pure

/-- The body of a loop. -/
def BodyRd (doc : Token → Option Node) (t : TT) (o : Tail) (ts : List Token) (n : Node) : Prop :=
  ∀ rest, Follows o rest → Rd doc [] (fun r => alternativeBlockOrStatement r t) ts rest n

theorem StmtRd.body (h : StmtRd doc o ts n) : BodyRd doc t o ts n := by
  intro rest hf
  unfold alternativeBlockOrStatement
  exact Rd.bind0 (Rd.nextOneOf_no h.first.append.ahead (by decide)) (h.statement hf)

theorem alternative_reads {c e : Token} (hc : Tok .colon c) (h : SeqRd doc o ts ns) (ho : o.Free)
    (ht : t ∈ [TT.endWhile, .endFor, .endForeach, .endIf]) (hk : Tok t k) (he : Tok .semicolon e) (rest : List Token) :
    Rd doc [] (fun r => alternativeBlock r t) (c :: (ts ++ [k, e])) rest (.alternativeBlock c ns k) := by
  have ht1 : t ∈ [TT.endFor, .endForeach, .endWhile, .endIf] := by
    simp only [List.mem_cons, List.not_mem_nil, or_false] at ht ⊢
    rcases ht with h | h | h | h <;> simp [h]
  have ht2 : continues.contains t = false := by
    have : ∀ t ∈ [TT.endWhile, .endFor, .endForeach, .endIf], continues.contains t = false := by decide
    exact this t ht
  unfold alternativeBlock
  refine Rd.bind1 (Rd.consume hc) ?_
  refine Rd.bind (h.until hk.next (tok_mem ht1) (by decide) (follows_tok ho hk ht2)) ?_
  refine Rd.bind1 (Rd.consume hk) ?_
  exact Rd.bind1 (ts := []) (Rd.consume he) Rd.pure

theorem BodyRd.alternative {c e : Token} (hc : Tok .colon c) (h : SeqRd doc o ts ns) (ho : o.Free)
    (ht : t ∈ [TT.endWhile, .endFor, .endForeach]) (hk : Tok t k) (he : Tok .semicolon e) :
    BodyRd doc t .done (c :: (ts ++ [k, e])) (.alternativeBlock c ns k) := by
  intro rest _
  unfold alternativeBlockOrStatement
  refine Rd.bind0 (Rd.nextOneOf_tok hc (by decide)) (alternative_reads hc h ho ?_ hk he rest)
  simp only [List.mem_cons, List.not_mem_nil, or_false] at ht ⊢
  rcases ht with h | h | h <;> simp [h]

/-! ## The dispatch -/

theorem stmt_of {k : Token} (hk : Plain k) (ha : k.t ≠ .attributeStart)
    (H : Rd doc [] (fun r => dispatch r [] k.t) (k :: ts) rest n) : Rd doc [] Parser.scriptStatement (k :: ts) rest n := by
  unfold Parser.scriptStatement
  refine Rd.bind0 (AttrsRd.none.block ⟨k, _, rfl, hk, by simpa using ha⟩) ?_
  exact Rd.bind0 (Rd.of (p := fun _ => true) (Reads.peek hk) ⟨k, _, rfl, hk, rfl⟩) H

theorem StmtRd.mk' (hk : Tok t k) (ht : (stmtStart t && t != .attributeStart) = true)
    (H : ∀ rest, Follows o rest → Rd doc [] (fun r => dispatch r [] t) (k :: ts) rest n) : StmtRd doc o (k :: ts) n where
  first := ⟨k, ts, rfl, hk.1, by rw [hk.2]; exact (Bool.and_eq_true_iff.1 ht).1⟩
  reads rest hf := by
    refine stmt_of hk.1 ?_ ?_
    · rw [hk.2]; simpa using (Bool.and_eq_true_iff.1 ht).2
    · rw [hk.2]; exact H rest hf

theorem exprStart_stmt (t : TT) (h : exprStart t = true) : stmtStart t = true := by
  have : ∀ t ∈ [TT.closeCurly, .endWhile, .endFor, .endForeach, .endIf, .endSwitch, .kwElse, .elseIf, .kwCase, .kwDefault, .colon,
    .kwCatch, .kwFinally, .eof], exprStart t = false := by decide
  unfold stmtStart
  cases hc : [TT.closeCurly, .endWhile, .endFor, .endForeach, .endIf, .endSwitch, .kwElse, .elseIf, .kwCase, .kwDefault, .colon,
    .kwCatch, .kwFinally, .eof].contains t with
  | false => rfl
  | true => rw [this t (by simpa using hc)] at h; cases h

theorem dispatch_default {r : Rec} {as : List Node} (h : exprStart t = true) (h1 : t ≠ .kwFunction) (h2 : t ≠ .kwClass) :
    dispatch r as t = defaultStatement r := by
  cases t <;> first
    | rfl
    | exact absurd h (by decide)
    | exact absurd rfl h1
    | exact absurd rfl h2

theorem StmtRd.expr {e : Token} {q : TT → Bool} (h : DelRd doc q ts n) (hq : q .semicolon = true) (hs : Next ts fun t => t != .kwFunction && t != .kwClass)
    (he : Tok .semicolon e) : StmtRd doc .done (ts ++ [e]) (.expressionStatement n) where
  first := (h.first.mono exprStart_stmt).append
  reads rest _ := by
    have hread : Rd doc [] exprThenEnd (ts ++ [e]) rest (.expressionStatement n) := by
      unfold exprThenEnd
      refine Rd.bind (a := Node.expressionStatement n) ?_ ?_
      · exact Rd.bind_last (h.tok he hq) Rd.pure
      · refine Rd.bind0 (Rd.nextOneOf_no he.next.ahead (by decide)) ?_
        exact Rd.bind1 (ts := []) (Rd.ffAfter_yes he) Rd.pure
    obtain ⟨k0, k1, r, e1, h1, h2, h3, h4⟩ := h.second e rest he.1 (by rw [he.2]; decide) (by rw [he.2]; decide)
    obtain ⟨k, r', rfl, -, hst⟩ := h.first
    have e2 : k0 = k := (List.cons.inj e1).1.symm
    subst e2
    obtain ⟨k', r'', e3, -, hne⟩ := hs
    cases e3
    have hne := Bool.and_eq_true_iff.1 hne
    have ee : k0 :: r' ++ [e] ++ rest = k0 :: k1 :: r := by rw [← e1]; simp
    refine stmt_of (ts := r' ++ [e]) h1 (start_ne' hst rfl) ?_
    rw [show (fun r : Rec => dispatch r [] k0.t) = fun r => defaultStatement r from
      funext fun r => dispatch_default hst (by simpa using hne.1) (by simpa using hne.2)]
    unfold defaultStatement
    have hnx : Next (k0 :: k1 :: r) fun _ => true := ⟨k0, _, rfl, h1, rfl⟩
    refine Rd.bind0 (a := none) ?_ (Rd.bind0 (a := none) ?_ hread)
    · show Rd doc [] _ [] (k0 :: r' ++ [e] ++ rest) none
      rw [ee]
      by_cases hst : k0.t = .kwStatic
      · exact Rd.of (Reads.lookahead_no h1 h2 (by simpa using h4 hst)) hnx
      · unfold lookahead
        refine Rd.bind0 (ts := []) (Rd.of (a := none) (Reads.takeIf_no h1 (by simpa using hst)) hnx) Rd.pure
    · show Rd doc [] _ [] (k0 :: r' ++ [e] ++ rest) none
      rw [ee]
      exact Rd.of (Reads.lookahead_no h1 h2 (by simpa using h3)) hnx

variable {e : Token}

theorem StmtRd.label {c : Token} (hk : Tok .identifier k) (hc : Tok .colon c) : StmtRd doc .done [k, c] (.labelStatement k c) := by
  refine .mk' hk (by decide) fun rest _ => ?_
  show Rd doc [] defaultStatement _ _ _
  unfold defaultStatement
  refine Rd.bind0 (a := none) ?_ ?_
  · unfold lookahead
    exact Rd.bind0 (ts := []) (Rd.takeIf_no (hk.next (rest := c :: rest)).ahead (fun k hk => by rw [eq_of_beq hk]; rfl)) Rd.pure
  · refine Rd.bind1 (Rd.of (Reads.lookahead_yes hk.1 (by simp [hk.2]) hc.1 (by simp [hc.2])) (hk.next (rest := c :: rest))) ?_
    exact Rd.bind1 (ts := []) (Rd.consume hc) Rd.pure

theorem StmtRd.noop (he : Tok .semicolon e) : StmtRd doc .done [e] (.tokenStatement e none) := by
  refine .mk' he (by decide) fun rest _ => ?_
  exact Rd.bind1 (ts := []) (Rd.consume he) Rd.pure

theorem StmtRd.echo (hk : Tok .kwEcho k) (h : SepBy (DelRd doc ends) false ts ns) (he : Tok .semicolon e) :
    StmtRd doc .done (k :: (ts ++ [e])) (.echoStatement k ns) := by
  refine .mk' hk (by decide) fun rest _ => ?_
  show Rd doc [] echoStatement _ _ _
  unfold echoStatement
  refine Rd.bind1 (Rd.consume hk) (Rd.assoc ?_)
  refine Rd.bind (more_list h ⟨e, _, rfl, he.1, by rw [he.2]; decide⟩) ?_
  exact Rd.bind1 (ts := []) (Rd.endOfStatement he) Rd.pure

theorem StmtRd.print (hk : Tok .kwPrint k) (h : DelRd doc ends ts n) (he : Tok .semicolon e) :
    StmtRd doc .done (k :: (ts ++ [e])) (.printStatement k [n]) := by
  refine .mk' hk (by decide) fun rest _ => ?_
  show Rd doc [] printStatement _ _ _
  unfold printStatement
  refine Rd.bind1 (Rd.consume hk) ?_
  refine Rd.bind (h.tok he (by decide)) ?_
  exact Rd.bind1 (ts := []) (Rd.endOfStatement he) Rd.pure

theorem StmtRd.ret0 (hk : Tok .kwReturn k) (he : Tok .semicolon e) : StmtRd doc .done [k, e] (.returnStatement k none) := by
  refine .mk' hk (by decide) fun rest _ => ?_
  show Rd doc [] returnStatement _ _ _
  unfold returnStatement
  refine Rd.bind1 (Rd.consume hk) ?_
  refine Rd.bind0 (Rd.nextOneOf_tok he (by decide)) ?_
  exact Rd.bind1 (ts := []) (Rd.ffAfter_yes he) Rd.pure

theorem StmtRd.ret (hk : Tok .kwReturn k) (h : DelRd doc ends ts n) (he : Tok .semicolon e) :
    StmtRd doc .done (k :: (ts ++ [e])) (.returnStatement k (some n)) := by
  refine .mk' hk (by decide) fun rest _ => ?_
  show Rd doc [] returnStatement _ _ _
  unfold returnStatement
  refine Rd.bind1 (Rd.consume hk) ?_
  refine Rd.bind0 (Rd.nextOneOf_no (p := exprStart) ?_ (by decide)) ?_
  · rw [List.append_assoc]; exact h.first.append.ahead
  refine Rd.bind (h.tok he (by decide)) ?_
  exact Rd.bind1 (ts := []) (Rd.ffAfter_yes he) Rd.pure

theorem StmtRd.throw (hk : Tok .kwThrow k) (h : DelRd doc ends ts n) (he : Tok .semicolon e) :
    StmtRd doc .done (k :: (ts ++ [e])) (.throwStatement k n) := by
  refine .mk' hk (by decide) fun rest _ => ?_
  show Rd doc [] throwStatement _ _ _
  unfold throwStatement
  refine Rd.bind1 (Rd.consume hk) ?_
  refine Rd.bind (h.tok he (by decide)) ?_
  exact Rd.bind1 (ts := []) (Rd.ffAfter_yes he) Rd.pure

theorem break_reads0 (hk : Tok t k) (he : Tok .semicolon e) (rest : List Token) :
    Rd doc [] (fun r => breakStatement r t) [k, e] rest (.tokenStatement k none) := by
  unfold breakStatement
  refine Rd.bind1 (Rd.consume hk) ?_
  refine Rd.bind0 (Rd.nextOneOf_tok he (by decide)) ?_
  exact Rd.bind1 (ts := []) (Rd.ffAfter_yes he) Rd.pure

theorem break_reads (hk : Tok t k) (h : DelRd doc ends ts n) (he : Tok .semicolon e) (rest : List Token) :
    Rd doc [] (fun r => breakStatement r t) (k :: (ts ++ [e])) rest (.tokenStatement k (some n)) := by
  unfold breakStatement
  refine Rd.bind1 (Rd.consume hk) ?_
  refine Rd.bind0 (Rd.nextOneOf_no (p := exprStart) ?_ (by decide)) ?_
  · rw [List.append_assoc]; exact h.first.append.ahead
  refine Rd.bind (h.tok he (by decide)) ?_
  exact Rd.bind1 (ts := []) (Rd.ffAfter_yes he) Rd.pure

theorem StmtRd.jump0 (hk : Tok t k) (ht : t ∈ [TT.kwBreak, .kwContinue]) (he : Tok .semicolon e) :
    StmtRd doc .done [k, e] (.tokenStatement k none) := by
  rcases List.mem_cons.1 ht with rfl | ht
  · exact .mk' hk (by decide) fun rest _ => break_reads0 hk he rest
  · cases List.mem_singleton.1 ht
    exact .mk' hk (by decide) fun rest _ => break_reads0 hk he rest

theorem StmtRd.jump (hk : Tok t k) (ht : t ∈ [TT.kwBreak, .kwContinue]) (h : DelRd doc ends ts n) (he : Tok .semicolon e) :
    StmtRd doc .done (k :: (ts ++ [e])) (.tokenStatement k (some n)) := by
  rcases List.mem_cons.1 ht with rfl | ht
  · exact .mk' hk (by decide) fun rest _ => break_reads hk h he rest
  · cases List.mem_singleton.1 ht
    exact .mk' hk (by decide) fun rest _ => break_reads hk h he rest

theorem StmtRd.goto {l : Token} (hk : Tok .kwGoto k) (hl : Word l) (he : Tok .semicolon e) :
    StmtRd doc .done [k, l, e] (.gotoStatement k l) := by
  refine .mk' hk (by decide) fun rest _ => ?_
  show Rd doc [] (fun _ => gotoStatement) _ _ _
  unfold gotoStatement
  refine Rd.bind1 (Rd.consume hk) ?_
  refine Rd.bind1 (Rd.consumeIdentifier hl) ?_
  exact Rd.bind1 (ts := []) (Rd.ffAfter_yes he) Rd.pure

theorem Globals.next (h : Globals ts ns) : Next ts (· == .variable) := by
  cases h with
  | one hv => exact hv.1.next
  | more hv => exact hv.1.next

theorem globals_loop {acc : List Node} (h : Globals ts ns) (he : Tok .semicolon e) :
    LoopRd doc .globals (fun r (vars : List Node) => do
      if ← nextOneOf [.semicolon] then pure (.inr vars)
      else do
        let v ← variable' r
        if ← nextOneOf [.semicolon] then pure (.inr (vars ++ [v]))
        else do
          consumeOrFfAfter .comma [.semicolon]
          pure (.inl (vars ++ [v]))) acc ts (e :: rest) (acc ++ ns) := by
  induction h generalizing acc with
  | one hv =>
    refine LoopRd.stop ?_
    refine Rd.bind0 (Rd.nextOneOf_no (Globals.one hv).next.append.ahead (by decide)) ?_
    refine Rd.bind_last hv.reads ?_
    exact Rd.bind0 (Rd.nextOneOf_tok he (by decide)) Rd.pure
  | @more v k us ns hv hk hm ih =>
    refine LoopRd.step (ts := [v, k]) (b' := acc ++ [.variable v]) ?_ ?_
    · refine Rd.bind0 (Rd.nextOneOf_no (hv.1.next (rest := k :: (us ++ e :: rest))).ahead (by decide)) ?_
      refine Rd.bind1 hv.reads ?_
      refine Rd.bind0 (Rd.nextOneOf_no hk.next.ahead (by decide)) ?_
      exact Rd.bind1 (ts := []) (Rd.ffAfter_yes hk) Rd.pure
    · have := ih (acc := acc ++ [.variable v])
      rwa [List.append_assoc] at this

theorem StmtRd.global (hk : Tok .kwGlobal k) (h : Globals ts ns) (he : Tok .semicolon e) :
    StmtRd doc .done (k :: (ts ++ [e])) (.globalVariablesStatement k ns) := by
  refine .mk' hk (by decide) fun rest _ => ?_
  show Rd doc [] globalVariables _ _ _
  unfold globalVariables
  refine Rd.bind1 (Rd.consume hk) ?_
  cases h with
  | one hv =>
    refine Rd.bind1 hv.reads ?_
    refine Rd.bind0 (Rd.ignore_no he.next.ahead rfl) ?_
    refine Rd.bind0 (Rd.loop (LoopRd.stop (Rd.bind0 (ts := []) (Rd.nextOneOf_tok he (by decide)) Rd.pure))) ?_
    exact Rd.bind1 (ts := []) (Rd.ffAfter_yes he) Rd.pure
  | more hv hc hm =>
    refine Rd.bind1 hv.reads ?_
    refine Rd.bind1 (Rd.ignore_yes hc) ?_
    refine Rd.bind (Rd.loop (globals_loop hm he)) ?_
    exact Rd.bind1 (ts := []) (Rd.ffAfter_yes he) Rd.pure

/-- A constant of a `const` statement. -/
def ConstRd (doc : Token → Option Node) (ts : List Token) (n : Node) : Prop :=
  ∃ k w us e, ts = k :: w :: us ∧ Word k ∧ Tok .assignment w ∧ DelRd doc ends us e ∧ n = .const k w e

/-- A constant of a class. -/
def ClassConstRd (doc : Token → Option Node) (vis : Option Token) (ts : List Token) (n : Node) : Prop :=
  ∃ k w us e, ts = k :: w :: us ∧ Word k ∧ Tok .assignment w ∧ DelRd doc ends us e ∧ n = .classConstant vis k e

/-- A static variable. -/
def StaticRd (doc : Token → Option Node) (ts : List Token) (n : Node) : Prop :=
  ∃ v w us e, ts = v :: w :: us ∧ Tok .variable v ∧ Tok .assignment w ∧ DelRd doc ends us e ∧
    n = .staticVariable v (some w) (some e)

/-- A property. -/
def PropRd (doc : Token → Option Node) (ts : List Token) (n : Node) : Prop :=
  ∃ v, Tok .variable v ∧ ((ts = [v] ∧ n = .property v none) ∨
    ∃ w us e, ts = v :: w :: us ∧ Tok .assignment w ∧ DelRd doc ends us e ∧ n = .property v (some e))

theorem statics_loop {acc : List Node} (h : SepBy (StaticRd doc) false ts ns)
    (hn : Next rest fun t => ends t && t != .comma) :
    LoopRd doc .other (fun r (as : List Node) => do
      let v ← consume .variable
      let as ← (do
        match ← consumeOrIgnore .assignment with
        | some a => do
          let e ← r.expression 0
          pure (as ++ [.staticVariable v (some a) (some e)])
        | none => pure as : P (List Node))
      match ← consumeOrIgnore .comma with
      | none => pure (.inr as)
      | some _ => pure (.inl as)) acc ts rest (acc ++ ns) := by
  induction h generalizing acc with
  | nil hb => cases hb
  | last h =>
    obtain ⟨v, w, us, e, rfl, hv, hw, he, rfl⟩ := h
    refine LoopRd.stop ?_
    refine Rd.bind1 (Rd.consume hv) ?_
    refine Rd.bind_last (a := acc ++ [Node.staticVariable v (some w) (some e)]) ?_ ?_
    · refine Rd.bind1 (Rd.ignore_yes hw) ?_
      exact Rd.bind_last (he.reads _ (hn.mono fun t ht => (Bool.and_eq_true_iff.1 ht).1)) Rd.pure
    · exact Rd.bind0 (ts := []) (Rd.ignore_no hn.ahead (by decide)) Rd.pure
  | @cons ts us' k n ns h hk hm ih =>
    obtain ⟨v, w, us, e, rfl, hv, hw, he, rfl⟩ := h
    have e1 : v :: w :: us ++ k :: us' = (v :: ((w :: us) ++ [k])) ++ us' := by simp
    rw [e1]
    refine LoopRd.step (b' := acc ++ [Node.staticVariable v (some w) (some e)]) ?_ ?_
    · refine Rd.bind1 (Rd.consume hv) ?_
      refine Rd.bind (a := acc ++ [Node.staticVariable v (some w) (some e)]) ?_ ?_
      · refine Rd.bind1 (Rd.ignore_yes hw) ?_
        exact Rd.bind_last (he.tok hk (by decide)) Rd.pure
      · exact Rd.bind1 (ts := []) (Rd.ignore_yes hk) Rd.pure
    · have := ih (acc := acc ++ [Node.staticVariable v (some w) (some e)])
      rwa [List.append_assoc] at this

/-- `static`, whatever ends the last value. -/
theorem statics_rd (hk : Tok .kwStatic k) (h : SepBy (StaticRd doc) false ts ns)
    (hn : Next rest fun t => ends t && t != .comma) :
    Rd doc [] defaultStatement (k :: ts) rest (.staticVariablesStatement k ns) := by
  unfold defaultStatement
  have hv : Next ts (· == .variable) := h.next fun _ _ h => by
    obtain ⟨v, w, us, e, rfl, hv, -⟩ := h
    exact hv.next
  have hl : Rd doc [] (fun r => staticVariables r k) ts rest (.staticVariablesStatement k ns) := by
    unfold staticVariables
    exact Rd.bind_last (Rd.loop (statics_loop (acc := []) h hn)) Rd.pure
  obtain ⟨v, r, rfl, h1, h2⟩ := hv
  exact Rd.bind1 (Rd.of (Reads.lookahead_yes hk.1 (by simp [hk.2]) h1 h2) (hk.next (rest := v :: (r ++ rest)))) hl

theorem StmtRd.statics (hk : Tok .kwStatic k) (h : SepBy (StaticRd doc) false ts ns) :
    StmtRd doc .semi (k :: ts) (.staticVariablesStatement k ns) := by
  refine .mk' hk (by decide) fun rest hf => ?_
  have hf' : Next rest fun t => t == .semicolon || t == .scriptEnd := hf
  refine statics_rd hk h (hf'.mono fun t ht => ?_)
  rcases or_eq_of_beq ht with rfl | rfl <;> decide

theorem StmtRd.unset (hk : Tok .kwUnset k) (hl : Tok .openParenthesis lp) (h : SepBy (DelRd doc ends) true ts (n :: ns))
    (hr : Tok .closeParenthesis rp) : StmtRd doc .semi (k :: lp :: (ts ++ [rp])) (.unsetStatement k lp (n :: ns) rp) := by
  refine .mk' hk (by decide) fun rest _ => ?_
  show Rd doc [] unsetStatement _ _ _
  unfold unsetStatement
  refine Rd.bind1 (Rd.consume hk) ?_
  refine Rd.bind1 (Rd.consume hl) ?_
  refine Rd.bind (params_nonEmpty h hr) ?_
  exact Rd.bind1 (ts := []) (Rd.consume hr) Rd.pure

theorem StmtRd.die0 (hk : Tok .kwDie k) (hl : Tok .openParenthesis lp) (hr : Tok .closeParenthesis rp) :
    StmtRd doc .semi [k, lp, rp] (.dieStatement k lp none rp) := by
  refine .mk' hk (by decide) fun rest _ => ?_
  show Rd doc [] dieStatement _ _ _
  unfold dieStatement
  refine Rd.bind1 (Rd.consume hk) ?_
  refine Rd.bind1 (Rd.consume hl) ?_
  exact Rd.bind1 (ts := []) (Rd.ignore_yes hr) Rd.pure

theorem StmtRd.die (hk : Tok .kwDie k) (hl : Tok .openParenthesis lp) (h : DelRd doc ends ts n)
    (hr : Tok .closeParenthesis rp) : StmtRd doc .semi (k :: lp :: (ts ++ [rp])) (.dieStatement k lp (some n) rp) := by
  refine .mk' hk (by decide) fun rest _ => ?_
  show Rd doc [] dieStatement _ _ _
  unfold dieStatement
  refine Rd.bind1 (Rd.consume hk) ?_
  refine Rd.bind1 (Rd.consume hl) ?_
  refine Rd.bind0 (Rd.ignore_no (p := exprStart) ?_ rfl) ?_
  · rw [List.append_assoc]; exact h.first.append.ahead
  refine Rd.bind (h.tok hr (by decide)) ?_
  exact Rd.bind1 (ts := []) (Rd.consume hr) Rd.pure

theorem StmtRd.define {c : Token} {v : Node} (hk : Tok .kwDefine k) (hl : Tok .openParenthesis lp) (h : DelRd doc ends ts n)
    (hc : Tok .comma c) (hv : DelRd doc ends us v) (hr : Tok .closeParenthesis rp) :
    StmtRd doc .semi (k :: lp :: (ts ++ c :: (us ++ [rp]))) (.defineStatement n v lp rp k none) := by
  refine .mk' hk (by decide) fun rest _ => ?_
  show Rd doc [] defineStatement _ _ _
  unfold defineStatement
  refine Rd.bind1 (Rd.consume hk) ?_
  refine Rd.bind1 (Rd.consume hl) ?_
  refine Rd.bind (h.tok hc (by decide)) ?_
  refine Rd.bind1 (Rd.consume hc) ?_
  refine Rd.bind (hv.tok hr (by decide)) ?_
  refine Rd.bind0 (a := none) (Rd.bind0 (ts := []) (Rd.ignore_no hr.next.ahead rfl) Rd.pure) ?_
  exact Rd.bind1 (ts := []) (Rd.consume hr) Rd.pure

theorem StmtRd.declare {i w v : Token} (hk : Tok .kwDeclare k) (hl : Tok .openParenthesis lp) (hi : Tok .identifier i)
    (hw : Tok .assignment w) (hv : Tok t v) (ht : t ∈ [TT.kwFalse, .kwTrue, .kwNull, .longNumber, .decimalNumber,
        .exponentialNumber, .hexNumber, .binaryNumber, .constantEncapsedString, .encapsedAndWhitespaceString])
    (hr : Tok .closeParenthesis rp) : StmtRd doc .semi [k, lp, i, w, v, rp] (.declareStatement i v w lp rp k) := by
  refine .mk' hk (by decide) fun rest _ => ?_
  show Rd doc [] (fun _ => declareStatement) _ _ _
  unfold declareStatement
  refine Rd.bind1 (Rd.consume hk) ?_
  refine Rd.bind1 (Rd.consume hl) ?_
  refine Rd.bind1 (Rd.consume hi) ?_
  refine Rd.bind1 (Rd.consume hw) ?_
  refine Rd.bind1 (Rd.consumeOneOf hv ht) ?_
  exact Rd.bind1 (ts := []) (Rd.consume hr) Rd.pure

theorem ConstRd.reads (h : ConstRd doc ts n) (hn : Next rest ends) : Rd doc [] constEntry ts rest n := by
  obtain ⟨k, w, us, e, rfl, hk, hw, he, rfl⟩ := h
  unfold constEntry
  refine Rd.bind1 (Rd.consumeIdentifier hk) ?_
  refine Rd.bind1 (Rd.consume hw) ?_
  exact Rd.bind_last (he.reads _ hn) Rd.pure

theorem consts_loop {acc : List Node} (h : SepBy (ConstRd doc) false ts ns) (hk : Tok .comma k) (he : Tok .semicolon e) :
    LoopRd doc .other (fun r (cs : List Node) => do
      match ← consumeOrIgnore .semicolon with
      | some _ => pure (.inr cs)
      | none => do
        consumeOrFfAfter .comma [.semicolon]
        let c ← constEntry r
        pure (.inl (cs ++ [c]))) acc (k :: (ts ++ [e])) rest (acc ++ ns) := by
  induction h generalizing acc k with
  | nil hb => cases hb
  | @last ts n h =>
    refine LoopRd.step (ts := k :: ts) (b' := acc ++ [n]) ?_ ?_
    · refine Rd.bind0 (Rd.ignore_no (hk.next (rest := ts ++ ([e] ++ rest))).ahead rfl) ?_
      refine Rd.bind1 (Rd.ffAfter_yes hk) ?_
      exact Rd.bind_last (h.reads ⟨e, _, rfl, he.1, by rw [he.2]; decide⟩) Rd.pure
    · exact LoopRd.stop (Rd.bind1 (ts := []) (Rd.ignore_yes he) Rd.pure)
  | @cons ts us k' n ns h hk' hm ih =>
    have e1 : k :: (ts ++ k' :: us ++ [e]) = (k :: ts) ++ (k' :: (us ++ [e])) := by simp
    rw [e1]
    refine LoopRd.step (b' := acc ++ [n]) ?_ ?_
    · refine Rd.bind0 (Rd.ignore_no (hk.next (rest := ts ++ (k' :: (us ++ [e]) ++ rest))).ahead rfl) ?_
      refine Rd.bind1 (Rd.ffAfter_yes hk) ?_
      exact Rd.bind_last (h.reads ⟨k', _, rfl, hk'.1, by rw [hk'.2]; decide⟩) Rd.pure
    · have := ih (acc := acc ++ [n]) hk'
      rwa [List.append_assoc] at this

theorem StmtRd.consts (hk : Tok .kwConst k) (h : SepBy (ConstRd doc) false ts ns) (he : Tok .semicolon e) :
    StmtRd doc .done (k :: (ts ++ [e])) (.constStatement k ns) := by
  refine .mk' hk (by decide) fun rest _ => ?_
  show Rd doc [] constStatement _ _ _
  unfold constStatement
  refine Rd.bind1 (Rd.consume hk) ?_
  cases h with
  | nil hb => cases hb
  | @last ts n h =>
    refine Rd.bind (h.reads ⟨e, _, rfl, he.1, by rw [he.2]; decide⟩) ?_
    exact Rd.bind_last (Rd.loop (LoopRd.stop (Rd.bind1 (ts := []) (Rd.ignore_yes he) Rd.pure))) Rd.pure
  | @cons ts us k' n ns h hk' hm =>
    have e1 : ts ++ k' :: us ++ [e] = ts ++ (k' :: (us ++ [e])) := by simp
    rw [e1]
    refine Rd.bind (h.reads ⟨k', _, rfl, hk'.1, by rw [hk'.2]; decide⟩) ?_
    exact Rd.bind_last (Rd.loop (consts_loop hm hk' he)) Rd.pure

/-! ## Branches -/

/-- The `elseif`s of an `if`. -/
structure ElifsRd (doc : Token → Option Node) (o : Tail) (ts : List Token) (ns : List Node) : Prop where
  nil : ns = [] → ts = []
  first : ts = [] ∨ Next ts (· == .elseIf)
  reads : ∀ rest acc, Follows o rest → Ahead rest (· != .elseIf) → LoopRd doc .other (fun r (bs : List Node) => do
    match ← consumeOrIgnore .elseIf with
    | some token => do
      let op ← consume .openParenthesis
      let c ← r.expression 0
      let cp ← consume .closeParenthesis
      let b ← r.statement
      pure (.inl (bs ++ [.ifBranch token op c cp b]))
    | none => pure (.inr bs)) acc ts rest (acc ++ ns)

theorem ElifsRd.none : ElifsRd doc .done [] [] where
  nil _ := rfl
  first := .inl rfl
  reads rest acc _ ha := by
    rw [List.append_nil]
    exact LoopRd.stop (Rd.bind0 (ts := []) (Rd.ignore_no ha rfl) Rd.pure)

variable {c b b' : Node} {bs : List Node}

theorem branch_follows {o o' : Tail} (hm : ElifsRd doc o' vs bs) (ho : bs = [] ∨ o = .done)
    (hf : Follows (lastTail bs o o') rest) : Follows o (vs ++ rest) ∧ Follows o' rest ∨ (bs = [] ∧ vs = [] ∧ Follows o rest) := by
  cases bs with
  | nil => exact .inr ⟨rfl, hm.nil rfl, hf⟩
  | cons b bs =>
    rcases ho with ho | rfl
    · cases ho
    · exact .inl ⟨trivial, hf⟩

theorem ElifsRd.cons (hk : Tok .elseIf k) (hl : Tok .openParenthesis lp) (hc : DelRd doc ends ts c)
    (hr : Tok .closeParenthesis rp) (hb : StmtRd doc o us b) (hm : ElifsRd doc o' vs bs) (ho : bs = [] ∨ o = .done)
    (hd : bs = [] → o' = .done) :
    ElifsRd doc (lastTail bs o o') (k :: lp :: (ts ++ rp :: (us ++ vs))) (.ifBranch k lp c rp b :: bs) where
  nil h := nomatch h
  first := .inr hk.next
  reads rest acc hf ha := by
    have e1 : k :: lp :: (ts ++ rp :: (us ++ vs)) = (k :: lp :: (ts ++ rp :: us)) ++ vs := by simp
    have hf' : Follows o (vs ++ rest) ∧ Follows o' rest := by
      rcases branch_follows hm ho hf with h | ⟨h1, rfl, h3⟩
      · exact h
      · refine ⟨h3, ?_⟩
        rw [hd h1]
        trivial
    rw [e1]
    refine LoopRd.step (b' := acc ++ [.ifBranch k lp c rp b]) ?_ ?_
    · refine Rd.bind1 (Rd.ignore_yes hk) ?_
      refine Rd.bind1 (Rd.consume hl) ?_
      refine Rd.bind (hc.tok hr (by decide)) ?_
      refine Rd.bind1 (Rd.consume hr) ?_
      exact Rd.bind_last (hb.statement hf'.1) Rd.pure
    · have := hm.reads rest (acc ++ [.ifBranch k lp c rp b]) hf'.2 ha
      rwa [List.append_assoc] at this

theorem orOpen_follows (h : Follows o.orOpen rest) : Follows o rest ∧ Ahead rest fun t => !continues.contains t := by
  cases o with
  | done => exact ⟨trivial, h⟩
  | loose => exact ⟨h, h⟩
  | semi =>
    have h' : Next rest (fun t => t == .semicolon || t == .scriptEnd) := h
    exact ⟨h, (h'.mono fun t ht => by rcases or_eq_of_beq ht with rfl | rfl <;> decide).ahead⟩
  | tag =>
    have h' : Next rest (· == .scriptEnd) := h
    exact ⟨h, (h'.mono fun t ht => by rw [eq_of_beq ht]; decide).ahead⟩

theorem ahead_not {t : TT} (h : Ahead rest fun t => !continues.contains t) (ht : t ∈ continues) : Ahead rest (· != t) :=
  h.mono fun t' ht' => by
    cases hb : (t' != t) with
    | true => rfl
    | false =>
      have : t' = t := by simpa using hb
      subst this
      have : continues.contains t' = true := by simpa using ht
      rw [this] at ht'
      cases ht'

theorem StmtRd.if (hk : Tok .kwIf k) (hl : Tok .openParenthesis lp) (hc : DelRd doc ends ts c)
    (hr : Tok .closeParenthesis rp) (hb : StmtRd doc o us b) (hm : ElifsRd doc o' vs bs) (ho : bs = [] ∨ o = .done)
    (hd : bs = [] → o' = .done) :
    StmtRd doc (lastTail bs o o').orOpen (k :: lp :: (ts ++ rp :: (us ++ vs)))
      (.ifStatement (.ifBranch k lp c rp b) bs none) := by
  refine .mk' hk (by decide) fun rest hf => ?_
  obtain ⟨hf, ha⟩ := orOpen_follows hf
  have hf' : Follows o (vs ++ rest) ∧ Follows o' rest := by
    rcases branch_follows hm ho hf with h | ⟨h1, rfl, h3⟩
    · exact h
    · refine ⟨h3, ?_⟩
      rw [hd h1]
      trivial
  show Rd doc [] ifStatement _ _ _
  unfold ifStatement
  refine Rd.bind1 (Rd.consume hk) ?_
  refine Rd.bind1 (Rd.consume hl) ?_
  refine Rd.bind (hc.tok hr (by decide)) ?_
  refine Rd.bind1 (Rd.consume hr) ?_
  refine Rd.bind0 (Rd.ignore_no (p := stmtStart) ?_ rfl) ?_
  · rw [List.append_assoc]; exact hb.first.append.ahead
  refine Rd.bind (hb.statement hf'.1) ?_
  refine Rd.bind_last (a := bs) (Rd.loop (hm.reads rest [] hf'.2 (ahead_not ha (by decide)))) ?_
  exact Rd.bind0 (ts := []) (Rd.ignore_no (ahead_not ha (t := .kwElse) (by decide)) (by decide)) Rd.pure

theorem StmtRd.ifElse {x : Token} (hk : Tok .kwIf k) (hl : Tok .openParenthesis lp) (hc : DelRd doc ends ts c)
    (hr : Tok .closeParenthesis rp) (hb : StmtRd doc .done us b) (hm : ElifsRd doc .done vs bs) (hx : Tok .kwElse x)
    (hb' : StmtRd doc o ws b') :
    StmtRd doc o (k :: lp :: (ts ++ rp :: (us ++ (vs ++ x :: ws))))
      (.ifStatement (.ifBranch k lp c rp b) bs (some (.elseBranch x b'))) := by
  refine .mk' hk (by decide) fun rest hf => ?_
  show Rd doc [] ifStatement _ _ _
  unfold ifStatement
  refine Rd.bind1 (Rd.consume hk) ?_
  refine Rd.bind1 (Rd.consume hl) ?_
  refine Rd.bind (hc.tok hr (by decide)) ?_
  refine Rd.bind1 (Rd.consume hr) ?_
  refine Rd.bind0 (Rd.ignore_no (p := stmtStart) ?_ rfl) ?_
  · rw [List.append_assoc]; exact hb.first.append.ahead
  refine Rd.bind (hb.statement trivial) ?_
  refine Rd.bind (a := bs) (Rd.loop (hm.reads _ [] trivial (.inl ⟨x, _, rfl, hx.1, by rw [hx.2]; rfl⟩))) ?_
  refine Rd.bind1 (Rd.ignore_yes hx) ?_
  exact Rd.bind_last (hb'.statement hf) Rd.pure

/-- The `elseif`s of an `if` in its alternative form. -/
def AltsRd (doc : Token → Option Node) (k : Token) (ts : List Token) (bs : List Node) (k' : Token) : Prop :=
  ∀ rest acc, LoopRd doc .other (fun r (st : List Node × Token) =>
    if st.2.t = .elseIf then do
      let op ← consume .openParenthesis
      let c ← r.expression 0
      let cp ← consume .closeParenthesis
      let colon ← consume .colon
      let ss ← plainStatements r ifStop
      let t ← consumeOneOf ifStop
      pure (.inl (st.1 ++ [.ifBranch st.2 op c cp (.alternativeBlock colon ss t)], t))
    else pure (.inr st)) (acc, k) ts rest (acc ++ bs, k')

theorem AltsRd.none (hk : k.t ≠ .elseIf) : AltsRd doc k [] [] k := by
  intro rest acc
  rw [List.append_nil]
  refine LoopRd.stop ?_
  have e : ∀ r : Rec, (if ((acc, k) : List Node × Token).2.t = .elseIf then do
      let op ← consume .openParenthesis
      let c ← r.expression 0
      let cp ← consume .closeParenthesis
      let colon ← consume .colon
      let ss ← plainStatements r ifStop
      let t ← consumeOneOf ifStop
      pure (.inl (((acc, k) : List Node × Token).1 ++ [.ifBranch ((acc, k) : List Node × Token).2 op c cp (.alternativeBlock colon ss t)], t))
    else pure (.inr (acc, k)) : P ((List Node × Token) ⊕ (List Node × Token))) = pure (.inr (acc, k)) := fun r => if_neg hk
  simp only [e]
  exact Rd.pure

/-- The token that ends a branch of an alternative `if`. -/
theorem stmts_ifStop {k1 : Token} (h : SeqRd doc o us ns)
    (h1 : (Tok .endIf k1 ∧ o.Free) ∨ ((Tok .elseIf k1 ∨ Tok .kwElse k1) ∧ o = .done)) (rest : List Token) :
    ∃ t, Tok t k1 ∧ t ∈ ifStop ∧ Rd doc [] (fun r => plainStatements r ifStop) us (k1 :: rest) ns := by
  rcases h1 with ⟨h1, h2⟩ | ⟨h1 | h1, rfl⟩
  · exact ⟨_, h1, by decide, h.plain h1.next (tok_mem (by decide)) (by decide) (follows_tok h2 h1 (by decide))⟩
  · exact ⟨_, h1, by decide, h.plain h1.next (tok_mem (by decide)) (by decide) trivial⟩
  · exact ⟨_, h1, by decide, h.plain h1.next (tok_mem (by decide)) (by decide) trivial⟩

theorem AltsRd.cons {cl k1 k2 : Token} (hk : k.t = .elseIf) (hl : Tok .openParenthesis lp) (hc : DelRd doc ends ts c)
    (hr : Tok .closeParenthesis rp) (hcl : Tok .colon cl) (h : SeqRd doc o us ns)
    (h1 : (Tok .endIf k1 ∧ o.Free) ∨ ((Tok .elseIf k1 ∨ Tok .kwElse k1) ∧ o = .done))
    (hm : AltsRd doc k1 vs bs k2) :
    AltsRd doc k (lp :: (ts ++ rp :: cl :: (us ++ k1 :: vs))) (.ifBranch k lp c rp (.alternativeBlock cl ns k1) :: bs) k2 := by
  intro rest acc
  have e1 : lp :: (ts ++ rp :: cl :: (us ++ k1 :: vs)) = (lp :: (ts ++ rp :: cl :: (us ++ [k1]))) ++ vs := by simp
  rw [e1]
  obtain ⟨t, ht, hti, hpl⟩ := stmts_ifStop h h1 (vs ++ rest)
  refine LoopRd.step (b' := (acc ++ [.ifBranch k lp c rp (.alternativeBlock cl ns k1)], k1)) ?_ ?_
  · have e : ∀ r : Rec, (if ((acc, k) : List Node × Token).2.t = .elseIf then do
        let op ← consume .openParenthesis
        let c ← r.expression 0
        let cp ← consume .closeParenthesis
        let colon ← consume .colon
        let ss ← plainStatements r ifStop
        let t ← consumeOneOf ifStop
        pure (.inl (((acc, k) : List Node × Token).1 ++ [.ifBranch ((acc, k) : List Node × Token).2 op c cp (.alternativeBlock colon ss t)], t))
      else pure (.inr (acc, k)) : P ((List Node × Token) ⊕ (List Node × Token))) = (do
        let op ← consume .openParenthesis
        let c ← r.expression 0
        let cp ← consume .closeParenthesis
        let colon ← consume .colon
        let ss ← plainStatements r ifStop
        let t ← consumeOneOf ifStop
        pure (.inl (acc ++ [.ifBranch k op c cp (.alternativeBlock colon ss t)], t))) := fun r => if_pos hk
    simp only [e]
    refine Rd.bind1 (Rd.consume hl) ?_
    refine Rd.bind (hc.tok hr (by decide)) ?_
    refine Rd.bind1 (Rd.consume hr) ?_
    refine Rd.bind1 (Rd.consume hcl) ?_
    refine Rd.bind hpl ?_
    exact Rd.bind1 (ts := []) (Rd.consumeOneOf ht hti) Rd.pure
  · have := hm rest (acc ++ [.ifBranch k lp c rp (.alternativeBlock cl ns k1)])
    rwa [List.append_assoc] at this

theorem StmtRd.altIf {cl k1 k2 : Token} (hk : Tok .kwIf k) (hl : Tok .openParenthesis lp) (hc : DelRd doc ends ts c)
    (hr : Tok .closeParenthesis rp) (hcl : Tok .colon cl) (h : SeqRd doc o us ns)
    (h1 : (Tok .endIf k1 ∧ o.Free) ∨ (Tok .elseIf k1 ∧ o = .done))
    (hm : AltsRd doc k1 vs bs k2) (h2 : k2.t = .endIf) :
    StmtRd doc .semi (k :: lp :: (ts ++ rp :: cl :: (us ++ k1 :: vs)))
      (.ifStatement (.ifBranch k lp c rp (.alternativeBlock cl ns k1)) bs none) := by
  refine .mk' hk (by decide) fun rest _ => ?_
  obtain ⟨t, ht, hti, hpl⟩ := stmts_ifStop h (h1.imp id fun h => ⟨.inl h.1, h.2⟩) (vs ++ rest)
  show Rd doc [] ifStatement _ _ _
  unfold ifStatement
  refine Rd.bind1 (Rd.consume hk) ?_
  refine Rd.bind1 (Rd.consume hl) ?_
  refine Rd.bind (hc.tok hr (by decide)) ?_
  refine Rd.bind1 (Rd.consume hr) ?_
  refine Rd.bind1 (Rd.ignore_yes hcl) ?_
  unfold ifAlternative
  refine Rd.bind hpl ?_
  refine Rd.bind1 (Rd.consumeOneOf ht hti) ?_
  refine Rd.bind_last (a := (bs, k2)) (Rd.loop (hm rest [])) ?_
  have e : k2.t ≠ .kwElse := by rw [h2]; decide
  simp only [e, if_false]
  exact Rd.pure

theorem StmtRd.altIfElse {cl k1 k2 cl' k3 sc : Token} {ms : List Node} (hk : Tok .kwIf k) (hl : Tok .openParenthesis lp)
    (hc : DelRd doc ends ts c) (hr : Tok .closeParenthesis rp) (hcl : Tok .colon cl) (h : SeqRd doc .done us ns)
    (h1 : Tok .kwElse k1 ∨ Tok .elseIf k1) (hm : AltsRd doc k1 vs bs k2) (h2 : k2.t = .kwElse) (hcl' : Tok .colon cl')
    (h' : SeqRd doc o ws ms) (ho : o.Free) (h3 : Tok .endIf k3) (hs : Tok .semicolon sc) :
    StmtRd doc .done (k :: lp :: (ts ++ rp :: cl :: (us ++ k1 :: (vs ++ cl' :: (ws ++ [k3, sc])))))
      (.ifStatement (.ifBranch k lp c rp (.alternativeBlock cl ns k1)) bs
        (some (.elseBranch k2 (.alternativeBlock cl' ms k3)))) := by
  refine .mk' hk (by decide) fun rest _ => ?_
  obtain ⟨t, ht, hti, hpl⟩ := stmts_ifStop h (.inr ⟨h1.symm, rfl⟩) (vs ++ cl' :: (ws ++ [k3, sc]) ++ rest)
  show Rd doc [] ifStatement _ _ _
  unfold ifStatement
  refine Rd.bind1 (Rd.consume hk) ?_
  refine Rd.bind1 (Rd.consume hl) ?_
  refine Rd.bind (hc.tok hr (by decide)) ?_
  refine Rd.bind1 (Rd.consume hr) ?_
  refine Rd.bind1 (Rd.ignore_yes hcl) ?_
  unfold ifAlternative
  refine Rd.bind hpl ?_
  refine Rd.bind1 (Rd.consumeOneOf ht hti) ?_
  refine Rd.bind (a := (bs, k2)) (Rd.loop (hm _ [])) ?_
  simp only [h2, if_true]
  exact Rd.bind_last (alternative_reads hcl' h' ho (by decide) h3 hs rest) Rd.pure

/-! ## Loops -/

theorem StmtRd.while (hk : Tok .kwWhile k) (hl : Tok .openParenthesis lp) (hc : DelRd doc ends ts c)
    (hr : Tok .closeParenthesis rp) (hb : BodyRd doc .endWhile o us b) :
    StmtRd doc o (k :: lp :: (ts ++ rp :: us)) (.whileStatement k lp c rp b) := by
  refine .mk' hk (by decide) fun rest hf => ?_
  show Rd doc [] whileStatement _ _ _
  unfold whileStatement
  refine Rd.bind1 (Rd.consume hk) ?_
  refine Rd.bind1 (Rd.consume hl) ?_
  refine Rd.bind (hc.tok hr (by decide)) ?_
  refine Rd.bind1 (Rd.consume hr) ?_
  exact Rd.bind_last (hb rest hf) Rd.pure

theorem StmtRd.doWhile {w : Token} (hk : Tok .kwDo k) (hb : StmtRd doc o us b) (ho : o.Free) (hw : Tok .kwWhile w)
    (hl : Tok .openParenthesis lp) (hc : DelRd doc ends ts c) (hr : Tok .closeParenthesis rp) (he : Tok .semicolon e) :
    StmtRd doc .done (k :: (us ++ w :: lp :: (ts ++ [rp, e]))) (.doWhileStatement k lp rp w c b) := by
  refine .mk' hk (by decide) fun rest _ => ?_
  show Rd doc [] doWhileStatement _ _ _
  unfold doWhileStatement
  refine Rd.bind1 (Rd.consume hk) ?_
  refine Rd.bind (hb.statement (follows_tok ho hw (by decide))) ?_
  refine Rd.bind1 (Rd.consume hw) ?_
  refine Rd.bind1 (Rd.consume hl) ?_
  refine Rd.bind (hc.tok hr (by decide)) ?_
  refine Rd.bind1 (Rd.consume hr) ?_
  exact Rd.bind1 (ts := []) (Rd.ffAfter_yes he) Rd.pure

theorem forPart_reads (h : SepBy (DelRd doc ends) true ts ns) (hk : Tok t k) (ht : t = .semicolon ∨ t = .closeParenthesis)
    (rest : List Token) : Rd doc [] (fun r => forPart r t) ts (k :: rest) ns := by
  have ht1 : ends t = true ∧ (TT.comma == t) = false ∧ [t].all (fun t => !exprStart t) = true := by
    rcases ht with rfl | rfl <;> decide
  refine Rd.loop (ts := ts) (a := ns) (b := []) ?_
  have key : ∀ acc : List Node, LoopRd doc .other (fun r (es : List Node) => do
      if ← nextOneOf [t] then pure (.inr es)
      else do
        let e ← r.expression 0
        match ← consumeOrIgnore .comma with
        | some _ => pure (.inl (es ++ [e]))
        | none => pure (.inr (es ++ [e]))) acc ts (k :: rest) (acc ++ ns) := by
    induction h with
    | nil hb =>
      intro acc
      rw [List.append_nil]
      exact LoopRd.stop (Rd.bind0 (ts := []) (Rd.nextOneOf_tok hk (List.mem_singleton.2 rfl)) Rd.pure)
    | last h =>
      intro acc
      refine LoopRd.stop ?_
      refine Rd.bind0 (Rd.nextOneOf_no h.first.append.ahead ht1.2.2) ?_
      refine Rd.bind_last (h.tok hk ht1.1) ?_
      exact Rd.bind0 (ts := []) (Rd.ignore_no hk.next.ahead ht1.2.1) Rd.pure
    | @cons ts us x n ns h hx hm ih =>
      intro acc
      have e : ts ++ x :: us = (ts ++ [x]) ++ us := by simp
      rw [e]
      refine LoopRd.step (b' := acc ++ [n]) ?_ ?_
      · refine Rd.bind0 (Rd.nextOneOf_no (p := exprStart) ?_ ht1.2.2) ?_
        · rw [List.append_assoc]; exact h.first.append.ahead
        refine Rd.bind (h.tok hx (by decide)) ?_
        exact Rd.bind1 (ts := []) (Rd.ignore_yes hx) Rd.pure
      · have := ih (acc ++ [n])
        rwa [List.append_assoc] at this
  exact key []

theorem StmtRd.for {e1 e2 : Token} {xs ys zs : List Token} {is cs ss : List Node} (hk : Tok .kwFor k)
    (hl : Tok .openParenthesis lp) (hi : SepBy (DelRd doc ends) true xs is) (he1 : Tok .semicolon e1)
    (hc : SepBy (DelRd doc ends) true ys cs) (he2 : Tok .semicolon e2) (hs : SepBy (DelRd doc ends) true zs ss)
    (hr : Tok .closeParenthesis rp) (hb : BodyRd doc .endFor o us b) :
    StmtRd doc o (k :: lp :: (xs ++ e1 :: (ys ++ e2 :: (zs ++ rp :: us)))) (.forStatement k is cs ss b) := by
  refine .mk' hk (by decide) fun rest hf => ?_
  show Rd doc [] forStatement _ _ _
  unfold forStatement
  refine Rd.bind1 (Rd.consume hk) ?_
  refine Rd.bind1 (Rd.ffAfter_yes hl) ?_
  refine Rd.bind (forPart_reads hi he1 (.inl rfl) _) ?_
  refine Rd.bind1 (Rd.ffAfter_yes he1) ?_
  refine Rd.bind (forPart_reads hc he2 (.inl rfl) _) ?_
  refine Rd.bind1 (Rd.ffAfter_yes he2) ?_
  refine Rd.bind (forPart_reads hs hr (.inr rfl) _) ?_
  refine Rd.bind1 (Rd.ffAfter_yes hr) ?_
  exact Rd.bind_last (hb rest hf) Rd.pure

theorem StmtRd.foreach {w : Token} {ps : List Token} {x : Node} (hk : Tok .kwForeach k)
    (hl : Tok .openParenthesis lp) (hc : DelRd doc ends ts c) (hw : Tok .kwAs w) (hp : PairRd doc ps x)
    (hr : Tok .closeParenthesis rp) (hb : BodyRd doc .endForeach o us b) :
    StmtRd doc o (k :: lp :: (ts ++ w :: (ps ++ rp :: us))) (.forEachStatement k lp c w x rp b) := by
  refine .mk' hk (by decide) fun rest hf => ?_
  show Rd doc [] foreachStatement _ _ _
  unfold foreachStatement
  refine Rd.bind1 (Rd.consume hk) ?_
  refine Rd.bind1 (Rd.consume hl) ?_
  refine Rd.bind (hc.tok hw (by decide)) ?_
  refine Rd.bind1 (Rd.consume hw) ?_
  refine Rd.bind (hp.reads _ ⟨rp, _, rfl, hr.1, by rw [hr.2]; decide⟩) ?_
  refine Rd.bind1 (Rd.consume hr) ?_
  exact Rd.bind_last (hb rest hf) Rd.pure

/-! ## Switch -/

/-- The labels of a branch of a `switch`. -/
structure LabelsRd (doc : Token → Option Node) (ts : List Token) (cs : List (Option Node)) : Prop where
  first : Next ts fun t => t == .kwCase || t == .kwDefault
  reads : ∀ rest acc, Next rest (fun t => t != .kwCase && t != .kwDefault) →
    LoopRd doc .other (fun r (cs : List (Option Node)) => do
      match ← takeIf (fun k => k.t == .kwDefault || k.t == .kwCase) with
      | none => pure (.inr cs)
      | some k =>
        if k.t = .kwDefault then do
          let _ ← consumeOneOf [.colon, .semicolon]
          pure (.inl (cs ++ [none]))
        else do
          let e ← r.expression 0
          let _ ← consumeOneOf [.colon, .semicolon]
          pure (.inl (cs ++ [some e]))) acc ts rest (acc ++ cs)

/-- One label. -/
theorem label_case {x : Token} {cs : List (Option Node)} (hk : Tok .kwCase k) (h : DelRd doc ends ts n)
    (hx : Tok .colon x ∨ Tok .semicolon x) (hm : us = [] ∧ cs = [] ∨ LabelsRd doc us cs) :
    LabelsRd doc (k :: (ts ++ x :: us)) (some n :: cs) where
  first := ⟨k, _, rfl, hk.1, by rw [hk.2]; rfl⟩
  reads rest acc hn := by
    have e1 : k :: (ts ++ x :: us) = (k :: (ts ++ [x])) ++ us := by simp
    rw [e1]
    refine LoopRd.step (b' := acc ++ [some n]) ?_ ?_
    · refine Rd.bind1 (Rd.takeIf_yes hk.1 (by simp [hk.2])) ?_
      have e : k.t ≠ .kwDefault := by rw [hk.2]; decide
      simp only [e, if_false]
      rcases hx with hx | hx
      · refine Rd.bind (h.tok hx (by decide)) ?_
        exact Rd.bind1 (ts := []) (Rd.consumeOneOf hx (by decide)) Rd.pure
      · refine Rd.bind (h.tok hx (by decide)) ?_
        exact Rd.bind1 (ts := []) (Rd.consumeOneOf hx (by decide)) Rd.pure
    · rcases hm with ⟨rfl, rfl⟩ | hm
      · refine LoopRd.stop (Rd.bind0 (ts := []) (Rd.takeIf_no hn.ahead fun k hk => ?_) Rd.pure)
        simp only [Bool.and_eq_true, bne_iff_ne] at hk
        simp [hk.1, hk.2]
      · have := hm.reads rest (acc ++ [some n]) hn
        rwa [List.append_assoc] at this

theorem label_default {x : Token} {cs : List (Option Node)} (hk : Tok .kwDefault k)
    (hx : Tok .colon x ∨ Tok .semicolon x) (hm : us = [] ∧ cs = [] ∨ LabelsRd doc us cs) :
    LabelsRd doc (k :: x :: us) (none :: cs) where
  first := ⟨k, _, rfl, hk.1, by rw [hk.2]; rfl⟩
  reads rest acc hn := by
    refine LoopRd.step (ts := [k, x]) (b' := acc ++ [none]) ?_ ?_
    · refine Rd.bind1 (Rd.takeIf_yes hk.1 (by simp [hk.2])) ?_
      simp only [hk.2, if_true]
      rcases hx with hx | hx
      · exact Rd.bind1 (ts := []) (Rd.consumeOneOf hx (by decide)) Rd.pure
      · exact Rd.bind1 (ts := []) (Rd.consumeOneOf hx (by decide)) Rd.pure
    · rcases hm with ⟨rfl, rfl⟩ | hm
      · refine LoopRd.stop (Rd.bind0 (ts := []) (Rd.takeIf_no hn.ahead fun k hk => ?_) Rd.pure)
        simp only [Bool.and_eq_true, bne_iff_ne] at hk
        simp [hk.1, hk.2]
      · have := hm.reads rest (acc ++ [none]) hn
        rwa [List.append_assoc] at this

/-- The branches of a `switch`. -/
structure BranchesRd (doc : Token → Option Node) (t : TT) (ts : List Token) (bs : List Node) : Prop where
  nil : bs = [] → ts = []
  first : ts = [] ∨ Next ts fun t => t == .kwCase || t == .kwDefault
  reads : ∀ k rest acc, Tok t k → t = .closeCurly ∨ t = .endSwitch → LoopRd doc .other (fun r (bs : List Node) => do
    if ← nextOneOf [t] then pure (.inr bs)
    else do
      let cs ← caseList r
      let ss ← plainStatements r [t, .kwCase, .kwDefault]
      pure (.inl (bs ++ [.switchBranch cs ss]))) acc ts (k :: rest) (acc ++ bs)

theorem BranchesRd.none : BranchesRd doc t [] [] where
  nil _ := rfl
  first := .inl rfl
  reads k rest acc hk _ := by
    rw [List.append_nil]
    exact LoopRd.stop (Rd.bind0 (ts := []) (Rd.nextOneOf_tok hk (List.mem_singleton.2 rfl)) Rd.pure)

theorem BranchesRd.cons {cs : List (Option Node)} (hc : LabelsRd doc ts cs) (h : SeqRd doc o us ns) (ho : o.Free)
    (hb : BranchesRd doc t vs bs) (he : ns = [] → bs = []) (hd : us = [] ∨ Next us fun _ => true) :
    BranchesRd doc t (ts ++ (us ++ vs)) (.switchBranch cs ns :: bs) where
  nil h := nomatch h
  first := .inr hc.first.append
  reads k rest acc hk ht := by
    have ht1 : continues.contains t = false ∧ [t].all (fun x => !(x == .kwCase || x == .kwDefault)) = true ∧
        [t, .kwCase, .kwDefault].all (fun x => !stmtStart x) = true ∧ (t != .kwCase && t != .kwDefault) = true := by
      rcases ht with rfl | rfl <;> decide
    have e1 : ts ++ (us ++ vs) = (ts ++ us) ++ vs := by simp
    have hnx : Next (vs ++ k :: rest) fun x => x == t || x == .kwCase || x == .kwDefault := by
      rcases hb.first with rfl | hv
      · exact ⟨k, rest, rfl, hk.1, by simp [hk.2]⟩
      · exact (hv.mono (q := fun x => x == t || x == .kwCase || x == .kwDefault) fun x hx => by
          rcases Bool.or_eq_true_iff.1 hx with hx | hx <;> simp [hx]).append
    have hfo : Follows o (vs ++ k :: rest) := by
      cases o with
      | done => trivial
      | semi => rcases ho with h | h <;> cases h
      | tag => rcases ho with h | h <;> cases h
      | loose =>
        refine (hnx.mono fun x hx => ?_).ahead
        rw [Bool.or_eq_true_iff, Bool.or_eq_true_iff] at hx
        rcases hx with (hx | hx) | hx
        · rw [eq_of_beq hx, ht1.1]; rfl
        · rw [eq_of_beq hx]; rfl
        · rw [eq_of_beq hx]; rfl
    rw [e1]
    refine LoopRd.step (b' := acc ++ [.switchBranch cs ns]) ?_ ?_
    · refine Rd.bind0 (Rd.nextOneOf_no (p := fun t => t == .kwCase || t == .kwDefault) ?_ ht1.2.1) ?_
      · rw [List.append_assoc]; exact hc.first.append.ahead
      refine Rd.bind (a := cs) (Rd.loop (hc.reads _ [] ?_)) ?_
      · cases ns with
        | nil =>
          obtain ⟨-, rfl⟩ := h.empty
          rw [hb.nil (he rfl)]
          exact ⟨k, rest, rfl, hk.1, by rw [hk.2]; exact ht1.2.2.2⟩
        | cons m ms =>
          rcases h.first (fun e => nomatch e) with h1 | ⟨c, r, rfl, hcc⟩
          · refine (h1.mono fun x hx => ?_).append
            cases hb : (x != .kwCase && x != .kwDefault) with
            | true => rfl
            | false =>
              have : x = .kwCase ∨ x = .kwDefault := by
                by_cases h1 : x = .kwCase
                · exact .inl h1
                · refine .inr ?_
                  simpa [h1] using hb
              rcases this with rfl | rfl <;> cases hx
          · rcases hd with hd | ⟨k', r', e, hk', -⟩
            · cases hd
            · cases e
              obtain ⟨h1, h2, h3⟩ := solid_iff.1 hk'.solid
              simp [hcc.type, isTrivia] at h1 h2 h3
      · refine Rd.bind_last (h.plain hnx (fun x hx => ?_) ht1.2.2.1 hfo) Rd.pure
        rw [Bool.or_eq_true_iff, Bool.or_eq_true_iff] at hx
        rcases hx with (hx | hx) | hx <;> simp [eq_of_beq hx]
    · have := hb.reads k rest (acc ++ [.switchBranch cs ns]) hk ht
      rwa [List.append_assoc] at this

theorem switch_reads {x oc cc : Token} {w : TT} (hk : Tok .kwSwitch k) (hl : Tok .openParenthesis lp) (hx : DelRd doc ends ts c)
    (hr : Tok .closeParenthesis rp) (ho : (Tok .openCurly oc ∧ w = .closeCurly) ∨ (Tok .colon oc ∧ w = .endSwitch))
    (hb : BranchesRd doc w us bs) (hc : Tok w cc) (rest : List Token) :
    Rd doc [] switchStatement (k :: lp :: (ts ++ rp :: oc :: (us ++ [cc]))) rest (.switchCase k lp c rp (.switchBody oc bs cc)) := by
  unfold switchStatement
  refine Rd.bind1 (Rd.consume hk) ?_
  refine Rd.bind1 (Rd.consume hl) ?_
  refine Rd.bind (hx.tok hr (by decide)) ?_
  refine Rd.bind1 (Rd.consume hr) ?_
  refine Rd.bind_last (a := Node.switchBody oc bs cc) ?_ Rd.pure
  unfold switchBody
  have hw : w = .closeCurly ∨ w = .endSwitch := ho.imp (·.2) (·.2)
  refine Rd.bind1 (a := (oc, w)) ?_ ?_
  · rcases ho with ⟨ho, rfl⟩ | ⟨ho, rfl⟩
    · refine Rd.bind0 (Rd.nextOneOf_no (ho.next (rest := us ++ [cc] ++ rest)).ahead (by decide)) ?_
      exact Rd.bind1 (ts := []) (Rd.consume ho) Rd.pure
    · refine Rd.bind0 (Rd.nextOneOf_tok ho (by decide)) ?_
      exact Rd.bind1 (ts := []) (Rd.consume ho) Rd.pure
  · refine Rd.bind (a := bs) (Rd.loop (hb.reads cc rest [] hc hw)) ?_
    exact Rd.bind1 (ts := []) (Rd.consume hc) Rd.pure

theorem StmtRd.switch {oc cc : Token} (hk : Tok .kwSwitch k) (hl : Tok .openParenthesis lp) (hx : DelRd doc ends ts c)
    (hr : Tok .closeParenthesis rp) (ho : Tok .openCurly oc) (hb : BranchesRd doc .closeCurly us bs) (hc : Tok .closeCurly cc) :
    StmtRd doc .done (k :: lp :: (ts ++ rp :: oc :: (us ++ [cc]))) (.switchCase k lp c rp (.switchBody oc bs cc)) :=
  .mk' hk (by decide) fun rest _ => switch_reads (x := k) hk hl hx hr (.inl ⟨ho, rfl⟩) hb hc rest

theorem StmtRd.altSwitch {oc cc : Token} (hk : Tok .kwSwitch k) (hl : Tok .openParenthesis lp) (hx : DelRd doc ends ts c)
    (hr : Tok .closeParenthesis rp) (ho : Tok .colon oc) (hb : BranchesRd doc .endSwitch us bs) (hc : Tok .endSwitch cc) :
    StmtRd doc .semi (k :: lp :: (ts ++ rp :: oc :: (us ++ [cc]))) (.switchCase k lp c rp (.switchBody oc bs cc)) :=
  .mk' hk (by decide) fun rest _ => switch_reads (x := k) hk hl hx hr (.inr ⟨ho, rfl⟩) hb hc rest

/-! ## Exceptions -/

/-- The `catch`es of a `try`. -/
structure CatchesRd (doc : Token → Option Node) (ts : List Token) (cs : List Node) : Prop where
  reads : ∀ rest acc, Ahead rest (· != .kwCatch) → LoopRd doc .other (fun r (cs : List Node) => do
    if ← nextOneOf [.kwCatch] then do
      let c ← catchBlock r
      pure (.inl (cs ++ [c]))
    else pure (.inr cs)) acc ts rest (acc ++ cs)

theorem CatchesRd.none : CatchesRd doc [] [] where
  reads rest acc ha := by
    rw [List.append_nil]
    exact LoopRd.stop (Rd.bind0 (ts := []) (Rd.nextOneOf_no ha (by decide)) Rd.pure)

theorem CatchesRd.cons {v : Token} {tys cs : List Node} (hk : Tok .kwCatch k) (hl : Tok .openParenthesis lp)
    (ht : Names .binaryOr ts tys) (hv : Tok .variable v) (hr : Tok .closeParenthesis rp) (hb : BlockRd doc us b)
    (hm : CatchesRd doc vs cs) :
    CatchesRd doc (k :: lp :: (ts ++ v :: rp :: (us ++ vs))) (.catchBlock k lp tys v rp b :: cs) where
  reads rest acc ha := by
    have e1 : k :: lp :: (ts ++ v :: rp :: (us ++ vs)) = (k :: lp :: (ts ++ v :: rp :: us)) ++ vs := by simp
    rw [e1]
    refine LoopRd.step (b' := acc ++ [.catchBlock k lp tys v rp b]) ?_ ?_
    · refine Rd.bind0 (Rd.nextOneOf_tok hk (by decide)) ?_
      refine Rd.bind_last (a := Node.catchBlock k lp tys v rp b) ?_ Rd.pure
      unfold catchBlock
      refine Rd.bind1 (Rd.consume hk) ?_
      refine Rd.bind1 (Rd.consume hl) ?_
      refine Rd.bind (ht.union ⟨v, _, rfl, hv.1, by rw [hv.2]; decide⟩) ?_
      refine Rd.bind1 (Rd.consume hv) ?_
      refine Rd.bind1 (Rd.consume hr) ?_
      exact Rd.bind_last (hb.reads _) Rd.pure
    · have := hm.reads rest (acc ++ [.catchBlock k lp tys v rp b]) ha
      rwa [List.append_assoc] at this

theorem StmtRd.try {cs : List Node} (hk : Tok .kwTry k) (hb : BlockRd doc ts b) (hc : CatchesRd doc us cs) :
    StmtRd doc .loose (k :: (ts ++ us)) (.tryCatch k b cs none) := by
  refine .mk' hk (by decide) fun rest hf => ?_
  have ha : Ahead rest fun t => !continues.contains t := hf
  show Rd doc [] tryCatchStatement _ _ _
  unfold tryCatchStatement
  refine Rd.bind1 (Rd.consume hk) ?_
  refine Rd.bind (hb.reads _) ?_
  refine Rd.bind_last (a := cs) (Rd.loop (hc.reads rest [] (ahead_not ha (by decide)))) ?_
  exact Rd.bind0 (ts := []) (Rd.ignore_no (ahead_not ha (t := .kwFinally) (by decide)) (by decide)) Rd.pure

theorem StmtRd.tryFinally {cs : List Node} {f : Token} (hk : Tok .kwTry k) (hb : BlockRd doc ts b) (hc : CatchesRd doc us cs)
    (hf : Tok .kwFinally f) (hb' : BlockRd doc vs b') :
    StmtRd doc .done (k :: (ts ++ (us ++ f :: vs))) (.tryCatch k b cs (some (.finallyBlock f b'))) := by
  refine .mk' hk (by decide) fun rest _ => ?_
  show Rd doc [] tryCatchStatement _ _ _
  unfold tryCatchStatement
  refine Rd.bind1 (Rd.consume hk) ?_
  refine Rd.bind (hb.reads _) ?_
  refine Rd.bind (a := cs) (Rd.loop (hc.reads _ [] (.inl ⟨f, _, rfl, hf.1, by rw [hf.2]; rfl⟩))) ?_
  refine Rd.bind1 (Rd.ignore_yes hf) ?_
  exact Rd.bind_last (hb'.reads _) Rd.pure

/-! ## Namespaces -/

theorem StmtRd.namespace (hk : Tok .kwNamespace k) (h : Name ts n) (he : Tok .semicolon e) :
    StmtRd doc .done (k :: (ts ++ [e])) (.namespaceStatement k n) := by
  refine .mk' hk (by decide) fun rest _ => ?_
  show Rd doc [] namespaceStatement _ _ _
  unfold namespaceStatement
  refine Rd.bind1 (Rd.consume hk) ?_
  refine Rd.bind (h.typeRef ⟨e, _, rfl, he.1, by rw [he.2]; decide⟩) ?_
  refine Rd.bind0 (Rd.nextOneOf_no he.next.ahead (by decide)) ?_
  exact Rd.bind1 (ts := []) (Rd.ffAfter_yes he) Rd.pure

theorem StmtRd.namespaceBlock (hk : Tok .kwNamespace k) (h : Name ts n) (hb : BlockRd doc us b) :
    StmtRd doc .done (k :: (ts ++ us)) (.namespaceBlock k (some n) b) := by
  refine .mk' hk (by decide) fun rest _ => ?_
  show Rd doc [] namespaceStatement _ _ _
  unfold namespaceStatement
  refine Rd.bind1 (Rd.consume hk) ?_
  refine Rd.bind (h.typeRef (hb.next (by decide))) ?_
  refine Rd.bind0 (Rd.nextOneOf_yes (hb.next (p := (· == .openCurly)) rfl) (tok_mem (by decide))) ?_
  exact Rd.bind_last (hb.reads _) Rd.pure

theorem StmtRd.use {u : UseStmt} {kind : UseKind} (h : u.Ok kind) : StmtRd doc .done u.toks (u.node kind) := by
  have hu : Tok .kwUse u.use := h.use
  refine .mk' (t := .kwUse) hu (by decide) fun rest _ => ?_
  exact Rd.of (use_reads h) (hu.next (rest := u.kw.toList ++ (u.first.toks ++ (u.more.flatMap (fun p => p.1 :: p.2.toks) ++ [u.semi])) ++ rest))

theorem StmtRd.block (h : BlockRd doc ts n) : StmtRd doc .done ts n where
  first := h.first.mono fun t ht => by rw [eq_of_beq ht]; decide
  reads rest _ := by
    obtain ⟨k, r, rfl, hk, ht⟩ := h.first
    have ht : k.t = .openCurly := eq_of_beq ht
    refine stmt_of hk (by rw [ht]; decide) ?_
    rw [ht]
    exact h.reads rest

/-! ## Declarations -/

/-- The words a declaration starts with. -/
def declStart : List TT := [.kwFunction, .kwClass, .kwAbstract, .kwFinal, .kwInterface, .kwTrait]

/-- A declaration. -/
def DeclRd (doc : Token → Option Node) (d : Option Node) (as : List Node) (ts : List Token) (n : Node) : Prop :=
  ∃ k r, ts = k :: r ∧ Plain k ∧ k.t ∈ declStart ∧
    ∀ ds rest, Waits doc ds d → Rd doc ds (fun r => dispatch r as k.t) ts rest n

theorem decl_start : ∀ t ∈ declStart, stmtStart t = true ∧ t ≠ .attributeStart := by decide

theorem DeclRd.mk' {d : Option Node} {as : List Node} (hk : Tok t k) (ht : t ∈ declStart)
    (H : ∀ ds rest, Waits doc ds d → Rd doc ds (fun r => dispatch r as t) (k :: ts) rest n) : DeclRd doc d as (k :: ts) n :=
  ⟨k, ts, rfl, hk.1, by rw [hk.2]; exact ht, by rw [hk.2]; exact H⟩

theorem DeclRd.declared {as : List Token} {ats : List Node} (ha : AttrsRd doc as ats) (h : DeclRd doc none ats ts n) :
    StmtRd doc .done (as ++ ts) n := by
  obtain ⟨k, r, rfl, hk, ht, h⟩ := h
  refine ⟨ha.next ⟨k, _, rfl, hk, (decl_start _ ht).1⟩ (by decide), fun rest _ => ?_⟩
  unfold Parser.scriptStatement
  refine Rd.bind (ha.block ⟨k, _, rfl, hk, by simpa using (decl_start _ ht).2⟩) ?_
  exact Rd.bind0 (Rd.of (p := fun _ => true) (Reads.peek hk) ⟨k, _, rfl, hk, rfl⟩) (h [] rest .none)

theorem DeclRd.documented {x : Node} (hc : Comment k) (hx : doc k = some x) (h : DeclRd doc (some x) [] ts n) :
    TopRd doc .done (k :: ts) n := by
  obtain ⟨k', r, rfl, hk, ht, h⟩ := h
  refine ⟨[k], k' :: r, rfl, .inr ⟨k, rfl, hc⟩, ⟨k', _, rfl, hk, (decl_start _ ht).1⟩, fun rest _ => ?_⟩
  unfold Parser.scriptStatement
  refine Rd.after (ts := []) (p := fun _ => true) (a := []) (us := k' :: r) ?_ ⟨k', _, rfl, hk, rfl⟩ ?_
  · refine Reads.loop (LoopReads.stop ?_)
    exact Reads.bind0 (ts := []) (Reads.nextOneOf_no (rest := r ++ rest) hk (by simpa using (decl_start _ ht).2)) Reads.pure
  · refine Rd.after (ts := []) (p := fun _ => true) (us := k' :: r) (Reads.peek (rest := r ++ rest) hk) ⟨k', _, rfl, hk, rfl⟩ ?_
    exact h [k] rest (.one hx)

variable {d ex : Option Node} {ats : List Node} {as es is : List Token} {a ab fi : Option Token} {w : Token}
  {i : Option (List Node)} {f : Node} {ms : List Token}

theorem DeclRd.function (hk : Tok .kwFunction k) (ha : OptTok .binaryAnd as a) (hw : Word w)
    (h : ∀ rest, Rd doc [] (fun r => anonymousFunctionStatement r d) ts rest f) :
    DeclRd doc d ats (k :: (as ++ w :: ts)) (.namedFunctionDefinitionStatement k a w f ats) := by
  refine .mk' hk (by decide) fun ds rest hd => ?_
  show Rd doc ds (fun r => popDoc r.doc >>= fun doc => namedFunction r doc ats) _ _ _
  refine Rd.bind0 (Rd.popDoc hd) ?_
  unfold namedFunction
  refine Rd.bind1 (Rd.consume hk) ?_
  refine Rd.bind (ha.ignore (p := TT.isIdentifier) hw.next rfl) ?_
  refine Rd.bind1 (Rd.consumeIdentifier hw) ?_
  exact Rd.bind_last (h _) Rd.pure

theorem class_reads (hk : Tok .kwClass k) (hw : Word w) (he : Extends es ex) (hi : Heirs .kwImplements is i)
    (hb : ClassRd doc us b) {ds : List Token} (hd : Waits doc ds d) (rest : List Token) :
    Rd doc ds (fun r => classStatement r ab fi ats) (k :: w :: (es ++ (is ++ us))) rest
      (.classStatement k w ab fi i ex b d ats) := by
  have n1 : ∀ {q : TT → Bool}, q .openCurly = true → Next (us ++ rest) q := fun hq => hb.next hq
  have n2 : ∀ {q : TT → Bool}, q .openCurly = true → q .kwImplements = true → Next (is ++ us ++ rest) q := fun h1 h2 => by
    rw [List.append_assoc]; exact hi.next (n1 h1) h2
  unfold classStatement
  refine Rd.bind0 (Rd.popDoc hd) ?_
  refine Rd.bind1 (Rd.consume hk) ?_
  refine Rd.bind1 (Rd.consumeIdentifier hw) ?_
  refine Rd.bind (he.reads (n2 rfl rfl)) ?_
  refine Rd.bind (hi.reads (n1 rfl)) ?_
  exact Rd.bind_last (hb.reads _) Rd.pure

theorem DeclRd.class (hm : (OptTok .kwAbstract ms ab ∧ fi = none) ∨ (OptTok .kwFinal ms fi ∧ ab = none)) (hk : Tok .kwClass k)
    (hw : Word w) (he : Extends es ex) (hi : Heirs .kwImplements is i) (hb : ClassRd doc us b) :
    DeclRd doc d ats (ms ++ k :: w :: (es ++ (is ++ us))) (.classStatement k w ab fi i ex b d ats) := by
  rcases hm with ⟨hm, rfl⟩ | ⟨hm, rfl⟩
  · cases hm with
    | none => exact .mk' hk (by decide) fun ds rest hd => class_reads hk hw he hi hb hd rest
    | some hm =>
      refine .mk' hm (by decide) fun ds rest hd => ?_
      exact Rd.after (ts := [_]) (Reads.consume hm.1 hm.2) hm.next (class_reads hk hw he hi hb hd rest)
  · cases hm with
    | none => exact .mk' hk (by decide) fun ds rest hd => class_reads hk hw he hi hb hd rest
    | some hm =>
      refine .mk' hm (by decide) fun ds rest hd => ?_
      exact Rd.after (ts := [_]) (Reads.consume hm.1 hm.2) hm.next (class_reads hk hw he hi hb hd rest)

theorem DeclRd.interface (hk : Tok .kwInterface k) (hw : Tok .identifier w) (he : Heirs .kwExtends es i) (hb : ClassRd doc us b) :
    DeclRd doc d ats (k :: w :: (es ++ us)) (.interface k w i b d) := by
  refine .mk' hk (by decide) fun ds rest hd => ?_
  show Rd doc ds interface' _ _ _
  unfold interface'
  refine Rd.bind0 (Rd.popDoc hd) ?_
  refine Rd.bind1 (Rd.consume hk) ?_
  refine Rd.bind1 (Rd.consume hw) ?_
  refine Rd.bind (he.reads (hb.next rfl)) ?_
  exact Rd.bind_last (hb.reads _) Rd.pure

theorem DeclRd.trait (hk : Tok .kwTrait k) (hw : Tok .identifier w) (hb : ClassRd doc us b) :
    DeclRd doc d ats (k :: w :: us) (.traitStatement k w b d) := by
  refine .mk' hk (by decide) fun ds rest hd => ?_
  show Rd doc ds traitStatement _ _ _
  unfold traitStatement
  refine Rd.bind0 (Rd.popDoc hd) ?_
  refine Rd.bind1 (Rd.consume hk) ?_
  refine Rd.bind1 (Rd.consume hw) ?_
  exact Rd.bind_last (hb.reads _) Rd.pure

/-! ## Class members -/

/-- A token a class member may start with. -/
def memberStart (t : TT) : Bool := t != .kwUse && t != .attributeStart && t != .closeCurly

/-- A class member. -/
structure MemberRd (doc : Token → Option Node) (d : Option Node) (as : List Node) (ts : List Token) (n : Node) : Prop where
  first : Next ts memberStart
  reads : ∀ rest, Rd doc [] (fun r => classMember r d as) ts rest n

/-- A member in the body of a class, with the comment in front of it. -/
def EntryRd (doc : Token → Option Node) (ts : List Token) (n : Node) : Prop :=
  ∃ cs us, ts = cs ++ us ∧ Lead cs ∧ Next us (· != .closeCurly) ∧ ∀ rest, Rd doc cs classBlockStatement us rest n

/-- The members of a class. -/
inductive EntriesRd (doc : Token → Option Node) : List Token → List Node → Prop where
  | nil : EntriesRd doc [] []
  | cons {ts us : List Token} {n : Node} {ns : List Node} (h : EntryRd doc ts n) (hm : EntriesRd doc us ns) :
      EntriesRd doc (ts ++ us) (n :: ns)

theorem MemberRd.entry {x : List Token} (ha : AttrsRd doc x ats) (h : MemberRd doc none ats ts n) : EntryRd doc (x ++ ts) n := by
  have h1 : Next (x ++ ts) fun t => t != .kwUse && t != .closeCurly :=
    ha.next (h.first.mono fun t ht => by
      obtain ⟨h1, h2⟩ := Bool.and_eq_true_iff.1 ht
      rw [(Bool.and_eq_true_iff.1 h1).1, h2]; rfl) rfl
  refine ⟨[], x ++ ts, rfl, .inl rfl, h1.mono fun t ht => (Bool.and_eq_true_iff.1 ht).2, fun rest => ?_⟩
  unfold classBlockStatement
  refine Rd.bind0 (Rd.nextOneOf_no h1.append.ahead (by decide)) ?_
  refine Rd.bind0 Rd.popDoc_none ?_
  refine Rd.bind (ha.block (h.first.append.mono fun t ht => ?_)) ?_
  · exact (Bool.and_eq_true_iff.1 (Bool.and_eq_true_iff.1 ht).1).2
  exact Rd.bind0 Rd.popDoc_none (h.reads rest)

theorem MemberRd.documented {x : Node} (hc : Comment k) (hx : doc k = some x) (h : MemberRd doc (some x) [] ts n) :
    EntryRd doc (k :: ts) n := by
  refine ⟨[k], ts, rfl, .inr ⟨k, rfl, hc⟩, h.first.mono fun t ht => (Bool.and_eq_true_iff.1 ht).2, fun rest => ?_⟩
  obtain ⟨hf, hr⟩ := h
  obtain ⟨k', r, rfl, hk, ht⟩ := hf
  have ht' : Next (k' :: r ++ rest) memberStart := ⟨k', _, rfl, hk, ht⟩
  unfold classBlockStatement
  refine Rd.after (ts := []) (us := k' :: r) (Reads.nextOneOf_no (rest := r ++ rest) hk ?_) ht' ?_
  · intro e
    rw [List.mem_singleton.1 e] at ht
    cases ht
  refine Rd.bind0 (Rd.popDoc (.one hx)) ?_
  refine Rd.bind0 (AttrsRd.none.block (ht'.mono fun t ht => ?_)) (hr rest)
  exact (Bool.and_eq_true_iff.1 (Bool.and_eq_true_iff.1 ht).1).2

theorem traits_loop {acc : List Node} (h : Names .comma ts ns)
    (hn : Next rest fun t => t != .namespaceSeparator && t != .openCurly && t != .comma) :
    LoopRd doc .other (fun r (ts : List Node) => do
      if ← nextOneOf [.semicolon] then pure (.inr (Sum.inl (β := List Node) ts))
      else do
        let t ← nonEmptyTypeRef r
        if ← nextOneOf [.openCurly] then do
          let g ← traitUsageAlterationGroup r (ts ++ [t])
          pure (.inr (.inr [g]))
        else do
          match ← consumeOrIgnore .comma with
          | some _ => pure (.inl (ts ++ [t]))
          | none => pure (.inr (.inl (ts ++ [t])))) acc ts rest (.inl (acc ++ ns)) := by
  induction h generalizing acc with
  | one h =>
    refine LoopRd.stop ?_
    refine Rd.bind0 (Rd.nextOneOf_no h.next.append.ahead (by decide)) ?_
    refine Rd.bind_last (h.reads (hn.mono fun t ht => (Bool.and_eq_true_iff.1 (Bool.and_eq_true_iff.1 ht).1).1)) ?_
    refine Rd.bind0 (Rd.nextOneOf_no hn.ahead (by decide)) ?_
    exact Rd.bind0 (ts := []) (Rd.ignore_no hn.ahead (by decide)) Rd.pure
  | @more ts us k n ns h hk hm ih =>
    have e1 : ts ++ k :: us = (ts ++ [k]) ++ us := by simp
    rw [e1]
    refine LoopRd.step (b' := acc ++ [n]) ?_ ?_
    · refine Rd.bind0 (Rd.nextOneOf_no (p := fun t => t == .namespaceSeparator || t.isIdentifier) ?_ (by decide)) ?_
      · rw [List.append_assoc]; exact h.next.append.ahead
      refine Rd.bind (h.reads ⟨k, _, rfl, hk.1, by rw [hk.2]; decide⟩) ?_
      refine Rd.bind0 (Rd.nextOneOf_no hk.next.ahead (by decide)) ?_
      exact Rd.bind1 (ts := []) (Rd.ignore_yes hk) Rd.pure
    · have := ih (acc := acc ++ [n])
      rwa [List.append_assoc] at this

theorem EntryRd.useTraits (hk : Tok .kwUse k) (h : Names .comma ts ns) (he : Tok .semicolon e) :
    EntryRd doc (k :: (ts ++ [e])) (.useTraitStatement k (ns.map Node.useTrait)) := by
  refine ⟨[], k :: (ts ++ [e]), rfl, .inl rfl, ⟨k, _, rfl, hk.1, by rw [hk.2]; rfl⟩, fun rest => ?_⟩
  unfold classBlockStatement
  refine Rd.bind0 (Rd.nextOneOf_tok hk (by decide)) ?_
  unfold useTraitStatement
  refine Rd.bind1 (Rd.consume hk) ?_
  refine Rd.bind_last (a := ns.map Node.useTrait) ?_ Rd.pure
  unfold traitUsages
  refine Rd.bind (a := Sum.inl ns) (Rd.loop (traits_loop (acc := []) h ⟨e, _, rfl, he.1, by rw [he.2]; decide⟩)) ?_
  exact Rd.bind1 (ts := []) (Rd.ffAfter_yes he) Rd.pure

theorem mods_reads (hm : AllMods ms) (ho : InOrder ms) (hn : Next rest fun t => !modifierSet.contains t)
    (hnx : Next (ms ++ rest) p) : Rd doc [] modifiers ms rest (slots ms) := by
  obtain ⟨k, r, rfl, hk, ht⟩ := hn
  have := C21_modifiers_kept (doc := doc) (rest := r) hm hk (by simpa using ht)
  rw [lastRun_of_inOrder ho] at this
  exact Rd.of this hnx

theorem mods_start (hm : AllMods ms) (hn : Next rest memberStart) : Next (ms ++ rest) memberStart := by
  cases ms with
  | nil => exact hn
  | cons x ms =>
    have hx := hm x (List.mem_cons_self ..)
    refine ⟨x, _, rfl, hx.1, ?_⟩
    have : ∀ t ∈ modifierSet, memberStart t = true := by decide
    exact this _ hx.2

theorem classConsts_reads {vis : Option Token} (h : SepBy (ClassConstRd doc vis) false ts ns)
    (hn : Next rest fun t => ends t && t != .comma) : Rd doc [] (fun r => classConsts r vis) ts rest ns := by
  have key : ∀ acc : List Node, LoopRd doc .other (fun r (cs : List Node) => do
      let name ← consumeIdentifier
      consumeOrFfAfter .assignment [.semicolon]
      let value ← r.expression 0
      match ← consumeOrIgnore .comma with
      | some _ => pure (.inl (cs ++ [.classConstant vis name value]))
      | none => pure (.inr (cs ++ [.classConstant vis name value]))) acc ts rest (acc ++ ns) := by
    induction h with
    | nil hb => cases hb
    | last h =>
      intro acc
      obtain ⟨k, w, us, x, rfl, hk, hw, hx, rfl⟩ := h
      refine LoopRd.stop ?_
      refine Rd.bind1 (Rd.consumeIdentifier hk) ?_
      refine Rd.bind1 (Rd.ffAfter_yes hw) ?_
      refine Rd.bind_last (hx.reads _ (hn.mono fun t ht => (Bool.and_eq_true_iff.1 ht).1)) ?_
      exact Rd.bind0 (ts := []) (Rd.ignore_no hn.ahead (by decide)) Rd.pure
    | @cons ts us' c n ns h hc hm ih =>
      intro acc
      obtain ⟨k, w, us, x, rfl, hk, hw, hx, rfl⟩ := h
      have e1 : k :: w :: us ++ c :: us' = (k :: w :: (us ++ [c])) ++ us' := by simp
      rw [e1]
      refine LoopRd.step (b' := acc ++ [.classConstant vis k x]) ?_ ?_
      · refine Rd.bind1 (Rd.consumeIdentifier hk) ?_
        refine Rd.bind1 (Rd.ffAfter_yes hw) ?_
        refine Rd.bind (hx.tok hc (by decide)) ?_
        exact Rd.bind1 (ts := []) (Rd.ignore_yes hc) Rd.pure
      · have := ih (acc ++ [.classConstant vis k x])
        rwa [List.append_assoc] at this
  exact Rd.loop (key [])

theorem propValue_reads (h : PropRd doc ts n) (hn : Next rest fun t => ends t && t != .assignment) :
    ∃ v us o, ts = v :: us ∧ Tok .variable v ∧ n = .property v o ∧ Rd doc [] (fun r => (do
      match ← consumeOrIgnore .assignment with
      | some _ => do
        let e ← r.expression 0
        pure (some e)
      | none => pure none : P (Option Node))) us rest o := by
  obtain ⟨v, hv, ⟨rfl, rfl⟩ | ⟨w, us, x, rfl, hw, hx, rfl⟩⟩ := h
  · exact ⟨v, [], none, rfl, hv, rfl, Rd.bind0 (ts := []) (Rd.ignore_no hn.ahead (by decide)) Rd.pure⟩
  · refine ⟨v, w :: us, some x, rfl, hv, rfl, Rd.bind1 (Rd.ignore_yes hw) ?_⟩
    exact Rd.bind_last (hx.reads _ (hn.mono fun t ht => (Bool.and_eq_true_iff.1 ht).1)) Rd.pure

theorem classProps_reads (h : SepBy (PropRd doc) false ts ns)
    (hn : Next rest fun t => ends t && t != .assignment && t != .comma) : Rd doc [] classProps ts rest ns := by
  have key : ∀ acc : List Node, LoopRd doc .other (fun r (ps : List Node) => do
      let name ← consume .variable
      let value ← (do
        match ← consumeOrIgnore .assignment with
        | some _ => do
          let e ← r.expression 0
          pure (some e)
        | none => pure none : P (Option Node))
      match ← consumeOrIgnore .comma with
      | some _ => pure (.inl (ps ++ [.property name value]))
      | none => pure (.inr (ps ++ [.property name value]))) acc ts rest (acc ++ ns) := by
    induction h with
    | nil hb => cases hb
    | last h =>
      intro acc
      obtain ⟨v, us, o, rfl, hv, rfl, hr⟩ := propValue_reads h (hn.mono fun t ht => (Bool.and_eq_true_iff.1 ht).1)
      refine LoopRd.stop ?_
      refine Rd.bind1 (Rd.consume hv) ?_
      refine Rd.bind_last hr ?_
      exact Rd.bind0 (ts := []) (Rd.ignore_no hn.ahead (by decide)) Rd.pure
    | @cons ts us' c n ns h hc hm ih =>
      intro acc
      obtain ⟨v, us, o, rfl, hv, rfl, hr⟩ := propValue_reads h (rest := c :: (us' ++ rest))
        ⟨c, _, rfl, hc.1, by rw [hc.2]; decide⟩
      have e1 : v :: us ++ c :: us' = (v :: (us ++ [c])) ++ us' := by simp
      rw [e1]
      refine LoopRd.step (b' := acc ++ [.property v o]) ?_ ?_
      · refine Rd.bind1 (Rd.consume hv) ?_
        refine Rd.bind hr ?_
        exact Rd.bind1 (ts := []) (Rd.ignore_yes hc) Rd.pure
      · have := ih (acc ++ [.property v o])
        rwa [List.append_assoc] at this
  exact Rd.loop (key [])

theorem MemberRd.const (hm : AllMods ms) (ho : InOrder ms) (hk : Tok .kwConst k)
    (h : SepBy (ClassConstRd doc (slots ms).2.2.1) false ts ns) (he : Tok .semicolon e) :
    MemberRd doc d ats (ms ++ k :: (ts ++ [e])) (.classConstantDefinitionStatement k ns d (slots ms).2.2.1 ats) where
  first := mods_start hm ⟨k, _, rfl, hk.1, by rw [hk.2]; rfl⟩
  reads rest := by
    unfold classMember
    refine Rd.bind (mods_reads (p := memberStart) hm ho ⟨k, _, rfl, hk.1, by rw [hk.2]; decide⟩
      (mods_start hm ⟨k, _, rfl, hk.1, by rw [hk.2]; rfl⟩)) ?_
    refine Rd.bind1 (Rd.ignore_yes hk) ?_
    refine Rd.bind (classConsts_reads h ⟨e, _, rfl, he.1, by rw [he.2]; decide⟩) ?_
    exact Rd.bind1 (ts := []) (Rd.ffAfter_yes he) Rd.pure

theorem MemberRd.method (hm : AllMods ms) (ho : InOrder ms) (hk : Tok .kwFunction k) (ha : OptTok .binaryAnd as a) (hw : Word w)
    (h : ∀ rest, Rd doc [] (fun r => anonymousFunctionStatement r d) ts rest f) :
    MemberRd doc d ats (ms ++ k :: (as ++ w :: ts))
      (.methodDefinitionStatement k (slots ms).2.1 a w (slots ms).2.2.1 (slots ms).1 f (slots ms).2.2.2 d ats) where
  first := mods_start hm ⟨k, _, rfl, hk.1, by rw [hk.2]; rfl⟩
  reads rest := by
    unfold classMember
    refine Rd.bind (mods_reads (p := memberStart) hm ho ⟨k, _, rfl, hk.1, by rw [hk.2]; decide⟩
      (mods_start hm ⟨k, _, rfl, hk.1, by rw [hk.2]; rfl⟩)) ?_
    refine Rd.bind0 (Rd.ignore_no (hk.next (rest := as ++ w :: ts ++ rest)).ahead rfl) ?_
    refine Rd.bind1 (Rd.ignore_yes hk) ?_
    refine Rd.bind (ha.ignore (p := TT.isIdentifier) hw.next rfl) ?_
    refine Rd.bind1 (Rd.consumeIdentifier hw) ?_
    exact Rd.bind_last (h _) Rd.pure

theorem MemberRd.property {ys : List Token} {ty : Option Node} (hm : AllMods ms) (hn : ms ≠ []) (ho : InOrder ms)
    (ht : OptType ys ty) (hs : Next (ys ++ ts) fun t => t != .kwConst && t != .kwFunction && !modifierSet.contains t)
    (h : SepBy (PropRd doc) false ts ns) (he : Tok .semicolon e) :
    MemberRd doc d ats (ms ++ (ys ++ (ts ++ [e])))
      (.propertyDefinitionStatement ns d (slots ms).2.2.1 ty (slots ms).2.2.2 (slots ms).1 ats) := by
  have hf : ∀ {x}, Next (ms ++ x) memberStart := fun {x} => by
    cases ms with
    | nil => exact absurd rfl hn
    | cons y ms =>
      have hx := hm y (List.mem_cons_self ..)
      refine ⟨y, _, rfl, hx.1, ?_⟩
      have : ∀ t ∈ modifierSet, memberStart t = true := by decide
      exact this _ hx.2
  refine ⟨hf, fun rest => ?_⟩
  have hs' : Next (ys ++ (ts ++ [e]) ++ rest) fun t => t != .kwConst && t != .kwFunction && !modifierSet.contains t := by
    have e1 : ys ++ (ts ++ [e]) ++ rest = ys ++ ts ++ ([e] ++ rest) := by simp
    rw [e1]
    exact hs.append
  have hv : Next (ts ++ [e] ++ rest) (· == .variable) := by
    have h1 : Next ts (· == .variable) := h.next fun _ _ h => by
      obtain ⟨v, hv, ⟨rfl, -⟩ | ⟨w, us, x, rfl, -⟩⟩ := h
      · exact hv.next
      · exact hv.next
    exact h1.append.append
  unfold classMember
  refine Rd.bind (mods_reads (p := memberStart) hm ho (hs'.mono fun t ht => (Bool.and_eq_true_iff.1 ht).2) hf) ?_
  refine Rd.bind0 (Rd.ignore_no hs'.ahead (by decide)) ?_
  refine Rd.bind0 (Rd.ignore_no hs'.ahead (by decide)) ?_
  refine Rd.bind (a := ty) ?_ ?_
  · cases ht with
    | none => exact Rd.bind0 (Rd.nextOneOf_yes hv (tok_mem (by decide))) Rd.pure
    | some ht =>
      refine Rd.bind0 (Rd.nextOneOf_no (p := (· != .variable)) ?_ (by decide)) ?_
      · have : Next (ys ++ (ts ++ [e] ++ rest)) (· != .variable) := by
          cases ht with
          | plain h => exact (h.next.mono fun t ht => by
              rcases Bool.or_eq_true_iff.1 ht with ht | ht
              · rw [eq_of_beq ht]; rfl
              · simpa using ident_ne ht (t' := .variable) rfl).append
          | nullable hk h => exact ⟨_, _, rfl, hk.1, by rw [hk.2]; rfl⟩
        exact this.ahead
      · exact Rd.bind_last (ht.dataType (hv.mono fun t ht => by rw [eq_of_beq ht]; decide)) Rd.pure
  · refine Rd.bind (classProps_reads h ⟨e, _, rfl, he.1, by rw [he.2]; decide⟩) ?_
    exact Rd.bind1 (ts := []) (Rd.ffAfter_yes he) Rd.pure

/-! ### The body of a class -/

/-- The body of the loop of `classes::class_block`. -/
def membersBody (r : Rec) (stmts : List Node) : P (List Node ⊕ List Node) := do
  if ← nextOneOf [.closeCurly] then pure (.inr stmts)
  else do
    let stmts ← P.catchErr (classBlockStatement r) (fun n => pure (stmts ++ [n])) (fun _ => pure stmts)
    match ← peek with
    | none => pure (.inr stmts)
    | some _ => pure (.inl stmts)

/-- The loop over the members, from a state in which the comment in front of the first one may already wait. -/
theorem members_loop {cc : Token} (h : EntriesRd doc ts ns) (hc : Tok .closeCurly cc) (acc : List Node) :
    ∀ cs us, ts = cs ++ us → Lead cs → Next (us ++ cc :: rest) (fun _ => true) → ∀ s : PSt, s.ctx = .script →
      (s.docs = [] ∧ s.toks = ts ++ cc :: rest ∨ s.docs = cs ∧ s.toks = us ++ cc :: rest) →
      ∃ s' : PSt, s'.toks = cc :: rest ∧ s'.docs = [] ∧ s'.ctx = .script ∧ s'.errors = s.errors ∧
        ∃ n0, ∀ n m, n0 ≤ n → n0 ≤ m → loopP .other m (membersBody (knot doc n)) acc s = .ok (acc ++ ns) s' := by
  induction h generalizing acc with
  | nil =>
    rintro cs us e - hn s hctx hs
    obtain ⟨rfl, rfl⟩ : cs = [] ∧ us = [] := by
      cases cs with
      | nil => exact ⟨rfl, e.symm⟩
      | cons => cases e
    have hs' : s.docs = [] ∧ s.toks = cc :: rest := hs.elim id id
    refine ⟨s, hs'.2, hs'.1, hctx, rfl, 1, fun n m _ hm => ?_⟩
    rw [List.append_nil]
    cases m with
    | zero => omega
    | succ m =>
      unfold loopP
      refine (bind_ok (a := .inr acc) (s' := s) ?_).trans rfl
      unfold membersBody
      refine (bind_ok (a := true) (s' := s) ?_).trans rfl
      refine (PhpLs.Parser.nextIs_some (peekOn_plain hc.1 hs'.2)).trans ?_
      rw [hc.2]
      rfl
  | @cons ts us' n ns h hm ih =>
    rintro cs us e hcs hn s hctx hs
    obtain ⟨cs1, us1, rfl, hcs1, hn1, hr⟩ := h
    obtain ⟨k1, r1, rfl, hk1, hne⟩ := hn1
    -- the two ways to split off the comment agree
    obtain ⟨rfl, rfl⟩ : cs = cs1 ∧ us = k1 :: r1 ++ us' := by
      have hk1c : ∀ c : Token, Comment c → c ≠ k1 := by
        rintro c hc rfl
        obtain ⟨h1, h2, h3⟩ := solid_iff.1 hk1.solid
        simp [hc.type, isTrivia] at h1 h2 h3
      rcases hcs with rfl | ⟨c, rfl, hc⟩ <;> rcases hcs1 with rfl | ⟨c1, rfl, hc1⟩
      · exact ⟨rfl, e.symm⟩
      · have e : c1 :: (k1 :: r1 ++ us') = us := by simpa using e
        subst e
        obtain ⟨k, r, e, hk, -⟩ := hn
        cases e
        obtain ⟨h1, h2, h3⟩ := solid_iff.1 hk.solid
        simp [hc1.type, isTrivia] at h1 h2 h3
      · have e : k1 :: (r1 ++ us') = c :: us := by simpa using e
        injection e with e1 e2
        exact absurd e1.symm (hk1c c hc)
      · have e : c1 :: (k1 :: r1 ++ us') = c :: us := by simpa using e
        injection e with e1 e2
        subst e1
        exact ⟨rfl, e2.symm⟩
    -- after the first look the comment waits
    have hlook : ∃ s1 : PSt, peekOn s.toks s = (some k1, s1) ∧ s1.docs = cs ∧ s1.toks = k1 :: (r1 ++ (us' ++ cc :: rest)) ∧
        s1.ctx = .script ∧ s1.errors = s.errors := by
      rcases hs with ⟨hd, hs⟩ | ⟨hd, hs⟩
      · exact ⟨_, peek_lead (r := r1 ++ (us' ++ cc :: rest)) hcs hk1 hd (by rw [hs]; simp), rfl, rfl, hctx, rfl⟩
      · exact ⟨s, peekOn_plain (rest := r1 ++ (us' ++ cc :: rest)) hk1 (by rw [hs]; simp), hd, by rw [hs]; simp, hctx, rfl⟩
    obtain ⟨s1, hp1, hd1, ht1, hc1, he1⟩ := hlook
    obtain ⟨s2, ht2, hd2, hc2, he2, n2, hn2⟩ := hr (us' ++ cc :: rest) s1 hd1 hc1 (.inl (by rw [ht1]; simp))
    -- the comment in front of the next member
    have hnext : ∃ cs2 us2, us' = cs2 ++ us2 ∧ Lead cs2 ∧ Next (us2 ++ cc :: rest) (fun _ => true) := by
      cases hm with
      | nil => exact ⟨[], [], rfl, .inl rfl, cc, rest, rfl, hc.1, rfl⟩
      | @cons _ us3 _ _ h _ =>
        obtain ⟨cs2, us2, rfl, h1, h2, -⟩ := h
        exact ⟨cs2, us2 ++ us3, by simp, h1, (h2.mono (q := fun _ => true) fun _ _ => rfl).append.append⟩
    obtain ⟨cs2, us2, rfl, hl2, hx2⟩ := hnext
    have ht2' : s2.toks = cs2 ++ us2 ++ cc :: rest := by
      rcases ht2 with h | ⟨-, x, hx, hx'⟩
      · exact h
      · exfalso
        obtain ⟨k, r, e, hk, -⟩ := hx2
        rw [List.append_assoc, e] at hx
        rcases hl2 with rfl | ⟨c, rfl, -⟩
        · cases hx
          exact hk.noEof hx'
        · cases hx
    obtain ⟨k3, r3, e3, hk3, -⟩ := id hx2
    have hp3 : peekOn s2.toks s2 = (some k3, { s2 with docs := cs2, toks := k3 :: r3 }) :=
      peek_lead hl2 hk3 hd2 (by rw [ht2', List.append_assoc, e3])
    obtain ⟨s4, ht4, hd4, hc4, he4, n4, hn4⟩ := ih (acc ++ [n]) cs2 us2 rfl hl2 hx2 { s2 with docs := cs2, toks := k3 :: r3 } hc2
      (.inr ⟨rfl, e3.symm⟩)
    refine ⟨s4, ht4, hd4, hc4, he4.trans (he2.trans he1), max n2 n4 + 1, fun n' m hn' hm' => ?_⟩
    cases m with
    | zero => omega
    | succ m =>
      unfold loopP
      refine (bind_ok (a := .inl (acc ++ [n])) (s' := { s2 with docs := cs2, toks := k3 :: r3 }) ?_).trans ?_
      · unfold membersBody
        refine (bind_ok (a := false) (s' := s1) ?_).trans ?_
        · refine (PhpLs.Parser.nextIs_some hp1).trans ?_
          have : [TT.closeCurly].contains k1.t = false := by
            have : k1.t ≠ .closeCurly := by simpa using hne
            simpa using this
          rw [this]
        · refine (bind_ok (a := acc ++ [n]) (s' := s2) ?_).trans ?_
          · show P.catchErr _ _ _ s1 = _
            unfold P.catchErr
            rw [hn2 n' (by omega)]
            rfl
          · refine (bind_ok (a := some k3) (s' := { s2 with docs := cs2, toks := k3 :: r3 }) ?_).trans rfl
            exact (PhpLs.Parser.peek_run s2).trans (by rw [hp3])
      · have := hn4 n' m (by omega) (by omega)
        rw [List.append_assoc] at this
        exact this

theorem ClassRd.mk' {oc cc : Token} (hl : Tok .openCurly oc) (h : EntriesRd doc ts ns) (hr : Tok .closeCurly cc) :
    ClassRd doc (oc :: (ts ++ [cc])) (.block oc ns cc) where
  first := hl.next
  reads rest := by
    unfold classBlock
    refine Rd.bind1 (Rd.consume hl) ?_
    refine Rd.bind (a := ns) (Rd.loop (body := membersBody) (b := []) ?_) (Rd.bind1 (ts := []) (Rd.consume hr) Rd.pure)
    intro s hd hc hs
    have hf : ∃ cs us, ts = cs ++ us ∧ Lead cs ∧ Next (us ++ cc :: rest) (fun _ => true) := by
      cases h with
      | nil => exact ⟨[], [], rfl, .inl rfl, cc, rest, rfl, hr.1, rfl⟩
      | @cons _ us3 _ _ h _ =>
        obtain ⟨cs2, us2, rfl, h1, h2, -⟩ := h
        exact ⟨cs2, us2 ++ us3, by simp, h1, (h2.mono (q := fun _ => true) fun _ _ => rfl).append.append⟩
    obtain ⟨cs, us, e, h1, h2⟩ := hf
    have hs' : s.toks = ts ++ cc :: rest := by
      rcases hs with h | ⟨-, x, hx, hx'⟩
      · exact h
      · exfalso
        obtain ⟨k, r, e', hk, -⟩ := h2
        have hx : ts ++ cc :: rest = [x] := hx
        rw [e, List.append_assoc, e'] at hx
        rcases h1 with rfl | ⟨c, rfl, -⟩
        · cases hx
          exact hk.noEof hx'
        · cases hx
    obtain ⟨s', a1, a2, a3, a4, a5⟩ := members_loop h hr [] cs us e h1 h2 s hc (.inl ⟨hd, hs'⟩)
    exact ⟨s', .inl a1, a2, a3, a4, a5⟩

end PhpLs.Syntax
