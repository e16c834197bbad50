import Verif.FlawSem

/-!
# Programs with missing semicolons: statements and declarations around the flawed ones
-/

namespace PhpLs.Syntax

open PhpLs PhpLs.Parser PhpLs.Parser.Ex

variable {doc : Token → Option Node} {ts us vs ws rest : List Token} {k lp rp x e : Token} {n c b b' : Node} {ns : List Node}
  {p : TT → Bool} {t : TT} {o o' : Tail} {a a' : After} {es es' : List Err}

theorem StmtE.block (h : BlockE doc ts n es) : StmtE doc (.tail .done) ts n es where
  first := h.first.mono fun t ht => by rw [eq_of_beq ht]; decide
  reads rest _ := by
    obtain ⟨k, r, rfl, hk, ht⟩ := h.first
    have ht : k.t = .openCurly := eq_of_beq ht
    refine stmt_ofE hk (by rw [ht]; decide) ?_
    rw [ht]
    exact h.reads rest

/-- The `elseif`s of an `if`. -/
structure ElifsE (doc : Token → Option Node) (o : Tail) (ts : List Token) (ns : List Node) (es : List Err) : Prop where
  nil : ns = [] → ts = [] ∧ o = .done
  first : ts = [] ∨ Next ts (· == .elseIf)
  reads : ∀ rest acc, Follows o rest → Ahead rest (· != .elseIf) → LoopRdE doc .other (fun r (bs : List Node) => do
    match ← consumeOrIgnore .elseIf with
    | some token => do
      let op ← consume .openParenthesis
      let c ← r.expression 0
      let cp ← consume .closeParenthesis
      let b ← r.statement
      pure (.inl (bs ++ [.ifBranch token op c cp b]))
    | none => pure (.inr bs)) acc ts rest (acc ++ ns) es

theorem ElifsE.none : ElifsE doc .done [] [] [] where
  nil _ := ⟨rfl, rfl⟩
  first := .inl rfl
  reads rest acc _ ha := by
    rw [List.append_nil]
    refine LoopRdE.stop (Rd.e ?_)
    exact Rd.bind0 (ts := []) (Rd.ignore_no ha rfl) Rd.pure

theorem branch_followsE {bs : List Node} (hm : ElifsE doc o' vs bs es') (ho : bs = [] ∨ o = .done)
    (hf : Follows (lastTail bs o o') rest) : Follows o (vs ++ rest) ∧ Follows o' rest := by
  cases bs with
  | nil =>
    obtain ⟨rfl, rfl⟩ := hm.nil rfl
    exact ⟨hf, trivial⟩
  | cons b bs =>
    rcases ho with ho | rfl
    · cases ho
    · exact ⟨trivial, hf⟩

theorem ElifsE.cons {bs : List Node} (hk : Tok .elseIf k) (hl : Tok .openParenthesis lp) (hc : DelRd doc ends ts c)
    (hr : Tok .closeParenthesis rp) (hb : StmtE doc (.tail o) us b es) (hm : ElifsE doc o' vs bs es')
    (ho : bs = [] ∨ o = .done) :
    ElifsE doc (lastTail bs o o') (k :: lp :: (ts ++ rp :: (us ++ vs))) (.ifBranch k lp c rp b :: bs) (es ++ es') where
  nil h := nomatch h
  first := .inr hk.next
  reads rest acc hf ha := by
    have e1 : k :: lp :: (ts ++ rp :: (us ++ vs)) = (k :: lp :: (ts ++ rp :: us)) ++ vs := by simp
    have hf' := branch_followsE hm ho hf
    rw [e1]
    refine LoopRdE.step (b' := acc ++ [.ifBranch k lp c rp b]) ?_ ?_
    · refine Rd.then1 (Rd.ignore_yes hk) ?_
      refine Rd.then1 (Rd.consume hl) ?_
      refine Rd.then (hc.tok hr (by decide)) ?_
      refine Rd.then1 (Rd.consume hr) ?_
      exact RdE.bind_last (hb.statement hf'.1) Rd.pure
    · have := hm.reads rest (acc ++ [.ifBranch k lp c rp b]) hf'.2 ha
      rwa [List.append_assoc] at this

theorem StmtE.if {bs : List Node} (hk : Tok .kwIf k) (hl : Tok .openParenthesis lp) (hc : DelRd doc ends ts c)
    (hr : Tok .closeParenthesis rp) (hb : StmtE doc (.tail o) us b es) (hm : ElifsE doc o' vs bs es')
    (ho : bs = [] ∨ o = .done) :
    StmtE doc (.tail (lastTail bs o o').orOpen) (k :: lp :: (ts ++ rp :: (us ++ vs)))
      (.ifStatement (.ifBranch k lp c rp b) bs none) (es ++ es') := by
  refine .mk' hk (by decide) fun rest hf => ?_
  obtain ⟨hf, ha⟩ := orOpen_follows (o := lastTail bs o o') hf
  have hf' := branch_followsE hm ho hf
  show RdE doc [] ifStatement _ _ _ _
  unfold ifStatement
  refine Rd.then1 (Rd.consume hk) ?_
  refine Rd.then1 (Rd.consume hl) ?_
  refine Rd.then (hc.tok hr (by decide)) ?_
  refine Rd.then1 (Rd.consume hr) ?_
  refine Rd.then0 (Rd.ignore_no (p := stmtStart) ?_ rfl) ?_
  · rw [List.append_assoc]; exact hb.first.append.ahead
  refine RdE.bind (hb.statement hf'.1) ?_
  refine RdE.bind_last (a := bs) (RdE.loop (hm.reads rest [] hf'.2 (ahead_not ha (by decide)))) ?_
  exact Rd.bind0 (ts := []) (Rd.ignore_no (ahead_not ha (t := .kwElse) (by decide)) (by decide)) Rd.pure

theorem StmtE.ifElse {bs : List Node} {es'' : List Err} (hk : Tok .kwIf k) (hl : Tok .openParenthesis lp)
    (hc : DelRd doc ends ts c) (hr : Tok .closeParenthesis rp) (hb : StmtE doc (.tail .done) us b es)
    (hm : ElifsE doc .done vs bs es') (hx : Tok .kwElse x) (hb' : StmtE doc (.tail o) ws b' es'') :
    StmtE doc (.tail o) (k :: lp :: (ts ++ rp :: (us ++ (vs ++ x :: ws))))
      (.ifStatement (.ifBranch k lp c rp b) bs (some (.elseBranch x b'))) (es ++ (es' ++ es'')) := by
  refine .mk' hk (by decide) fun rest hf => ?_
  show RdE doc [] ifStatement _ _ _ _
  unfold ifStatement
  refine Rd.then1 (Rd.consume hk) ?_
  refine Rd.then1 (Rd.consume hl) ?_
  refine Rd.then (hc.tok hr (by decide)) ?_
  refine Rd.then1 (Rd.consume hr) ?_
  refine Rd.then0 (Rd.ignore_no (p := stmtStart) ?_ rfl) ?_
  · rw [List.append_assoc]; exact hb.first.append.ahead
  refine RdE.bind (hb.statement trivial) ?_
  refine RdE.bind (a := bs) (RdE.loop (hm.reads _ [] trivial (.inl ⟨x, _, rfl, hx.1, by rw [hx.2]; rfl⟩))) ?_
  refine Rd.then1 (Rd.ignore_yes hx) ?_
  exact RdE.bind_last (hb'.statement hf) Rd.pure

/-- The `elseif`s of an `if` in its alternative form. -/
def AltsE (doc : Token → Option Node) (k : Token) (ts : List Token) (bs : List Node) (k' : Token) (es : List Err) : Prop :=
  ∀ rest acc, LoopRdE doc .other (fun r (st : List Node × Token) =>
    if st.2.t = .elseIf then do
      let op ← consume .openParenthesis
      let c ← r.expression 0
      let cp ← consume .closeParenthesis
      let colon ← consume .colon
      let ss ← plainStatements r ifStop
      let t ← consumeOneOf ifStop
      pure (.inl (st.1 ++ [.ifBranch st.2 op c cp (.alternativeBlock colon ss t)], t))
    else pure (.inr st)) (acc, k) ts rest (acc ++ bs, k') es

theorem AltsE.none (hk : k.t ≠ .elseIf) : AltsE doc k [] [] k [] := by
  intro rest acc
  rw [List.append_nil]
  refine LoopRdE.stop ?_
  have e : ∀ r : Rec, (if ((acc, k) : List Node × Token).2.t = .elseIf then do
      let op ← consume .openParenthesis
      let c ← r.expression 0
      let cp ← consume .closeParenthesis
      let colon ← consume .colon
      let ss ← plainStatements r ifStop
      let t ← consumeOneOf ifStop
      pure (.inl (((acc, k) : List Node × Token).1 ++ [.ifBranch ((acc, k) : List Node × Token).2 op c cp (.alternativeBlock colon ss t)], t))
    else pure (.inr (acc, k)) : P ((List Node × Token) ⊕ (List Node × Token))) = pure (.inr (acc, k)) := fun r => if_neg hk
  simp only [e]
  exact Rd.pure.e

/-- The token that ends a branch of an alternative `if`. -/
theorem stmts_ifStopE {k1 : Token} (h : SeqE doc (.tail o) us ns es)
    (h1 : (Tok .endIf k1 ∧ o.Free) ∨ ((Tok .elseIf k1 ∨ Tok .kwElse k1) ∧ o = .done)) (rest : List Token) :
    ∃ t, Tok t k1 ∧ t ∈ ifStop ∧ RdE doc [] (fun r => plainStatements r ifStop) us (k1 :: rest) ns es := by
  rcases h1 with ⟨h1, h2⟩ | ⟨h1 | h1, rfl⟩
  · exact ⟨_, h1, by decide, h.plain h1.next (tok_mem (by decide)) (by decide) (follows_tok h2 h1 (by decide))⟩
  · exact ⟨_, h1, by decide, h.plain h1.next (tok_mem (by decide)) (by decide) trivial⟩
  · exact ⟨_, h1, by decide, h.plain h1.next (tok_mem (by decide)) (by decide) trivial⟩

theorem AltsE.cons {bs : List Node} {cl k1 k2 : Token} (hk : k.t = .elseIf) (hl : Tok .openParenthesis lp)
    (hc : DelRd doc ends ts c) (hr : Tok .closeParenthesis rp) (hcl : Tok .colon cl) (h : SeqE doc (.tail o) us ns es)
    (h1 : (Tok .endIf k1 ∧ o.Free) ∨ ((Tok .elseIf k1 ∨ Tok .kwElse k1) ∧ o = .done))
    (hm : AltsE doc k1 vs bs k2 es') :
    AltsE doc k (lp :: (ts ++ rp :: cl :: (us ++ k1 :: vs))) (.ifBranch k lp c rp (.alternativeBlock cl ns k1) :: bs) k2
      (es ++ es') := by
  intro rest acc
  have e1 : lp :: (ts ++ rp :: cl :: (us ++ k1 :: vs)) = (lp :: (ts ++ rp :: cl :: (us ++ [k1]))) ++ vs := by simp
  rw [e1]
  obtain ⟨t, ht, hti, hpl⟩ := stmts_ifStopE h h1 (vs ++ rest)
  refine LoopRdE.step (b' := (acc ++ [.ifBranch k lp c rp (.alternativeBlock cl ns k1)], k1)) ?_ ?_
  · have e : ∀ r : Rec, (if ((acc, k) : List Node × Token).2.t = .elseIf then do
        let op ← consume .openParenthesis
        let c ← r.expression 0
        let cp ← consume .closeParenthesis
        let colon ← consume .colon
        let ss ← plainStatements r ifStop
        let t ← consumeOneOf ifStop
        pure (.inl (((acc, k) : List Node × Token).1 ++ [.ifBranch ((acc, k) : List Node × Token).2 op c cp (.alternativeBlock colon ss t)], t))
      else pure (.inr (acc, k)) : P ((List Node × Token) ⊕ (List Node × Token))) = (do
        let op ← consume .openParenthesis
        let c ← r.expression 0
        let cp ← consume .closeParenthesis
        let colon ← consume .colon
        let ss ← plainStatements r ifStop
        let t ← consumeOneOf ifStop
        pure (.inl (acc ++ [.ifBranch k op c cp (.alternativeBlock colon ss t)], t))) := fun r => if_pos hk
    simp only [e]
    refine Rd.then1 (Rd.consume hl) ?_
    refine Rd.then (hc.tok hr (by decide)) ?_
    refine Rd.then1 (Rd.consume hr) ?_
    refine Rd.then1 (Rd.consume hcl) ?_
    refine RdE.bindR hpl ?_
    exact Rd.bind1 (ts := []) (Rd.consumeOneOf ht hti) Rd.pure
  · have := hm rest (acc ++ [.ifBranch k lp c rp (.alternativeBlock cl ns k1)])
    rwa [List.append_assoc] at this

theorem StmtE.altIf {bs : List Node} {cl k1 k2 : Token} (hk : Tok .kwIf k) (hl : Tok .openParenthesis lp)
    (hc : DelRd doc ends ts c) (hr : Tok .closeParenthesis rp) (hcl : Tok .colon cl) (h : SeqE doc (.tail o) us ns es)
    (h1 : (Tok .endIf k1 ∧ o.Free) ∨ (Tok .elseIf k1 ∧ o = .done)) (hm : AltsE doc k1 vs bs k2 es') (h2 : k2.t = .endIf) :
    StmtE doc (.tail .done) (k :: lp :: (ts ++ rp :: cl :: (us ++ k1 :: vs)))
      (.ifStatement (.ifBranch k lp c rp (.alternativeBlock cl ns k1)) bs none) (es ++ es') := by
  refine .mk' hk (by decide) fun rest _ => ?_
  obtain ⟨t, ht, hti, hpl⟩ := stmts_ifStopE h (h1.imp id fun h => ⟨.inl h.1, h.2⟩) (vs ++ rest)
  show RdE doc [] ifStatement _ _ _ _
  unfold ifStatement
  refine Rd.then1 (Rd.consume hk) ?_
  refine Rd.then1 (Rd.consume hl) ?_
  refine Rd.then (hc.tok hr (by decide)) ?_
  refine Rd.then1 (Rd.consume hr) ?_
  refine Rd.then1 (Rd.ignore_yes hcl) ?_
  unfold ifAlternative
  refine RdE.bind hpl ?_
  refine Rd.then1 (Rd.consumeOneOf ht hti) ?_
  refine RdE.bind_last (a := (bs, k2)) (RdE.loop (hm rest [])) ?_
  have e : k2.t ≠ .kwElse := by rw [h2]; decide
  simp only [e, if_false]
  exact Rd.pure

theorem StmtE.altIfElse {cl k1 k2 cl' k3 sc : Token} {bs ms : List Node} {es'' : List Err} (hk : Tok .kwIf k)
    (hl : Tok .openParenthesis lp) (hc : DelRd doc ends ts c) (hr : Tok .closeParenthesis rp) (hcl : Tok .colon cl)
    (h : SeqE doc (.tail .done) us ns es) (h1 : Tok .kwElse k1 ∨ Tok .elseIf k1) (hm : AltsE doc k1 vs bs k2 es')
    (h2 : k2.t = .kwElse) (hcl' : Tok .colon cl') (h' : SeqE doc a ws ms es'') (ho : a.Closed k3) (h3 : Tok .endIf k3)
    (hs : Tok .semicolon sc) :
    StmtE doc (.tail .done) (k :: lp :: (ts ++ rp :: cl :: (us ++ k1 :: (vs ++ cl' :: (ws ++ [k3, sc])))))
      (.ifStatement (.ifBranch k lp c rp (.alternativeBlock cl ns k1)) bs
        (some (.elseBranch k2 (.alternativeBlock cl' ms k3)))) (es ++ (es' ++ es'')) := by
  refine .mk' hk (by decide) fun rest _ => ?_
  obtain ⟨t, ht, hti, hpl⟩ := stmts_ifStopE h (.inr ⟨h1.symm, rfl⟩) (vs ++ cl' :: (ws ++ [k3, sc]) ++ rest)
  show RdE doc [] ifStatement _ _ _ _
  unfold ifStatement
  refine Rd.then1 (Rd.consume hk) ?_
  refine Rd.then1 (Rd.consume hl) ?_
  refine Rd.then (hc.tok hr (by decide)) ?_
  refine Rd.then1 (Rd.consume hr) ?_
  refine Rd.then1 (Rd.ignore_yes hcl) ?_
  unfold ifAlternative
  refine RdE.bind hpl ?_
  refine Rd.then1 (Rd.consumeOneOf ht hti) ?_
  refine RdE.bind (a := (bs, k2)) (RdE.loop (hm _ [])) ?_
  simp only [h2, if_true]
  exact RdE.bind_last (alternative_readsE hcl' h' ho (by decide) h3 hs rest) Rd.pure

theorem StmtE.while (hk : Tok .kwWhile k) (hl : Tok .openParenthesis lp) (hc : DelRd doc ends ts c)
    (hr : Tok .closeParenthesis rp) (hb : BodyE doc .endWhile o us b es) :
    StmtE doc (.tail o) (k :: lp :: (ts ++ rp :: us)) (.whileStatement k lp c rp b) es := by
  refine .mk' hk (by decide) fun rest hf => ?_
  show RdE doc [] whileStatement _ _ _ _
  unfold whileStatement
  refine Rd.then1 (Rd.consume hk) ?_
  refine Rd.then1 (Rd.consume hl) ?_
  refine Rd.then (hc.tok hr (by decide)) ?_
  refine Rd.then1 (Rd.consume hr) ?_
  exact RdE.bind_last (hb rest hf) Rd.pure

theorem StmtE.for {e1 e2 : Token} {xs ys zs : List Token} {is cs ss : List Node} (hk : Tok .kwFor k)
    (hl : Tok .openParenthesis lp) (hi : SepBy (DelRd doc ends) true xs is) (he1 : Tok .semicolon e1)
    (hc : SepBy (DelRd doc ends) true ys cs) (he2 : Tok .semicolon e2) (hs : SepBy (DelRd doc ends) true zs ss)
    (hr : Tok .closeParenthesis rp) (hb : BodyE doc .endFor o us b es) :
    StmtE doc (.tail o) (k :: lp :: (xs ++ e1 :: (ys ++ e2 :: (zs ++ rp :: us)))) (.forStatement k is cs ss b) es := by
  refine .mk' hk (by decide) fun rest hf => ?_
  show RdE doc [] forStatement _ _ _ _
  unfold forStatement
  refine Rd.then1 (Rd.consume hk) ?_
  refine Rd.then1 (Rd.ffAfter_yes hl) ?_
  refine Rd.then (forPart_reads hi he1 (.inl rfl) _) ?_
  refine Rd.then1 (Rd.ffAfter_yes he1) ?_
  refine Rd.then (forPart_reads hc he2 (.inl rfl) _) ?_
  refine Rd.then1 (Rd.ffAfter_yes he2) ?_
  refine Rd.then (forPart_reads hs hr (.inr rfl) _) ?_
  refine Rd.then1 (Rd.ffAfter_yes hr) ?_
  exact RdE.bind_last (hb rest hf) Rd.pure

theorem StmtE.foreach {w : Token} {ps : List Token} {y : Node} (hk : Tok .kwForeach k)
    (hl : Tok .openParenthesis lp) (hc : DelRd doc ends ts c) (hw : Tok .kwAs w) (hp : PairRd doc ps y)
    (hr : Tok .closeParenthesis rp) (hb : BodyE doc .endForeach o us b es) :
    StmtE doc (.tail o) (k :: lp :: (ts ++ w :: (ps ++ rp :: us))) (.forEachStatement k lp c w y rp b) es := by
  refine .mk' hk (by decide) fun rest hf => ?_
  show RdE doc [] foreachStatement _ _ _ _
  unfold foreachStatement
  refine Rd.then1 (Rd.consume hk) ?_
  refine Rd.then1 (Rd.consume hl) ?_
  refine Rd.then (hc.tok hw (by decide)) ?_
  refine Rd.then1 (Rd.consume hw) ?_
  refine Rd.then (hp.reads _ ⟨rp, _, rfl, hr.1, by rw [hr.2]; decide⟩) ?_
  refine Rd.then1 (Rd.consume hr) ?_
  exact RdE.bind_last (hb rest hf) Rd.pure

theorem StmtE.try {cs : List Node} (hk : Tok .kwTry k) (hb : BlockE doc ts b es) (hc : CatchesRd doc us cs) :
    StmtE doc (.tail .loose) (k :: (ts ++ us)) (.tryCatch k b cs none) es := by
  refine .mk' hk (by decide) fun rest hf => ?_
  have ha : Ahead rest fun t => !continues.contains t := hf
  show RdE doc [] tryCatchStatement _ _ _ _
  unfold tryCatchStatement
  refine Rd.then1 (Rd.consume hk) ?_
  refine RdE.bindR (hb.reads _) ?_
  refine Rd.bind_last (a := cs) (Rd.loop (hc.reads rest [] (ahead_not ha (by decide)))) ?_
  exact Rd.bind0 (ts := []) (Rd.ignore_no (ahead_not ha (t := .kwFinally) (by decide)) (by decide)) Rd.pure

theorem StmtE.tryFinally {cs : List Node} {f : Token} (hk : Tok .kwTry k) (hb : BlockE doc ts b es) (hc : CatchesRd doc us cs)
    (hf : Tok .kwFinally f) (hb' : BlockE doc vs b' es') :
    StmtE doc (.tail .done) (k :: (ts ++ (us ++ f :: vs))) (.tryCatch k b cs (some (.finallyBlock f b'))) (es ++ es') := by
  refine .mk' hk (by decide) fun rest _ => ?_
  show RdE doc [] tryCatchStatement _ _ _ _
  unfold tryCatchStatement
  refine Rd.then1 (Rd.consume hk) ?_
  refine RdE.bind (hb.reads _) ?_
  refine Rd.then (a := cs) (Rd.loop (hc.reads _ [] (.inl ⟨f, _, rfl, hf.1, by rw [hf.2]; rfl⟩))) ?_
  refine Rd.then1 (Rd.ignore_yes hf) ?_
  exact RdE.bind_last (hb'.reads _) Rd.pure

theorem StmtE.namespaceBlock (hk : Tok .kwNamespace k) (h : Name ts n) (hb : BlockE doc us b es) :
    StmtE doc (.tail .done) (k :: (ts ++ us)) (.namespaceBlock k (some n) b) es := by
  refine .mk' hk (by decide) fun rest _ => ?_
  show RdE doc [] namespaceStatement _ _ _ _
  unfold namespaceStatement
  refine Rd.then1 (Rd.consume hk) ?_
  refine Rd.then (h.typeRef (hb.next (by decide))) ?_
  refine Rd.then0 (Rd.nextOneOf_yes (hb.next (p := (· == .openCurly)) rfl) (tok_mem (by decide))) ?_
  exact RdE.bind_last (hb.reads _) Rd.pure

/-! ## Declarations -/

theorem DeclE.mk' {d : Option Node} {as : List Node} (hk : Tok t k) (ht : t ∈ declStart)
    (H : ∀ ds rest, Waits doc ds d → RdE doc ds (fun r => dispatch r as t) (k :: ts) rest n es) : DeclE doc d as (k :: ts) n es :=
  ⟨k, ts, rfl, hk.1, by rw [hk.2]; exact ht, by rw [hk.2]; exact H⟩

theorem DeclE.declared {as : List Token} {ats : List Node} (ha : AttrsRd doc as ats) (h : DeclE doc none ats ts n es) :
    StmtE doc (.tail .done) (as ++ ts) n es := by
  obtain ⟨k, r, rfl, hk, ht, h⟩ := h
  refine ⟨ha.next ⟨k, _, rfl, hk, (decl_start _ ht).1⟩ (by decide), fun rest _ => ?_⟩
  unfold Parser.scriptStatement
  refine Rd.then (ha.block ⟨k, _, rfl, hk, by simpa using (decl_start _ ht).2⟩) ?_
  exact Rd.then0 (Rd.of (p := fun _ => true) (Reads.peek hk) ⟨k, _, rfl, hk, rfl⟩) (h [] rest .none)

theorem DeclE.documented {y : Node} (hc : Comment k) (hx : doc k = some y) (h : DeclE doc (some y) [] ts n es) :
    TopE doc (.tail .done) (k :: ts) n es := by
  obtain ⟨k', r, rfl, hk, ht, h⟩ := h
  refine ⟨[k], k' :: r, rfl, .inr ⟨k, rfl, hc⟩, ⟨k', _, rfl, hk, (decl_start _ ht).1⟩, fun rest _ => ?_⟩
  unfold Parser.scriptStatement
  refine RdE.after (ts := []) (p := fun _ => true) (a := []) (us := k' :: r) ?_ ⟨k', _, rfl, hk, rfl⟩ ?_
  · refine Reads.loop (LoopReads.stop ?_)
    exact Reads.bind0 (ts := []) (Reads.nextOneOf_no (rest := r ++ rest) hk (by simpa using (decl_start _ ht).2)) Reads.pure
  · refine RdE.after (ts := []) (p := fun _ => true) (us := k' :: r) (Reads.peek (rest := r ++ rest) hk) ⟨k', _, rfl, hk, rfl⟩ ?_
    exact h [k] rest (.one hx)

variable {d ex : Option Node} {ats : List Node} {as xs is : List Token} {am ab fi : Option Token} {w : Token}
  {i : Option (List Node)} {f : Node} {ms : List Token}

theorem func_readsE {rs bs : List Token} {o : Option (List Node)} {rt : Option Node}
    (hl : Tok .openParenthesis lp) (h : ParamsRd doc d ts o) (hr : Tok .closeParenthesis rp) (hrt : RetType rs rt)
    (hb : BlockE doc bs b es) :
    FuncE doc d (lp :: (ts ++ rp :: (rs ++ bs))) (.functionDefinitionStatement lp o rp rt (some b) d) es := by
  intro rest
  unfold anonymousFunctionStatement
  refine Rd.then1 (Rd.consume hl) ?_
  refine Rd.then (h.reads hr) ?_
  refine Rd.then1 (Rd.consume hr) ?_
  refine Rd.then (hrt.reads (hb.next (by decide))) ?_
  refine Rd.then0 (Rd.ignore_no (hb.next (p := (· == .openCurly)) rfl).ahead rfl) ?_
  exact RdE.bind_last (hb.reads _) Rd.pure

theorem DeclE.function (hk : Tok .kwFunction k) (ha : OptTok .binaryAnd as am) (hw : Word w) (h : FuncE doc d ts f es) :
    DeclE doc d ats (k :: (as ++ w :: ts)) (.namedFunctionDefinitionStatement k am w f ats) es := by
  refine .mk' hk (by decide) fun ds rest hd => ?_
  show RdE doc ds (fun r => popDoc r.doc >>= fun doc => namedFunction r doc ats) _ _ _ _
  refine Rd.then0 (Rd.popDoc hd) ?_
  unfold namedFunction
  refine Rd.then1 (Rd.consume hk) ?_
  refine Rd.then (ha.ignore (p := TT.isIdentifier) hw.next rfl) ?_
  refine Rd.then1 (Rd.consumeIdentifier hw) ?_
  exact RdE.bind_last (h _) Rd.pure

theorem class_readsE (hk : Tok .kwClass k) (hw : Word w) (he : Extends xs ex) (hi : Heirs .kwImplements is i)
    (hb : ClassE doc us b es) {ds : List Token} (hd : Waits doc ds d) (rest : List Token) :
    RdE doc ds (fun r => classStatement r ab fi ats) (k :: w :: (xs ++ (is ++ us))) rest
      (.classStatement k w ab fi i ex b d ats) es := by
  have n1 : ∀ {q : TT → Bool}, q .openCurly = true → Next (us ++ rest) q := fun hq => hb.next hq
  have n2 : ∀ {q : TT → Bool}, q .openCurly = true → q .kwImplements = true → Next (is ++ us ++ rest) q := fun h1 h2 => by
    rw [List.append_assoc]; exact hi.next (n1 h1) h2
  unfold classStatement
  refine Rd.then0 (Rd.popDoc hd) ?_
  refine Rd.then1 (Rd.consume hk) ?_
  refine Rd.then1 (Rd.consumeIdentifier hw) ?_
  refine Rd.then (he.reads (n2 rfl rfl)) ?_
  refine Rd.then (hi.reads (n1 rfl)) ?_
  exact RdE.bind_last (hb.reads _) Rd.pure

theorem DeclE.class (hm : (OptTok .kwAbstract ms ab ∧ fi = none) ∨ (OptTok .kwFinal ms fi ∧ ab = none)) (hk : Tok .kwClass k)
    (hw : Word w) (he : Extends xs ex) (hi : Heirs .kwImplements is i) (hb : ClassE doc us b es) :
    DeclE doc d ats (ms ++ k :: w :: (xs ++ (is ++ us))) (.classStatement k w ab fi i ex b d ats) es := by
  rcases hm with ⟨hm, rfl⟩ | ⟨hm, rfl⟩
  · cases hm with
    | none => exact .mk' hk (by decide) fun ds rest hd => class_readsE hk hw he hi hb hd rest
    | some hm =>
      refine .mk' hm (by decide) fun ds rest hd => ?_
      exact RdE.after (ts := [_]) (Reads.consume hm.1 hm.2) hm.next (class_readsE hk hw he hi hb hd rest)
  · cases hm with
    | none => exact .mk' hk (by decide) fun ds rest hd => class_readsE hk hw he hi hb hd rest
    | some hm =>
      refine .mk' hm (by decide) fun ds rest hd => ?_
      exact RdE.after (ts := [_]) (Reads.consume hm.1 hm.2) hm.next (class_readsE hk hw he hi hb hd rest)

theorem DeclE.trait (hk : Tok .kwTrait k) (hw : Tok .identifier w) (hb : ClassE doc us b es) :
    DeclE doc d ats (k :: w :: us) (.traitStatement k w b d) es := by
  refine .mk' hk (by decide) fun ds rest hd => ?_
  show RdE doc ds traitStatement _ _ _ _
  unfold traitStatement
  refine Rd.then0 (Rd.popDoc hd) ?_
  refine Rd.then1 (Rd.consume hk) ?_
  refine Rd.then1 (Rd.consume hw) ?_
  exact RdE.bind_last (hb.reads _) Rd.pure

/-! ## Class members -/

theorem MemberE.entry {x : List Token} (ha : AttrsRd doc x ats) (h : MemberE doc none ats ts n es) : EntryE doc (x ++ ts) n es := by
  have h1 : Next (x ++ ts) fun t => t != .kwUse && t != .closeCurly :=
    ha.next (h.first.mono fun t ht => by
      obtain ⟨h1, h2⟩ := Bool.and_eq_true_iff.1 ht
      rw [(Bool.and_eq_true_iff.1 h1).1, h2]; rfl) rfl
  refine ⟨[], x ++ ts, rfl, .inl rfl, h1.mono fun t ht => (Bool.and_eq_true_iff.1 ht).2, fun rest => ?_⟩
  unfold classBlockStatement
  refine Rd.then0 (Rd.nextOneOf_no h1.append.ahead (by decide)) ?_
  refine Rd.then0 Rd.popDoc_none ?_
  refine Rd.then (ha.block (h.first.append.mono fun t ht => ?_)) ?_
  · exact (Bool.and_eq_true_iff.1 (Bool.and_eq_true_iff.1 ht).1).2
  exact Rd.then0 Rd.popDoc_none (h.reads rest)

theorem MemberE.documented {y : Node} (hc : Comment k) (hx : doc k = some y) (h : MemberE doc (some y) [] ts n es) :
    EntryE doc (k :: ts) n es := by
  refine ⟨[k], ts, rfl, .inr ⟨k, rfl, hc⟩, h.first.mono fun t ht => (Bool.and_eq_true_iff.1 ht).2, fun rest => ?_⟩
  obtain ⟨hf, hr⟩ := h
  obtain ⟨k', r, rfl, hk, ht⟩ := hf
  have ht' : Next (k' :: r ++ rest) memberStart := ⟨k', _, rfl, hk, ht⟩
  unfold classBlockStatement
  refine RdE.after (ts := []) (us := k' :: r) (Reads.nextOneOf_no (rest := r ++ rest) hk ?_) ht' ?_
  · intro e
    rw [List.mem_singleton.1 e] at ht
    cases ht
  refine Rd.then0 (Rd.popDoc (.one hx)) ?_
  refine Rd.then0 (AttrsRd.none.block (ht'.mono fun t ht => ?_)) (hr rest)
  exact (Bool.and_eq_true_iff.1 (Bool.and_eq_true_iff.1 ht).1).2

theorem MemberE.method (hm : AllMods ms) (ho : InOrder ms) (hk : Tok .kwFunction k) (ha : OptTok .binaryAnd as am) (hw : Word w)
    (h : FuncE doc d ts f es) :
    MemberE doc d ats (ms ++ k :: (as ++ w :: ts))
      (.methodDefinitionStatement k (slots ms).2.1 am w (slots ms).2.2.1 (slots ms).1 f (slots ms).2.2.2 d ats) es where
  first := mods_start hm ⟨k, _, rfl, hk.1, by rw [hk.2]; rfl⟩
  reads rest := by
    unfold classMember
    refine Rd.then (mods_reads (p := memberStart) hm ho ⟨k, _, rfl, hk.1, by rw [hk.2]; decide⟩
      (mods_start hm ⟨k, _, rfl, hk.1, by rw [hk.2]; rfl⟩)) ?_
    refine Rd.then0 (Rd.ignore_no (hk.next (rest := as ++ w :: ts ++ rest)).ahead rfl) ?_
    refine Rd.then1 (Rd.ignore_yes hk) ?_
    refine Rd.then (ha.ignore (p := TT.isIdentifier) hw.next rfl) ?_
    refine Rd.then1 (Rd.consumeIdentifier hw) ?_
    exact RdE.bind_last (h _) Rd.pure

theorem EntryE.useTraits {k x e : Token} {us : List Token} (hk : Tok .kwUse k) (h : Names .comma ts ns) (hl : Lost x us e)
    (hx : x.t ≠ .namespaceSeparator ∧ x.t ≠ .openCurly ∧ x.t ≠ .comma) :
    EntryE doc (k :: (ts ++ x :: (us ++ [e]))) (.useTraitStatement k (ns.map Node.useTrait)) [missing x] := by
  refine ⟨[], k :: (ts ++ x :: (us ++ [e])), rfl, .inl rfl, ⟨k, _, rfl, hk.1, by rw [hk.2]; rfl⟩, fun rest => ?_⟩
  unfold classBlockStatement
  refine Rd.then0 (Rd.nextOneOf_tok hk (by decide)) ?_
  unfold useTraitStatement
  refine Rd.then1 (Rd.consume hk) ?_
  refine RdE.bind_last (a := ns.map Node.useTrait) ?_ Rd.pure
  unfold traitUsages
  refine Rd.then (a := Sum.inl ns) (Rd.loop (traits_loop (acc := []) h (hl.next ?_))) ?_
  · simp [hx.1, hx.2.1, hx.2.2]
  exact RdE.bind_last hl.reads Rd.pure

theorem MemberE.const {x e : Token} {us : List Token} (hm : AllMods ms) (ho : InOrder ms) (hk : Tok .kwConst k)
    (h : SepBy (ClassConstRd doc (slots ms).2.2.1) false ts ns) (hl : Lost x us e) (hx : ends x.t = true)
    (hc : x.t ≠ .comma) :
    MemberE doc d ats (ms ++ k :: (ts ++ x :: (us ++ [e]))) (.classConstantDefinitionStatement k ns d (slots ms).2.2.1 ats)
      [missing x] where
  first := mods_start hm ⟨k, _, rfl, hk.1, by rw [hk.2]; rfl⟩
  reads rest := by
    unfold classMember
    refine Rd.then (mods_reads (p := memberStart) hm ho ⟨k, _, rfl, hk.1, by rw [hk.2]; decide⟩
      (mods_start hm ⟨k, _, rfl, hk.1, by rw [hk.2]; rfl⟩)) ?_
    refine Rd.then1 (Rd.ignore_yes hk) ?_
    refine Rd.then (classConsts_reads h (hl.next (by simp [hx, hc]))) ?_
    exact RdE.bind_last hl.reads Rd.pure

theorem MemberE.property {x e : Token} {us ys : List Token} {ty : Option Node} (hm : AllMods ms) (hn : ms ≠ [])
    (ho : InOrder ms) (ht : OptType ys ty)
    (hs : Next (ys ++ ts) fun t => t != .kwConst && t != .kwFunction && !modifierSet.contains t)
    (h : SepBy (PropRd doc) false ts ns) (hl : Lost x us e) (hx : ends x.t = true)
    (hc : x.t ≠ .assignment ∧ x.t ≠ .comma) :
    MemberE doc d ats (ms ++ (ys ++ (ts ++ x :: (us ++ [e]))))
      (.propertyDefinitionStatement ns d (slots ms).2.2.1 ty (slots ms).2.2.2 (slots ms).1 ats) [missing x] := by
  have hf : ∀ {x}, Next (ms ++ x) memberStart := fun {x} => by
    cases ms with
    | nil => exact absurd rfl hn
    | cons y ms =>
      have hx := hm y (List.mem_cons_self ..)
      refine ⟨y, _, rfl, hx.1, ?_⟩
      have : ∀ t ∈ modifierSet, memberStart t = true := by decide
      exact this _ hx.2
  refine ⟨hf, fun rest => ?_⟩
  have hs' : Next (ys ++ (ts ++ x :: (us ++ [e])) ++ rest)
      fun t => t != .kwConst && t != .kwFunction && !modifierSet.contains t := by
    have e1 : ys ++ (ts ++ x :: (us ++ [e])) ++ rest = ys ++ ts ++ (x :: (us ++ [e]) ++ rest) := by simp
    rw [e1]
    exact hs.append
  have hv : Next (ts ++ x :: (us ++ [e]) ++ rest) (· == .variable) := by
    have h1 : Next ts (· == .variable) := h.next fun _ _ h => by
      obtain ⟨v, hv, ⟨rfl, -⟩ | ⟨w, us, x, rfl, -⟩⟩ := h
      · exact hv.next
      · exact hv.next
    exact h1.append.append
  unfold classMember
  refine Rd.then (mods_reads (p := memberStart) hm ho (hs'.mono fun t ht => (Bool.and_eq_true_iff.1 ht).2) hf) ?_
  refine Rd.then0 (Rd.ignore_no hs'.ahead (by decide)) ?_
  refine Rd.then0 (Rd.ignore_no hs'.ahead (by decide)) ?_
  refine Rd.then (a := ty) ?_ ?_
  · cases ht with
    | none => exact Rd.bind0 (Rd.nextOneOf_yes hv (tok_mem (by decide))) Rd.pure
    | some ht =>
      refine Rd.bind0 (Rd.nextOneOf_no (p := (· != .variable)) ?_ (by decide)) ?_
      · have : Next (ys ++ (ts ++ x :: (us ++ [e]) ++ rest)) (· != .variable) := by
          cases ht with
          | plain h => exact (h.next.mono fun t ht => by
              rcases Bool.or_eq_true_iff.1 ht with ht | ht
              · rw [eq_of_beq ht]; rfl
              · simpa using ident_ne ht (t' := .variable) rfl).append
          | nullable hk h => exact ⟨_, _, rfl, hk.1, by rw [hk.2]; rfl⟩
        exact this.ahead
      · exact Rd.bind_last (ht.dataType (hv.mono fun t ht => by rw [eq_of_beq ht]; decide)) Rd.pure
  · refine Rd.then (classProps_reads h (hl.next (by simp [hx, hc.1, hc.2]))) ?_
    exact RdE.bind_last hl.reads Rd.pure

theorem StmtE.statics {y : Token} (hk : Tok .kwStatic k) (h : SepBy (StaticRd doc) false ts ns) (hy : Plain y)
    (hx : ends y.t = true) (hc : y.t ≠ .comma) : StmtE doc (.stop y) (k :: ts) (.staticVariablesStatement k ns) [] := by
  refine .mk' hk (by decide) fun rest hf => ?_
  obtain ⟨r, rfl⟩ := hf
  exact (statics_rd hk h ⟨y, r, rfl, hy, by simp [hx, hc]⟩).e

/-- The branches of a `switch`. -/
structure BranchesE (doc : Token → Option Node) (t : TT) (ts : List Token) (bs : List Node) (es : List Err) : Prop where
  nil : bs = [] → ts = []
  first : ts = [] ∨ Next ts fun t => t == .kwCase || t == .kwDefault
  reads : ∀ k rest acc, Tok t k → t = .closeCurly ∨ t = .endSwitch → LoopRdE doc .other (fun r (bs : List Node) => do
    if ← nextOneOf [t] then pure (.inr bs)
    else do
      let cs ← caseList r
      let ss ← plainStatements r [t, .kwCase, .kwDefault]
      pure (.inl (bs ++ [.switchBranch cs ss]))) acc ts (k :: rest) (acc ++ bs) es

theorem BranchesE.none : BranchesE doc t [] [] [] where
  nil _ := rfl
  first := .inl rfl
  reads k rest acc hk _ := by
    rw [List.append_nil]
    refine LoopRdE.stop (Rd.e ?_)
    exact Rd.bind0 (ts := []) (Rd.nextOneOf_tok hk (List.mem_singleton.2 rfl)) Rd.pure

theorem BranchesE.cons {bs : List Node} {cs : List (Option Node)} (hc : LabelsRd doc ts cs)
    (h : SeqE doc (.tail o) us ns es) (ho : o.Free) (hb : BranchesE doc t vs bs es') (he : ns = [] → bs = [])
    (hd : us = [] ∨ Next us fun _ => true) :
    BranchesE doc t (ts ++ (us ++ vs)) (.switchBranch cs ns :: bs) (es ++ es') where
  nil h := nomatch h
  first := .inr hc.first.append
  reads k rest acc hk ht := by
    have ht1 : continues.contains t = false ∧ [t].all (fun x => !(x == .kwCase || x == .kwDefault)) = true ∧
        [t, .kwCase, .kwDefault].all (fun x => !stmtStart x) = true ∧ (t != .kwCase && t != .kwDefault) = true := by
      rcases ht with rfl | rfl <;> decide
    have e1 : ts ++ (us ++ vs) = (ts ++ us) ++ vs := by simp
    have hnx : Next (vs ++ k :: rest) fun x => x == t || x == .kwCase || x == .kwDefault := by
      rcases hb.first with rfl | hv
      · exact ⟨k, rest, rfl, hk.1, by simp [hk.2]⟩
      · exact (hv.mono (q := fun x => x == t || x == .kwCase || x == .kwDefault) fun x hx => by
          rcases Bool.or_eq_true_iff.1 hx with hx | hx <;> simp [hx]).append
    have hfo : Follows o (vs ++ k :: rest) := by
      cases o with
      | done => trivial
      | semi => rcases ho with h | h <;> cases h
      | tag => rcases ho with h | h <;> cases h
      | loose =>
        refine (hnx.mono fun x hx => ?_).ahead
        rw [Bool.or_eq_true_iff, Bool.or_eq_true_iff] at hx
        rcases hx with (hx | hx) | hx
        · rw [eq_of_beq hx, ht1.1]; rfl
        · rw [eq_of_beq hx]; rfl
        · rw [eq_of_beq hx]; rfl
    rw [e1]
    refine LoopRdE.step (b' := acc ++ [.switchBranch cs ns]) ?_ ?_
    · refine Rd.then0 (Rd.nextOneOf_no (p := fun t => t == .kwCase || t == .kwDefault) ?_ ht1.2.1) ?_
      · rw [List.append_assoc]; exact hc.first.append.ahead
      refine Rd.then (a := cs) (Rd.loop (hc.reads _ [] ?_)) ?_
      · cases ns with
        | nil =>
          obtain ⟨-, rfl, -⟩ := h.empty
          rw [hb.nil (he rfl)]
          exact ⟨k, rest, rfl, hk.1, by rw [hk.2]; exact ht1.2.2.2⟩
        | cons m ms =>
          rcases h.first (fun e => nomatch e) with h1 | ⟨c, r, rfl, hcc⟩
          · refine (h1.mono fun x hx => ?_).append
            cases hb : (x != .kwCase && x != .kwDefault) with
            | true => rfl
            | false =>
              have : x = .kwCase ∨ x = .kwDefault := by
                by_cases h1 : x = .kwCase
                · exact .inl h1
                · refine .inr ?_
                  simpa [h1] using hb
              rcases this with rfl | rfl <;> cases hx
          · rcases hd with hd | ⟨k', r', e, hk', -⟩
            · cases hd
            · cases e
              obtain ⟨h1, h2, h3⟩ := solid_iff.1 hk'.solid
              simp [hcc.type, isTrivia] at h1 h2 h3
      · refine RdE.bind_last (h.plain hnx (fun x hx => ?_) ht1.2.2.1 hfo) Rd.pure
        rw [Bool.or_eq_true_iff, Bool.or_eq_true_iff] at hx
        rcases hx with (hx | hx) | hx <;> simp [eq_of_beq hx]
    · have := hb.reads k rest (acc ++ [.switchBranch cs ns]) hk ht
      rwa [List.append_assoc] at this

theorem switch_readsE {oc cc : Token} {w : TT} {bs : List Node} (hk : Tok .kwSwitch k) (hl : Tok .openParenthesis lp)
    (hx : DelRd doc ends ts c) (hr : Tok .closeParenthesis rp)
    (ho : (Tok .openCurly oc ∧ w = .closeCurly) ∨ (Tok .colon oc ∧ w = .endSwitch)) (hb : BranchesE doc w us bs es)
    (hc : Tok w cc) (rest : List Token) :
    RdE doc [] switchStatement (k :: lp :: (ts ++ rp :: oc :: (us ++ [cc]))) rest
      (.switchCase k lp c rp (.switchBody oc bs cc)) es := by
  unfold switchStatement
  refine Rd.then1 (Rd.consume hk) ?_
  refine Rd.then1 (Rd.consume hl) ?_
  refine Rd.then (hx.tok hr (by decide)) ?_
  refine Rd.then1 (Rd.consume hr) ?_
  refine RdE.bind_last (a := Node.switchBody oc bs cc) ?_ Rd.pure
  unfold switchBody
  have hw : w = .closeCurly ∨ w = .endSwitch := ho.imp (·.2) (·.2)
  refine Rd.then1 (a := (oc, w)) ?_ ?_
  · rcases ho with ⟨ho, rfl⟩ | ⟨ho, rfl⟩
    · refine Rd.bind0 (Rd.nextOneOf_no (ho.next (rest := us ++ [cc] ++ rest)).ahead (by decide)) ?_
      exact Rd.bind1 (ts := []) (Rd.consume ho) Rd.pure
    · refine Rd.bind0 (Rd.nextOneOf_tok ho (by decide)) ?_
      exact Rd.bind1 (ts := []) (Rd.consume ho) Rd.pure
  · refine RdE.bindR (a := bs) (RdE.loop (hb.reads cc rest [] hc hw)) ?_
    exact Rd.bind1 (ts := []) (Rd.consume hc) Rd.pure

theorem StmtE.switch {oc cc : Token} {bs : List Node} (hk : Tok .kwSwitch k) (hl : Tok .openParenthesis lp)
    (hx : DelRd doc ends ts c) (hr : Tok .closeParenthesis rp) (ho : Tok .openCurly oc)
    (hb : BranchesE doc .closeCurly us bs es) (hc : Tok .closeCurly cc) :
    StmtE doc (.tail .done) (k :: lp :: (ts ++ rp :: oc :: (us ++ [cc]))) (.switchCase k lp c rp (.switchBody oc bs cc)) es :=
  .mk' hk (by decide) fun rest _ => switch_readsE hk hl hx hr (.inl ⟨ho, rfl⟩) hb hc rest

theorem StmtE.altSwitch {oc cc : Token} {bs : List Node} (hk : Tok .kwSwitch k) (hl : Tok .openParenthesis lp)
    (hx : DelRd doc ends ts c) (hr : Tok .closeParenthesis rp) (ho : Tok .colon oc)
    (hb : BranchesE doc .endSwitch us bs es) (hc : Tok .endSwitch cc) :
    StmtE doc (.tail .done) (k :: lp :: (ts ++ rp :: oc :: (us ++ [cc]))) (.switchCase k lp c rp (.switchBody oc bs cc)) es :=
  .mk' hk (by decide) fun rest _ => switch_readsE hk hl hx hr (.inr ⟨ho, rfl⟩) hb hc rest

/-- The loop over the members, from a state in which the comment in front of the first one may already wait. -/
theorem members_loopE {cc : Token} (h : EntriesE doc ts ns es) (hc : Tok .closeCurly cc) (acc : List Node) :
    ∀ cs us, ts = cs ++ us → Lead cs → Next (us ++ cc :: rest) (fun _ => true) → ∀ s : PSt, s.ctx = .script →
      (s.docs = [] ∧ s.toks = ts ++ cc :: rest ∨ s.docs = cs ∧ s.toks = us ++ cc :: rest) →
      ∃ s' : PSt, s'.toks = cc :: rest ∧ s'.docs = [] ∧ s'.ctx = .script ∧ s'.errors = s.errors ++ es ∧
        ∃ n0, ∀ n m, n0 ≤ n → n0 ≤ m → loopP .other m (membersBody (knot doc n)) acc s = .ok (acc ++ ns) s' := by
  induction h generalizing acc with
  | nil =>
    rintro cs us e - hn s hctx hs
    obtain ⟨rfl, rfl⟩ : cs = [] ∧ us = [] := by
      cases cs with
      | nil => exact ⟨rfl, e.symm⟩
      | cons => cases e
    have hs' : s.docs = [] ∧ s.toks = cc :: rest := hs.elim id id
    refine ⟨s, hs'.2, hs'.1, hctx, (List.append_nil _).symm, 1, fun n m _ hm => ?_⟩
    rw [List.append_nil]
    cases m with
    | zero => omega
    | succ m =>
      unfold loopP
      refine (bind_ok (a := .inr acc) (s' := s) ?_).trans rfl
      unfold membersBody
      refine (bind_ok (a := true) (s' := s) ?_).trans rfl
      refine (PhpLs.Parser.nextIs_some (peekOn_plain hc.1 hs'.2)).trans ?_
      rw [hc.2]
      rfl
  | @cons ts us' n ns es es' h hm ih =>
    rintro cs us e hcs hn s hctx hs
    obtain ⟨cs1, us1, rfl, hcs1, hn1, hr⟩ := h
    obtain ⟨k1, r1, rfl, hk1, hne⟩ := hn1
    -- the two ways to split off the comment agree
    obtain ⟨rfl, rfl⟩ : cs = cs1 ∧ us = k1 :: r1 ++ us' := by
      have hk1c : ∀ c : Token, Comment c → c ≠ k1 := by
        rintro c hc rfl
        obtain ⟨h1, h2, h3⟩ := solid_iff.1 hk1.solid
        simp [hc.type, isTrivia] at h1 h2 h3
      rcases hcs with rfl | ⟨c, rfl, hc⟩ <;> rcases hcs1 with rfl | ⟨c1, rfl, hc1⟩
      · exact ⟨rfl, e.symm⟩
      · have e : c1 :: (k1 :: r1 ++ us') = us := by simpa using e
        subst e
        obtain ⟨k, r, e, hk, -⟩ := hn
        cases e
        obtain ⟨h1, h2, h3⟩ := solid_iff.1 hk.solid
        simp [hc1.type, isTrivia] at h1 h2 h3
      · have e : k1 :: (r1 ++ us') = c :: us := by simpa using e
        injection e with e1 e2
        exact absurd e1.symm (hk1c c hc)
      · have e : c1 :: (k1 :: r1 ++ us') = c :: us := by simpa using e
        injection e with e1 e2
        subst e1
        exact ⟨rfl, e2.symm⟩
    -- after the first look the comment waits
    have hlook : ∃ s1 : PSt, peekOn s.toks s = (some k1, s1) ∧ s1.docs = cs ∧ s1.toks = k1 :: (r1 ++ (us' ++ cc :: rest)) ∧
        s1.ctx = .script ∧ s1.errors = s.errors := by
      rcases hs with ⟨hd, hs⟩ | ⟨hd, hs⟩
      · exact ⟨_, peek_lead (r := r1 ++ (us' ++ cc :: rest)) hcs hk1 hd (by rw [hs]; simp), rfl, rfl, hctx, rfl⟩
      · exact ⟨s, peekOn_plain (rest := r1 ++ (us' ++ cc :: rest)) hk1 (by rw [hs]; simp), hd, by rw [hs]; simp, hctx, rfl⟩
    obtain ⟨s1, hp1, hd1, ht1, hc1, he1⟩ := hlook
    obtain ⟨s2, ht2, hd2, hc2, he2, n2, hn2⟩ := hr (us' ++ cc :: rest) s1 hd1 hc1 (.inl (by rw [ht1]; simp))
    -- the comment in front of the next member
    have hnext : ∃ cs2 us2, us' = cs2 ++ us2 ∧ Lead cs2 ∧ Next (us2 ++ cc :: rest) (fun _ => true) := by
      cases hm with
      | nil => exact ⟨[], [], rfl, .inl rfl, cc, rest, rfl, hc.1, rfl⟩
      | @cons _ us3 _ _ _ _ h _ =>
        obtain ⟨cs2, us2, rfl, h1, h2, -⟩ := h
        exact ⟨cs2, us2 ++ us3, by simp, h1, (h2.mono (q := fun _ => true) fun _ _ => rfl).append.append⟩
    obtain ⟨cs2, us2, rfl, hl2, hx2⟩ := hnext
    have ht2' : s2.toks = cs2 ++ us2 ++ cc :: rest := by
      rcases ht2 with h | ⟨-, x, hx, hx'⟩
      · exact h
      · exfalso
        obtain ⟨k, r, e, hk, -⟩ := hx2
        rw [List.append_assoc, e] at hx
        rcases hl2 with rfl | ⟨c, rfl, -⟩
        · cases hx
          exact hk.noEof hx'
        · cases hx
    obtain ⟨k3, r3, e3, hk3, -⟩ := id hx2
    have hp3 : peekOn s2.toks s2 = (some k3, { s2 with docs := cs2, toks := k3 :: r3 }) :=
      peek_lead hl2 hk3 hd2 (by rw [ht2', List.append_assoc, e3])
    obtain ⟨s4, ht4, hd4, hc4, he4, n4, hn4⟩ := ih (acc ++ [n]) cs2 us2 rfl hl2 hx2 { s2 with docs := cs2, toks := k3 :: r3 } hc2
      (.inr ⟨rfl, e3.symm⟩)
    refine ⟨s4, ht4, hd4, hc4, he4.trans (by rw [← he1, ← List.append_assoc]; exact congrArg (· ++ es') he2), max n2 n4 + 1, fun n' m hn' hm' => ?_⟩
    cases m with
    | zero => omega
    | succ m =>
      unfold loopP
      refine (bind_ok (a := .inl (acc ++ [n])) (s' := { s2 with docs := cs2, toks := k3 :: r3 }) ?_).trans ?_
      · unfold membersBody
        refine (bind_ok (a := false) (s' := s1) ?_).trans ?_
        · refine (PhpLs.Parser.nextIs_some hp1).trans ?_
          have : [TT.closeCurly].contains k1.t = false := by
            have : k1.t ≠ .closeCurly := by simpa using hne
            simpa using this
          rw [this]
        · refine (bind_ok (a := acc ++ [n]) (s' := s2) ?_).trans ?_
          · show P.catchErr _ _ _ s1 = _
            unfold P.catchErr
            rw [hn2 n' (by omega)]
            rfl
          · refine (bind_ok (a := some k3) (s' := { s2 with docs := cs2, toks := k3 :: r3 }) ?_).trans rfl
            exact (PhpLs.Parser.peek_run s2).trans (by rw [hp3])
      · have := hn4 n' m (by omega) (by omega)
        rw [List.append_assoc] at this
        exact this

theorem ClassE.mk' {oc cc : Token} (hl : Tok .openCurly oc) (h : EntriesE doc ts ns es) (hr : Tok .closeCurly cc) :
    ClassE doc (oc :: (ts ++ [cc])) (.block oc ns cc) es where
  first := hl.next
  reads rest := by
    unfold classBlock
    refine Rd.then1 (Rd.consume hl) ?_
    refine RdE.bindR (a := ns) (RdE.loop (body := membersBody) (b := []) ?_) (Rd.bind1 (ts := []) (Rd.consume hr) Rd.pure)
    intro s hd hc hs
    have hf : ∃ cs us, ts = cs ++ us ∧ Lead cs ∧ Next (us ++ cc :: rest) (fun _ => true) := by
      cases h with
      | nil => exact ⟨[], [], rfl, .inl rfl, cc, rest, rfl, hr.1, rfl⟩
      | @cons _ us3 _ _ _ _ h _ =>
        obtain ⟨cs2, us2, rfl, h1, h2, -⟩ := h
        exact ⟨cs2, us2 ++ us3, by simp, h1, (h2.mono (q := fun _ => true) fun _ _ => rfl).append.append⟩
    obtain ⟨cs, us, e, h1, h2⟩ := hf
    have hs' : s.toks = ts ++ cc :: rest := by
      rcases hs with h | ⟨-, x, hx, hx'⟩
      · exact h
      · exfalso
        obtain ⟨k, r, e', hk, -⟩ := h2
        have hx : ts ++ cc :: rest = [x] := hx
        rw [e, List.append_assoc, e'] at hx
        rcases h1 with rfl | ⟨c, rfl, -⟩
        · cases hx
          exact hk.noEof hx'
        · cases hx
    obtain ⟨s', a1, a2, a3, a4, a5⟩ := members_loopE h hr [] cs us e h1 h2 s hc (.inl ⟨hd, hs'⟩)
    exact ⟨s', .inl a1, a2, a3, a4, a5⟩

/-! ## `use` -/

theorem clause_first {c : Clause} (hc : c.Ok) (r : List Token) : Next (c.toks ++ r) fun _ => true := by
  have key : ∀ q : QName, q.Ok → ∀ r, Next (q.toks ++ r) fun _ => true := by
    intro q hq r
    have h3 := hq.ns
    unfold QName.toks
    generalize q.ns = ns at h3
    cases ns with
    | none => exact ⟨q.id, _, rfl, (hq.words q.id (List.mem_cons_self ..)).1, rfl⟩
    | some n => exact ⟨n, _, rfl, (h3 n rfl).1, rfl⟩
  cases hc with
  | @one q a h3 h4 =>
    simp only [Clause.toks, List.append_assoc]
    exact key q h3 _
  | @group q sep oc i is t cc h3 =>
    simp only [Clause.toks, List.append_assoc]
    exact key q h3 _

theorem clauses_plainE {x e token : Token} {us : List Token} {more : List (Token × Clause)} {first : Clause}
    (h1 : first.Ok) (hm : ∀ p ∈ more, IsComma p.1 ∧ p.2.Ok) (hl : Lost x us e) (hx : Stop x) (hc : x.t ≠ .comma)
    (acc : List Node) :
    LoopRdE doc .other (fun r (is : List Node) => do
      let i ← useImport r token
      match ← consumeOrIgnore .comma with
      | some _ => pure (.inl (is ++ [i]))
      | none => do
        consumeOrFfAfter .semicolon [.semicolon]
        pure (.inr (is ++ [i]))) acc (first.toks ++ (more.flatMap (fun p => p.1 :: p.2.toks) ++ x :: (us ++ [e]))) rest
      (acc ++ first.node token :: more.map fun p => p.2.node token) [missing x] := by
  induction more generalizing acc first with
  | nil =>
    simp only [List.flatMap_nil, List.nil_append, List.map_nil]
    refine LoopRdE.stop ?_
    refine Rd.then (Rd.of (clause_reads h1 hx) (clause_first h1 _)) ?_
    refine Rd.then0 (Rd.ignore_no (p := (· != .comma)) (hl.next (by simpa using hc)).ahead rfl) ?_
    exact RdE.bind_last hl.reads Rd.pure
  | cons p more ih =>
    obtain ⟨hcm, hp⟩ := hm p (List.mem_cons_self ..)
    have e1 : first.toks ++ ((p :: more).flatMap (fun p => p.1 :: p.2.toks) ++ x :: (us ++ [e])) =
        (first.toks ++ [p.1]) ++ (p.2.toks ++ (more.flatMap (fun p => p.1 :: p.2.toks) ++ x :: (us ++ [e]))) := by simp
    rw [e1]
    refine LoopRdE.step (es := []) (b' := acc ++ [first.node token]) ?_ ?_
    · refine Rd.e ?_
      refine Rd.bind (Rd.of (clause_reads h1 (stop_comma hcm)) (clause_first h1 _)) ?_
      exact Rd.bind1 (ts := []) (Rd.ignore_yes hcm) Rd.pure
    · have := ih hp (fun q hq => hm q (List.mem_cons_of_mem _ hq)) (acc ++ [first.node token])
      simpa using this

theorem StmtE.use {u : UseStmt} {kind : UseKind} (hu : u.Ok kind) (hl : Lost x us u.semi)
    (hx : x.t ≠ .namespaceSeparator ∧ x.t ≠ .kwAs ∧ x.t ≠ .comma) :
    StmtE doc (.tail .done)
      (u.use :: (u.kw.toList ++ (u.first.toks ++ (u.more.flatMap (fun p => p.1 :: p.2.toks) ++ x :: (us ++ [u.semi])))))
      (u.node kind) [missing x] := by
  have huse : Tok .kwUse u.use := hu.use
  refine .mk' huse (by decide) fun rest _ => ?_
  show RdE doc [] useCase _ _ _ _
  have hstop : Stop x := ⟨hl.first, hx.1, hx.2.1⟩
  have hkw := hu.kw
  have hfirst := hu.clauses u.first (List.mem_cons_self ..)
  have hmore : ∀ p ∈ u.more, IsComma p.1 ∧ p.2.Ok ∧ (kind ≠ .plain → p.2.isOne) := fun p hp =>
    ⟨hu.commas p hp, hu.clauses p.2 (List.mem_cons_of_mem _ (List.mem_map_of_mem hp))⟩
  unfold useCase
  refine Rd.then1 (Rd.consume huse) ?_
  cases kind with
  | plain =>
    have hkw : u.kw = none := hkw
    rw [hkw]
    obtain ⟨k', r', e, hk1, hk2, hk3⟩ := clause_head hfirst.1
      ((u.more.flatMap (fun p => p.1 :: p.2.toks) ++ x :: (us ++ [u.semi])) ++ rest) (hu.start rfl) (hu.startGroup rfl)
    have hn : Next (u.first.toks ++ (u.more.flatMap (fun p => p.1 :: p.2.toks) ++ x :: (us ++ [u.semi])) ++ rest)
        fun t => t != .kwFunction && t != .kwConst := by
      refine ⟨k', r', ?_, hk1, by simp [hk2, hk3]⟩
      rw [← e]
      simp
    refine Rd.then0 (Rd.ignore_no hn.ahead (by decide)) ?_
    refine Rd.then0 (Rd.ignore_no hn.ahead (by decide)) ?_
    unfold useStatement UseStmt.node UseStmt.clauses
    refine RdE.bind_last (RdE.loop (clauses_plainE hfirst.1 (fun p hp => ⟨(hmore p hp).1, (hmore p hp).2.1⟩) hl hstop
      hx.2.2 [])) ?_
    simpa [Function.comp_def] using Rd.pure
  | function =>
    obtain ⟨kw, hkw, h1, h2⟩ := hkw
    rw [hkw]
    refine Rd.then1 (Rd.ignore_yes ⟨h1, h2⟩) ?_
    unfold useFunctionStatement UseStmt.node UseStmt.clauses
    have e : u.first.toks ++ (u.more.flatMap (fun p => p.1 :: p.2.toks) ++ x :: (us ++ [u.semi])) =
      (u.first.toks ++ u.more.flatMap (fun p => p.1 :: p.2.toks)) ++ x :: (us ++ [u.semi]) := by simp
    show RdE doc [] _ (u.first.toks ++ (u.more.flatMap (fun p => p.1 :: p.2.toks) ++ x :: (us ++ [u.semi]))) rest _ _
    rw [e]
    refine Rd.then (Rd.of (p := fun _ => true) (Reads.loop (clauses_as (f := Node.useFunction (some u.use)) ⟨hfirst.1, hfirst.2 (by decide)⟩
      (fun p hp => ⟨(hmore p hp).1, (hmore p hp).2.1, (hmore p hp).2.2 (by decide)⟩) hstop hx.2.2 [])) ?_) ?_
    · rw [List.append_assoc]; exact clause_first hfirst.1 _
    refine RdE.bind_last hl.reads ?_
    simpa [Function.comp_def] using Rd.pure
  | const =>
    obtain ⟨kw, hkw, h1, h2⟩ := hkw
    rw [hkw]
    have hk' : Tok .kwConst kw := ⟨h1, h2⟩
    refine Rd.then0 (Rd.ignore_no (p := (· == .kwConst)) (.inl ⟨kw, _, rfl, h1, by simp [h2]⟩) rfl) ?_
    refine Rd.then1 (Rd.ignore_yes hk') ?_
    unfold useConstStatement UseStmt.node UseStmt.clauses
    have e : u.first.toks ++ (u.more.flatMap (fun p => p.1 :: p.2.toks) ++ x :: (us ++ [u.semi])) =
      (u.first.toks ++ u.more.flatMap (fun p => p.1 :: p.2.toks)) ++ x :: (us ++ [u.semi]) := by simp
    show RdE doc [] _ (u.first.toks ++ (u.more.flatMap (fun p => p.1 :: p.2.toks) ++ x :: (us ++ [u.semi]))) rest _ _
    rw [e]
    refine Rd.then (Rd.of (p := fun _ => true) (Reads.loop (clauses_as (f := Node.useConst (some u.use)) ⟨hfirst.1, hfirst.2 (by decide)⟩
      (fun p hp => ⟨(hmore p hp).1, (hmore p hp).2.1, (hmore p hp).2.2 (by decide)⟩) hstop hx.2.2 [])) ?_) ?_
    · rw [List.append_assoc]; exact clause_first hfirst.1 _
    refine RdE.bind_last hl.reads ?_
    simpa [Function.comp_def] using Rd.pure

/-! ## Everything together -/

/-- The parser reads the tokens of a part and reports its errors. -/
def SemE (doc : Token → Option Node) : Part → List Token → List Err → Prop
  | .stmt a n, ts, es => StmtE doc a ts n es
  | .top a n, ts, es => TopE doc a ts n es
  | .stmts a ns, ts, es => SeqE doc a ts ns es
  | .block n, ts, es => BlockE doc ts n es
  | .body t o n, ts, es => BodyE doc t o ts n es
  | .branches t bs, ts, es => BranchesE doc t ts bs es
  | .elifs o bs, ts, es => ElifsE doc o ts bs es
  | .alts k bs k', ts, es => AltsE doc k ts bs k' es
  | .func d n, ts, es => FuncE doc d ts n es
  | .decl d as n, ts, es => DeclE doc d as ts n es
  | .member d as n, ts, es => MemberE doc d as ts n es
  | .entry n, ts, es => EntryE doc ts n es
  | .entries ns, ts, es => EntriesE doc ts ns es
  | .classBody n, ts, es => ClassE doc ts n es

theorem Has.sem {i : Part} (h : Has doc i ts es) : SemE doc i ts es := by
  induction h with
  | okStmt h => exact StmtRd.flawless h.sem
  | okTop h => exact TopRd.flawless h.sem
  | okBlock h => exact BlockRd.flawless h.sem
  | okBody h => exact BodyRd.flawless h.sem
  | okFunc h => exact fun rest => (Is.sem h rest).e
  | okDecl h => exact DeclRd.flawless h.sem
  | okMember h => exact MemberRd.flawless h.sem
  | okEntry h => exact EntryRd.flawless h.sem
  | okClassBody h => exact ClassRd.flawless h.sem
  | expr h hs hl hx hc hw => exact StmtE.expr h.sem hs hl hx hc hw
  | ret hk h hl hx => exact StmtE.ret hk h.sem hl hx
  | throw hk h hl hx => exact StmtE.throw hk h.sem hl hx
  | jump hk ht h hl hx => exact StmtE.jump hk ht h.sem hl hx
  | goto hk hw hl => exact StmtE.goto hk hw hl
  | doWhile hk _ ho hw hp hc hr hl ih => exact StmtE.doWhile hk ih ho hw hp hc.sem hr hl
  | «namespace» hk h hl hx => exact StmtE.namespace hk h hl hx
  | echo hk h hl => exact StmtE.echo hk h.sem hl
  | print hk h hl => exact StmtE.print hk h.sem hl
  | unset hk hl h hr => exact (StmtRd.unset_any hk hl h.sem hr).flawless
  | die0 hk hl hr => exact (StmtRd.die0_any hk hl hr).flawless
  | die hk hl h hr => exact (StmtRd.die_any hk hl h.sem hr).flawless
  | define hk hl h hc hv hr => exact (StmtRd.define_any hk hl h.sem hc hv.sem hr).flawless
  | declare hk hl hi hw hv ht hr => exact (StmtRd.declare_any hk hl hi hw hv ht hr).flawless
  | top _ ih => exact StmtE.top ih
  | noStmts => exact SeqE.nil
  | stmts _ _ hf ih ihm => exact SeqE.cons ih ihm hf
  | block ho _ hs hc ih => exact BlockE.mk' ho ih hs hc
  | blockStmt _ ih => exact StmtE.block ih
  | body _ ih => exact StmtE.body ih
  | «if» hk hl hc hr _ _ ho ih ihm => exact StmtE.if hk hl hc.sem hr ih ihm ho
  | ifElse hk hl hc hr _ _ hx _ ih ihm ih' => exact StmtE.ifElse hk hl hc.sem hr ih ihm hx ih'
  | noElif => exact ElifsE.none
  | elif hk hl hc hr _ _ ho ih ihm => exact ElifsE.cons hk hl hc.sem hr ih ihm ho
  | altIf hk hl he hr hc _ h1 _ h2 ih ihm => exact StmtE.altIf hk hl he.sem hr hc ih h1 ihm h2
  | altIfElse hk hl he hr hc _ h1 _ h2 hc' _ ho h3 hs ih ihm ih' =>
    exact StmtE.altIfElse hk hl he.sem hr hc ih h1 ihm h2 hc' ih' ho h3 hs
  | noAlt hk => exact AltsE.none hk
  | alt hk hl he hr hc _ h1 _ ih ihm => exact AltsE.cons hk hl he.sem hr hc ih h1 ihm
  | «while» hk hl hc hr _ ih => exact StmtE.while hk hl hc.sem hr ih
  | «for» hk hl hi he1 hc he2 hs hr _ ih => exact StmtE.for hk hl hi.sem he1 hc.sem he2 hs.sem hr ih
  | foreach hk hl hc hw hp hr _ ih => exact StmtE.foreach hk hl hc.sem hw hp.sem hr ih
  | «try» hk _ hc ih => exact StmtE.try hk ih hc.sem
  | tryFinally hk _ hc hf _ ih ih' => exact StmtE.tryFinally hk ih hc.sem hf ih'
  | namespaceBlock hk h _ ih => exact StmtE.namespaceBlock hk h ih
  | documented hc hx _ ih => exact DeclE.documented hc hx ih
  | declared ha _ ih => exact DeclE.declared ha.sem ih
  | func hl h hr hrt _ ih => exact func_readsE hl h.sem hr hrt ih
  | function hk ha hw _ ih => exact DeclE.function hk ha hw ih
  | «class» hm hk hw he hi _ ih => exact DeclE.class hm hk hw he hi ih
  | trait hk hw _ ih => exact DeclE.trait hk hw ih
  | classBody ho _ hc ih => exact ClassE.mk' ho ih hc
  | noEntries => exact EntriesE.nil
  | entries _ _ ih ihm => exact EntriesE.cons ih ihm
  | memberEntry ha _ ih => exact MemberE.entry ha.sem ih
  | documentedEntry hc hx _ ih => exact MemberE.documented hc hx ih
  | method hm ho hk ha hw _ ih => exact MemberE.method hm ho hk ha hw ih
  | altBody hc _ hs ht hk he ih => exact BodyE.alternative hc ih hs ht hk he
  | switch hk hl he hr ho _ hc ih => exact StmtE.switch hk hl he.sem hr ho ih hc
  | altSwitch hk hl he hr ho _ hc ih => exact StmtE.altSwitch hk hl he.sem hr ho ih hc
  | noBranch => exact BranchesE.none
  | branch hc _ ho _ he hd ih ihb => exact BranchesE.cons hc.sem ih ho ihb he hd
  | use h hl hx => exact StmtE.use h hl hx
  | statics hk h hy hx hc => exact StmtE.statics hk h.sem hy hx hc
  | useTraits hk h hl hx => exact EntryE.useTraits hk h hl hx
  | constMember hm ho hk h hl hx hc => exact MemberE.const hm ho hk h.sem hl hx hc
  | property hm hn ho ht hs h hl hx hc => exact MemberE.property hm hn ho ht hs h.sem hl hx hc

end PhpLs.Syntax
