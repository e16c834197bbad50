import Verif.SyntaxSem
import Verif.Props.ParserTrivia
import Verif.Props.Declarations

/-!
# C67: a well-formed program is read as it is written

The grammar is in `Verif/SyntaxSpec.lean`.  A program is an opening tag, statements, and the `Eof` token.
-/

namespace PhpLs.Syntax

open PhpLs PhpLs.Parser

/-! ## Specification -/

/-- The tokens are a program with the given tree: an opening tag and statements, and perhaps
a closing tag at the end; only behind the statements there is an `Eof` token.  Without statements the tree says so. -/
inductive Program (doc : Token → Option Node) : List Token → List Node → Prop where
  | empty {tag : Token} {t : TT} {eof : Token} (ht : Tok t tag) (hs : t ∈ [TT.scriptStartRegular, .scriptStartShort])
      (he : eof.t = .eof) : Program doc [tag, eof] [.emptyScript]
  | statements {tag : Token} {t : TT} {eof : Token} {ts : List Token} {o : Tail} {n : Node} {ns : List Node} (ht : Tok t tag)
      (hs : t ∈ [TT.scriptStartRegular, .scriptStartShort]) (h : Is doc (.stmts o (n :: ns)) ts) (ho : o.Free)
      (he : eof.t = .eof) : Program doc (tag :: (ts ++ [eof])) (n :: ns)
  | closed {tag : Token} {t : TT} {s : Token} {ts : List Token} {o : Tail} {ns : List Node} (ht : Tok t tag)
      (hs : t ∈ [TT.scriptStartRegular, .scriptStartShort]) (h : Is doc (.stmts o ns) ts)
      (hc : Tok .scriptEnd s) : Program doc (tag :: (ts ++ [s])) (ns ++ [.inlineHtml s none])

/-! ## The loop over the statements -/

variable {doc : Token → Option Node} {ts us rest : List Token} {n : Node} {ns : List Node} {o o' : Tail} {tag eof k : Token}

/-- The body of the loop of `astLoop`. -/
def astBody (r : Rec) (stmts : List Node) : P (List Node ⊕ List Node) := do
  match ← peek with
  | none => pure (.inr stmts)
  | some k =>
    if k.t = .eof then pure (.inr stmts)
    else do
      let stmts ← statementInto r stmts
      pure (.inl stmts)

theorem astBody_step {acc : List Node} (h : TopRd doc o ts n) (hf : Follows o rest) :
    Rd doc [] (fun r => astBody r acc) ts rest (.inl (acc ++ [n])) := by
  obtain ⟨cs, us, rfl, hc, hn, hr⟩ := h
  unfold astBody
  refine Rd.first_peek hc hn.append fun k hk _ => ?_
  have e : (fun r : Rec => (if k.t = .eof then pure (.inr acc) else
      statementInto r acc >>= fun stmts => pure (.inl stmts) : P (List Node ⊕ List Node))) =
      fun r => statementInto r acc >>= fun stmts => pure (.inl stmts) := funext fun r => if_neg hk.noEof
  show Rd doc cs (fun r : Rec => (if k.t = .eof then pure (.inr acc) else
      statementInto r acc >>= fun stmts => pure (.inl stmts) : P (List Node ⊕ List Node))) us rest _
  rw [e]
  exact Rd.bind_last (statementInto_reads (hr rest hf)) Rd.pure

/-- Nothing, or the `Eof` token. -/
def AtEnd (es : List Token) : Prop := es = [] ∨ ∃ e : Token, es = [e] ∧ e.t = .eof

theorem peek_end {s : PSt} {es : List Token} (he : AtEnd es) (hd : s.docs = []) (hs : Settled es s.toks) :
    ∃ s' : PSt, peek s = .ok none s' ∧ s'.toks = [] ∧ s'.docs = [] ∧ s'.ctx = s.ctx ∧ s'.errors = s.errors := by
  refine ⟨{ s with toks := [] }, ?_, rfl, hd, rfl, rfl⟩
  rw [peek_run]
  rcases hs with h | ⟨h, -⟩
  · rcases he with rfl | ⟨e, rfl, he⟩
    · rw [h]
      rfl
    · rw [h]
      unfold peekOn
      rw [if_pos he]
  · rw [h]
    rfl

theorem peek_eof {s : PSt} (he : eof.t = .eof) (hd : s.docs = []) (hs : Settled [eof] s.toks) :
    ∃ s' : PSt, peek s = .ok none s' ∧ s'.toks = [] ∧ s'.docs = [] ∧ s'.ctx = s.ctx ∧ s'.errors = s.errors :=
  peek_end (.inr ⟨eof, rfl, he⟩) hd hs

theorem astBody_stop {acc : List Node} {es : List Token} (he : AtEnd es) :
    Rd doc [] (fun r => astBody r acc) [] es (.inr acc) := by
  intro s hd hc hs
  obtain ⟨s', h1, h2, h3, h4, h5⟩ := peek_end he hd hs
  refine ⟨s', ?_, h3, h4.trans hc, h5, 0, fun n _ => (bind_ok h1).trans rfl⟩
  rcases he with rfl | ⟨e, rfl, he⟩
  · exact .inl h2
  · exact .inr ⟨h2, e, rfl, he⟩

/-- The first statement is read behind the opening tag. -/
theorem first_statement {t : TT} {s : PSt} (ht : Tok t tag) (hst : t ∈ [TT.scriptStartRegular, .scriptStartShort])
    (h : TopRd doc o ts n) (hf : Follows o rest) (hd : s.docs = []) (hc : s.ctx = .out) (hs : s.toks = tag :: (ts ++ rest)) :
    ∃ s' : PSt, Settled rest s'.toks ∧ s'.docs = [] ∧ s'.ctx = .script ∧ s'.errors = s.errors ∧
      ∃ n0, ∀ m, n0 ≤ m → (knot doc m).statement s = .ok n s' := by
  obtain ⟨cs, us, rfl, hl, hn, hr⟩ := h
  obtain ⟨k, r, rfl, hk, -⟩ := hn
  obtain ⟨s1, h1, h2, h3⟩ := takeFront_plain (a := some (tag, true)) ht.1 hs
  have htake : takeOr (fun k => k.t == .scriptStartRegular || k.t == .scriptStartShort) s = .ok (some (tag, true)) s1 := by
    refine (takeOr_yes (peekOn_plain ht.1 hs) ?_).trans h3
    show (tag.t == .scriptStartRegular || tag.t == .scriptStartShort) = true
    rw [ht.2]
    simpa using hst
  have hpk := peek_lead (s := { s1 with ctx := .script }) (r := r ++ rest) hl hk (h2.docs.trans hd) (by rw [h1]; simp)
  obtain ⟨s2, a1, a2, a3, a4, n0, a5⟩ := hr rest hf { s1 with ctx := .script, docs := cs, toks := k :: (r ++ rest) } rfl rfl (.inl rfl)
  refine ⟨s2, a1, a2, a3, a4.trans h2.errors, n0 + 1, fun m hm => ?_⟩
  cases m with
  | zero => omega
  | succ m =>
    show statementF (knot doc m) s = _
    unfold statementF
    refine (bind_ok (a := Ctx.out) (s' := s) (by unfold getCtx; rw [hc])).trans ?_
    refine (bind_ok htake).trans ?_
    show (setCtx .script >>= fun _ => _) s1 = _
    refine (bind_ok (p := setCtx .script) (a := ()) (s' := { s1 with ctx := .script }) rfl).trans ?_
    refine (bind_ok (a := some k) (s' := { s1 with ctx := .script, docs := cs, toks := k :: (r ++ rest) }) ?_).trans
      (a5 m (by omega))
    exact (peek_run _).trans (by rw [hpk])

theorem statementInto_ok {s s1 : PSt} {acc : List Node} {m : Nat} (hd : s1.docs = []) (h : (knot doc m).statement s = .ok n s1) :
    statementInto (knot doc m) acc s = .ok (acc ++ [n]) s1 := by
  unfold statementInto
  show P.catchErr _ _ _ s = _
  unfold P.catchErr
  rw [h]
  show (drainDocs (knot doc m).doc >>= fun ds => pure (acc ++ ds ++ [n])) s1 = _
  have hdr : drainDocs (knot doc m).doc s1 = .ok [] s1 := by
    unfold drainDocs
    rw [hd]
    obtain ⟨a, b, c, d, e, f⟩ := s1
    cases hd
    rfl
  refine (bind_ok hdr).trans ?_
  rw [List.append_nil]
  rfl

theorem seq_ast {t : TT} (ht : Tok t tag) (hst : t ∈ [TT.scriptStartRegular, .scriptStartShort])
    (hseq : SeqRd doc o ts (n :: ns)) (ho : o.Free) {es : List Token} (he : AtEnd es) :
    ∃ n0, ∀ m, n0 ≤ m → ∃ s, astLoop (knot doc m) (new (tag :: (ts ++ es))) = .ok (n :: ns) s ∧ s.errors = [] := by
  cases hseq with
  | @cons o1 o2 ts us _ _ h1 h2 hf =>
    have hlast : Follows (lastTail ns o1 o2) es := by
      cases hl : lastTail ns o1 o2 with
      | done => trivial
      | loose => exact .inr he
      | semi => rw [hl] at ho; rcases ho with h | h <;> cases h
      | tag => rw [hl] at ho; rcases ho with h | h <;> cases h
    have hfol : Follows o1 (us ++ es) ∧ Follows o2 es := by
      cases ns with
      | nil =>
        obtain ⟨rfl, rfl⟩ := h2.empty
        exact ⟨hlast, trivial⟩
      | cons m ns =>
        have h3 := h2.first (fun e => nomatch e)
        refine ⟨?_, hlast⟩
        rcases hf with rfl | hf
        · rcases h3 with ⟨k, r, e, -⟩ | ⟨c, r, e, -⟩ <;> cases e
        · exact hf.append h3
    have hnew : (new (tag :: (ts ++ us ++ es))).toks = tag :: (ts ++ (us ++ es)) := by
      rw [List.append_assoc]; rfl
    obtain ⟨s1, a1, a2, a3, a4, n1, a5⟩ := first_statement ht hst h1 hfol.1 rfl rfl hnew
    have hloop := SeqRd.loop (site := .ast) (body := astBody) h2 (fun acc o ts n rest h hf => astBody_step h hf)
      (fun acc => astBody_stop he) hfol.2 [n]
    obtain ⟨s2, b1, b2, b3, b4, n2, b5⟩ := hloop s1 a2 a3 a1
    refine ⟨max n1 n2 + 1, fun m hm => ⟨s2, ?_, by rw [b4, a4]; rfl⟩⟩
    obtain ⟨m, rfl⟩ : ∃ m', m = m' + 1 := ⟨m - 1, by omega⟩
    show loopP .ast (m + 1) (astBody (knot doc (m + 1))) [] (new (tag :: (ts ++ us ++ es))) = _
    unfold loopP
    refine (bind_ok (a := .inl [n]) (s' := s1) ?_).trans (b5 (m + 1) m (by omega) (by omega))
    unfold astBody
    refine (bind_ok (a := some tag) (s' := new (tag :: (ts ++ us ++ es)))
      ((peek_run _).trans (by rw [peekOn_plain ht.1 rfl]))).trans ?_
    refine (congrFun (if_neg ht.1.noEof) _).trans ?_
    exact (bind_ok (statementInto_ok a2 (a5 (m + 1) (by omega)))).trans rfl

theorem program_ast {ns : List Node} (h : Program doc ts ns) :
    ∃ n0, ∀ m, n0 ≤ m → ∃ s, astLoop (knot doc m) (new ts) = .ok ns s ∧ s.errors = [] := by
  have hfuel : ∀ m, (knot doc (m + 1)).fuel = m + 1 := fun m => rfl
  cases h with
  | @empty tag t eof ht hst he =>
    obtain ⟨s1, h1, h2, h3⟩ := takeFront_plain (a := some (tag, true)) (s := new [tag, eof]) ht.1 rfl
    have htake : takeOr (fun k => k.t == .scriptStartRegular || k.t == .scriptStartShort) (new [tag, eof]) =
        .ok (some (tag, true)) s1 := by
      refine (takeOr_yes (peekOn_plain ht.1 rfl) ?_).trans h3
      show (tag.t == .scriptStartRegular || tag.t == .scriptStartShort) = true
      rw [ht.2]
      simpa using hst
    obtain ⟨s2, a1, a2, a3, a4, a5⟩ := peek_eof (s := { s1 with ctx := .script }) he h2.docs (.inl h1)
    obtain ⟨s3, b1, b2, b3, b4, b5⟩ := peek_eof (s := s2) he a3 (.inr ⟨a2, eof, rfl, he⟩)
    refine ⟨2, fun m hm => ?_⟩
    obtain ⟨m, rfl⟩ : ∃ m', m = m' + 2 := ⟨m - 2, by omega⟩
    refine ⟨s3, ?_, by rw [b5, a5]; exact h2.errors⟩
    have hstat : (knot doc (m + 2)).statement (new [tag, eof]) = .ok .emptyScript s2 := by
      show statementF (knot doc (m + 1)) (new [tag, eof]) = _
      unfold statementF
      refine (bind_ok (p := getCtx) (a := Ctx.out) (s' := new [tag, eof]) rfl).trans ?_
      refine (bind_ok htake).trans ?_
      show (setCtx .script >>= fun _ => _) s1 = _
      refine (bind_ok (p := setCtx .script) (a := ()) (s' := { s1 with ctx := .script }) rfl).trans ?_
      exact (bind_ok a1).trans rfl
    show loopP .ast (m + 2) (astBody (knot doc (m + 2))) [] (new [tag, eof]) = _
    unfold loopP
    refine (bind_ok (a := .inl [.emptyScript]) (s' := s2) ?_).trans ?_
    · unfold astBody
      refine (bind_ok (a := some tag) (s' := new [tag, eof]) ((peek_run _).trans (by rw [peekOn_plain ht.1 rfl]))).trans ?_
      refine (congrFun (if_neg ht.1.noEof) _).trans ?_
      exact (bind_ok (statementInto_ok a3 hstat)).trans rfl
    · show loopP .ast (m + 1) (astBody (knot doc (m + 2))) [.emptyScript] s2 = _
      unfold loopP
      refine (bind_ok (a := .inr [.emptyScript]) (s' := s3) ?_).trans rfl
      exact (bind_ok b1).trans rfl
  | statements ht hst h ho he => exact seq_ast ht hst h.sem ho (.inr ⟨_, rfl, he⟩)
  | @closed tag t c ts o ns ht hst h hc =>
    have hseq : SeqRd doc o ts ns := h.sem
    have hs := hseq.snoc (StmtRd.closing hc) (follows_end hc)
    have e : tag :: (ts ++ [c]) = tag :: (ts ++ [c] ++ []) := by simp
    rw [e]
    cases ns with
    | nil => exact seq_ast ht hst hs (.inr rfl) (.inl rfl)
    | cons n ns => exact seq_ast ht hst hs (.inr rfl) (.inl rfl)

/-! ## The theorems -/

/-- **C67**: the tokens of a program are parsed without an error, and the tree is the one the grammar gives them. -/
theorem C67_program {U : Unicode} {ns : List Node} (h : Program (DocBlock.docNode U) ts ns) :
    ∃ n0, ∀ m, n0 ≤ m → ∃ s, ast U m ts = .ok ns s ∧ s.errors = [] := by
  obtain ⟨n0, hn⟩ := program_ast h
  refine ⟨n0, fun m hm => ?_⟩
  have : ts.isEmpty = false := by cases h <;> rfl
  unfold ast
  rw [this]
  exact hn m hm

/-- The same for every amount of fuel: either it is too little, or the program is read. -/
theorem C67_fuel {U : Unicode} {ns : List Node} {m : Nat} (h : Program (DocBlock.docNode U) ts ns)
    (hd : ∀ site, ast U m ts ≠ .diverge site) : ∃ s, ast U m ts = .ok ns s ∧ s.errors = [] := by
  obtain ⟨n0, hn⟩ := C67_program h
  obtain ⟨s, h1, h2⟩ := hn (max m n0) (by omega)
  rw [ast_fuel U m (max m n0) (by omega) ts hd] at h1
  exact ⟨s, h1, h2⟩

/-- **C67**: the grammar is unambiguous, so the tree is determined by the tokens alone. -/
theorem C67_unambiguous {ns ns' : List Node} (h : Program doc ts ns) (h' : Program doc ts ns') : ns = ns' := by
  obtain ⟨n0, hn⟩ := program_ast h
  obtain ⟨n1, hn'⟩ := program_ast h'
  obtain ⟨s, h1, -⟩ := hn (max n0 n1) (by omega)
  obtain ⟨s', h1', -⟩ := hn' (max n0 n1) (by omega)
  rw [h1] at h1'
  injection h1'

/-- **C67**, for expressions in any place: whatever stands behind it, as long as it ends the expression, an expression is read
as the grammar says, and nothing else is. -/
theorem C67_expression (h : Is doc (.one .expr n) ts) {s : PSt} (hd : s.docs = []) (hc : s.ctx = .script)
    (hs : s.toks = ts ++ rest) (hr : Next rest ends) :
    ∃ s' : PSt, s'.toks = rest ∧ s'.errors = s.errors ∧ ∃ n0, ∀ m, n0 ≤ m → (knot doc m).expression 0 s = .ok n s' := by
  have h : DelRd doc ends ts n := h.sem
  obtain ⟨s', h1, h2, h3, h4, n0, h5⟩ := h.reads rest hr s hd hc (.inl hs)
  exact ⟨s', h1.next hr, h4, n0, h5⟩

/-- Outside of the script the last token is a closing tag or belongs to a heredoc. -/
def OutTop (s : Scanner.St) : Prop := s.ctx ≠ .inScript → ∀ k r, s.toks = k :: r → k.t = .scriptEnd ∨ Scanner.hereKind k.t = true

theorem outTop_push {s : Scanner.St} {t : TT} (h : OutTop s) : OutTop (s.push t) := by
  unfold Scanner.St.push
  split
  · exact h
  · rename_i hc
    intro hn
    exact absurd hn hc

theorem outTop_adv {s : Scanner.St} (h : OutTop s) : OutTop s.adv := by
  rw [Scanner.adv_eq]
  split
  · exact h
  · unfold Scanner.readOne
    split
    · exact outTop_push (t := .linebreak) h
    · exact h

theorem outTop_prim {s s' : Scanner.St} (h : OutTop s) (hp : Scanner.Prim True s s') : OutTop s' := by
  cases hp with
  | adv => exact outTop_adv h
  | push t ht => exact outTop_push h
  | named t l ht hb hc =>
    intro hn k r e
    cases e
    rcases hc with hc | hc
    · exact absurd hc.1 hn
    · exact .inr hc.2
  | enter => exact fun hn => absurd rfl hn
  | leave hl =>
    intro _ k r e
    cases hc : s.ctx with
    | inScript =>
      obtain ⟨k', r', e', ht⟩ := hl hc
      have e : s.toks = k :: r := e
      rw [e'] at e
      cases e
      exact .inl ht
    | outScript => exact h (by rw [hc]; exact fun e => nomatch e) k r e
  | cast q p rest c off hs hp hq ho =>
    intro hn
    exfalso
    have := h hn q _ hs
    revert hq this
    cases q.t <;> simp [mapCast, Scanner.hereKind]
  | yieldFrom y rest hs hy =>
    intro hn
    have hn : s.ctx ≠ .inScript := by
      intro hc
      apply hn
      unfold Scanner.St.push
      split
      · exact hc
      · exact hc
    have := h hn y _ hs
    rw [hy] at this
    exact absurd this (by decide)

/-- The last token of a text is no line break and no line comment. -/
theorem scan_last {U : Unicode} {t : Text} {s : Scanner.St} (h : Scanner.scan U t = .ok s) :
    s.tokens = [] ∨ ∃ a e, s.tokens = a ++ [e] ∧ isTrivia e = false := by
  unfold Scanner.scan at h
  generalize t.length + 1 = n at h
  have h0 : OutTop (Scanner.new t) := fun _ k r e => nomatch e
  generalize Scanner.new t = a at h h0
  induction n generalizing a with
  | zero => simp [Scanner.loop] at h
  | succ n ih =>
    unfold Scanner.loop at h
    split at h
    · rename_i s' e
      refine ih _ h ?_
      have hr := Scanner.step_cont_reach U e
      clear e h
      have hb : OutTop a.mark.adv := outTop_adv (s := a.mark) h0
      induction hr with
      | refl => exact hb
      | tail _ p ih => exact outTop_prim ih p
    · rename_i e
      cases h
      obtain ⟨rfl, -⟩ := Scanner.step_done U e
      have hb : OutTop a.mark.adv := outTop_adv (s := a.mark) h0
      unfold Scanner.St.tokens Scanner.St.push
      split
      · rename_i hc
        cases ht : a.mark.adv.toks with
        | nil => exact .inl rfl
        | cons k r =>
          refine .inr ⟨_, _, List.reverse_cons, ?_⟩
          have := hb hc k r ht
          unfold isTrivia
          revert this
          cases k.t <;> simp [Scanner.hereKind]
      · exact .inr ⟨_, _, List.reverse_cons, rfl⟩
    · cases h
    · cases h

theorem Program.notEmpty {ns : List Node} (h : Program doc ts ns) : ts ≠ [] := by
  cases h <;> exact fun e => nomatch e

/-- **C67**, for texts: line breaks and line comments may stand anywhere. -/
theorem C67_text {U : Unicode} {t : Text} {s : Scanner.St} {ns : List Node} (hs : Scanner.scan U t = .ok s)
    (h : Program (DocBlock.docNode U) (strip s.tokens) ns) :
    ∃ n0, ∀ m, n0 ≤ m → ∃ p, ast U m s.tokens = .ok ns p ∧ p.errors = [] := by
  obtain ⟨a, e, he, het⟩ : ∃ a e, s.tokens = a ++ [e] ∧ isTrivia e = false := by
    rcases scan_last hs with hn | he
    · rw [hn] at h
      exact absurd rfl h.notEmpty
    · exact he
  obtain ⟨n0, hn⟩ := C67_program h
  refine ⟨n0, fun m hm => ?_⟩
  obtain ⟨p, h1, h2⟩ := hn m hm
  have hse : strip (a ++ [e]) = strip a ++ [e] := by
    unfold strip
    rw [List.filter_append]
    simp only [isTrivia, Bool.or_eq_false_iff, beq_eq_false_iff_ne] at het
    simp [het]
  have hss : strip (strip a ++ [e]) = strip (a ++ [e]) := by
    rw [← hse]
    unfold strip
    rw [List.filter_filter]
    simp
  rw [he, hse] at h1
  have hok : TriviaOk (strip a ++ [e]) := by
    intro k hk ht
    rw [← hse] at hk
    have := (List.mem_filter.1 hk).2
    unfold isTrivia at ht
    rw [ht] at this
    cases this
  have hok' := triviaOk_of_scan U t s hs
  rw [he] at hok'
  obtain ⟨p', h3, h4⟩ := C16_trivia_transparent U m _ _ e hss hok hok' ns p h1
  exact ⟨p', by rw [he]; exact h3, h4.trans h2⟩

/-- **C67**, for the server: a well-formed file has no syntax errors, its tree is the one the grammar gives it, and its symbols
are the declarations of that tree (C66). -/
theorem C67_server {h : Host} {t : Text} {s : Scanner.St} {ns : List Node} {r : Option (List Node × LspRange × List Parser.Err)}
    (hs : Scanner.scan h.U t = .ok s) (hp : Program (DocBlock.docNode h.U) (strip s.tokens) ns)
    (hr : Backend.sourceToAst h t = .ok r) : r = some (ns, getRange ⟨0, 0, s.col, s.line⟩, []) := by
  obtain ⟨n0, hn⟩ := C67_text hs hp
  obtain ⟨p, h1, h2⟩ := hn (max h.fuel n0) (by omega)
  unfold Backend.sourceToAst at hr
  rw [hs] at hr
  have hd : ∀ site, ast h.U h.fuel s.tokens ≠ .diverge site := by
    intro site hx
    simp only [hx] at hr
    cases hr
  rw [ast_fuel h.U h.fuel (max h.fuel n0) (by omega) s.tokens hd] at h1
  simp only [h1, h2] at hr
  cases hr
  rfl

/-! ## A concrete program -/

/-- A program with an `if`, a call, an array, a documented class, a typed parameter and a loop. -/
def sample : Text :=
  c!"<?php if ($a) f($b + 1, [2]); else { return; }\n/** d */ class A { public $x = 1; function m(int $y) { while (true) die(); } } // end"

/-- Its tokens, without line breaks and line comments. -/
def sampleTokens : List Token :=
  match Scanner.scan Unicode.ascii sample with
  | .ok s => strip s.tokens
  | _ => []

/-- The types of these tokens. -/
def sampleTypes : List TT :=
    [.scriptStartRegular, .kwIf, .openParenthesis, .variable, .closeParenthesis, .identifier, .openParenthesis, .variable, .plus,
     .longNumber, .comma, .openBrackets, .longNumber, .closeBrackets, .closeParenthesis, .semicolon, .kwElse, .openCurly,
     .kwReturn, .semicolon, .closeCurly, .multilineComment, .kwClass, .identifier, .openCurly, .kwPublic, .variable,
     .assignment, .longNumber, .semicolon, .kwFunction, .identifier, .openParenthesis, .typeInt, .variable, .closeParenthesis,
     .openCurly, .kwWhile, .openParenthesis, .kwTrue, .closeParenthesis, .kwDie, .openParenthesis, .closeParenthesis,
     .semicolon, .closeCurly, .closeCurly, .eof]

theorem sample_types : sampleTokens.map (·.t) = sampleTypes := by decide +kernel

theorem sample_plain : sampleTokens.all (fun k => k.t == .eof || k.t == .multilineComment || (solid k && k.range.isSome)) = true := by
  decide +kernel

theorem sample_labels : sampleTokens.all (fun k => k.t != .variable || k.label.isSome) = true := by decide +kernel

theorem sample_doc : sampleTokens.all (fun k => k.t != .multilineComment || (DocBlock.docNode Unicode.ascii k).isSome) = true := by
  decide +kernel

/-- The tree of the sample, for any tokens of these types. -/
theorem sample_abstract {k : Nat → Token} {x : Node}
    (ht : ∀ i, i < 48 → i ≠ 21 → i ≠ 47 → Tok (sampleTypes.getD i .eof) (k i))
    (hv : ∀ i, i < 48 → sampleTypes.getD i .eof = .variable → (k i).label.isSome = true)
    (hc : (k 21).t = .multilineComment) (hx : doc (k 21) = some x) (he : (k 47).t = .eof) :
    ∃ n ns, Program doc ((List.range 48).map k) (n :: ns) ∧ ns.length = 1 := by
  have tk : ∀ i, (h : i < 48 ∧ i ≠ 21 ∧ i ≠ 47 := by decide) → Tok (sampleTypes.getD i .eof) (k i) :=
    fun i h => ht i h.1 h.2.1 h.2.2
  have word : ∀ i, (h : (i < 48 ∧ i ≠ 21 ∧ i ≠ 47) ∧ (sampleTypes.getD i .eof).isIdentifier = true := by decide) → Word (k i) := by
    intro i h
    have := tk i h.1
    refine ⟨this.1, ?_⟩
    show (k i).t.isIdentifier = true
    rw [this.2]
    exact h.2
  have var : ∀ i, (h : (i < 48 ∧ i ≠ 21 ∧ i ≠ 47) ∧ sampleTypes.getD i .eof = .variable := by decide) →
      Is doc (.expr (.variable (k i)) [] []) [k i] := by
    intro i h
    have := tk i h.1
    rw [h.2] at this
    exact .call (.prim (.var ⟨this, hv i h.1.1 h.2⟩))
  have lit : ∀ i, (h : (i < 48 ∧ i ≠ 21 ∧ i ≠ 47) ∧ sampleTypes.getD i .eof ∈ literalSet := by decide) →
      Is doc (.expr (.literal (k i)) [] []) [k i] := by
    intro i h
    have := tk i h.1
    exact .call (.prim (.lit this.1 (by rw [this.2]; exact h.2)))
  -- `f($b + 1, [2])`
  have sum := Is.bin (var 7) (tk 8).1 (by rw [(tk 8).2]; decide) (by rw [(tk 8).2]; decide) (lit 9) (fun o h => nomatch h)
    (fun t h => nomatch h)
  have arr := Is.array (tk 11) (.slots (.last (.value (.expr (lit 12))))) (tk 13)
  have args := Is.cons (b := true) (.arg (.expr sum)) (tk 10) (.last (.arg (.expr (.call (.prim arr)))))
  have name : Is doc (.prim _) [k 5] :=
    .name (.mk (ns := none) (path := []) (fun _ h => nomatch h) (word 5) (fun _ h => nomatch h))
      ((tk 5).next.mono fun t ht => by rw [eq_of_beq ht]; rfl)
  have call := Is.apply (.prim name) (tk 6) args (tk 14)
  have s1 := Is.exprStmt (.expr (.call call)) ((tk 5).next.mono fun t ht => by rw [eq_of_beq ht]; rfl) (tk 15)
  -- `if ($a) .. else { return; }`
  have s2 := Is.blockStmt (Is.block (doc := doc) (tk 17) (.stmts (.top (.ret0 (tk 18) (tk 19))) .noStmts (.inl rfl)) (by decide) (tk 20))
  have s3 := Is.ifElse (tk 1) (tk 2) (.expr (var 3)) (tk 4) s1 .noElif (tk 16) s2
  -- `public $x = 1;`
  have p1 := Is.property (doc := doc) (d := none) (ats := []) (ms := [k 25])
    (by intro t ht; rw [List.mem_singleton.1 ht]; exact ⟨(tk 25).1, by rw [(tk 25).2]; decide⟩) (by simp) (by unfold InOrder; simp) .none
    ((tk 26).next.mono fun t ht => by rw [eq_of_beq ht]; decide)
    (.last (.propInit (tk 26) (tk 27) (.expr (lit 28)))) (tk 29)
  -- `while (true) die();`
  have w1 := Is.while (tk 37) (tk 38) (.expr (lit 39)) (tk 40) (.body (.die0 (tk 41) (tk 42) (tk 43)))
  have b1 := Is.block (tk 36) (.stmts (.top w1) (.stmts (.top (.noop (tk 44))) .noStmts (.inl rfl)) (.inr ⟨k 44, [], rfl, (tk 44).1, by rw [(tk 44).2]; rfl⟩)) (by simp [lastTail, Tail.Free])
    (tk 45)
  -- `function m(int $y) { .. }`
  have ty : TypeIs [k 33] _ := .plain (.one (.mk (ns := none) (path := []) (fun _ h => nomatch h) (word 33) (fun _ h => nomatch h)))
  have q1 := Is.param (doc := doc) (d := none) .noAttrs (.some ty) .none .none (tk 34)
  have f1 := Is.func (tk 32) (.params (.last q1)) (tk 35) .none b1
  have m1 := Is.method (doc := doc) (d := none) (ats := []) (ms := []) (fun _ h => nomatch h) (by unfold InOrder; simp) (tk 30) .none
    (word 31) f1
  have c1 := Is.classBody (tk 24) (.entries (.memberEntry .noAttrs p1) (.entries (.memberEntry .noAttrs m1) .noEntries)) (tk 46)
  have c2 := Is.class (ats := []) (d := some x) (.inl ⟨.none, rfl⟩) (tk 22) (word 23) .none .none c1
  have all := Is.stmts (.top s3) (.stmts (.documented ⟨hc⟩ hx c2) .noStmts (.inl rfl)) (.inr trivial)
  exact ⟨_, _, .statements (tk 0) (by decide) all (by simp [lastTail, Tail.Free]) he, rfl⟩

theorem sample_of {l : List Token} (sample_types : l.map (·.t) = sampleTypes)
    (sample_plain : l.all (fun k => k.t == .eof || k.t == .multilineComment || (solid k && k.range.isSome)) = true)
    (sample_labels : l.all (fun k => k.t != .variable || k.label.isSome) = true)
    (sample_doc : l.all (fun k => k.t != .multilineComment || (doc k).isSome) = true) :
    ∃ n ns, Program doc l (n :: ns) ∧ ns.length = 1 := by
  have hlen : l.length = 48 := by
    have := congrArg List.length sample_types
    rwa [List.length_map] at this
  let k : Nat → Token := fun i => l.getD i (Token.new .eof 0 0 0)
  have hk : ∀ i, i < 48 → (k i).t = sampleTypes.getD i .eof ∧ k i ∈ l := by
    intro i hi
    have e : k i = l[i]'(by omega) := by
      show l.getD i _ = _
      rw [List.getD_eq_getElem?_getD, List.getElem?_eq_getElem (by omega)]
      rfl
    refine ⟨?_, by rw [e]; exact List.getElem_mem _⟩
    rw [e, ← sample_types, List.getD_eq_getElem?_getD, List.getElem?_map, List.getElem?_eq_getElem (by omega)]
    rfl
  have hs : l = (List.range 48).map k := by
    apply List.ext_getElem
    · rw [List.length_map, List.length_range, hlen]
    · intro i h1 h2
      rw [List.getElem_map, List.getElem_range]
      show _ = l.getD i _
      rw [List.getD_eq_getElem?_getD, List.getElem?_eq_getElem h1]
      rfl
  have hc : (k 21).t = .multilineComment := (hk 21 (by decide)).1
  obtain ⟨x, hx⟩ : ∃ x, doc (k 21) = some x := by
    have hp := List.all_eq_true.1 sample_doc _ (hk 21 (by decide)).2
    rw [hc] at hp
    exact Option.isSome_iff_exists.1 hp
  rw [hs]
  refine sample_abstract ?_ ?_ hc hx (hk 47 (by decide)).1
  · intro i hi h1 h2
    obtain ⟨a, b⟩ := hk i hi
    have hne : sampleTypes.getD i .eof ≠ .eof ∧ sampleTypes.getD i .eof ≠ .multilineComment := by
      clear a b
      revert i
      decide
    have hp := List.all_eq_true.1 sample_plain _ b
    simp only [Bool.or_eq_true, Bool.and_eq_true, beq_iff_eq, a] at hp
    rcases hp with (hp | hp) | hp
    · exact absurd hp hne.1
    · exact absurd hp hne.2
    · exact ⟨⟨hp.1, by rw [a]; exact hne.1, Option.isSome_iff_exists.1 hp.2⟩, a⟩
  · intro i hi h1
    obtain ⟨a, b⟩ := hk i hi
    have hp := List.all_eq_true.1 sample_labels _ b
    rw [a, h1] at hp
    exact hp

/-- The sample is a program. -/
theorem sample_program : ∃ n ns, Program (DocBlock.docNode Unicode.ascii) sampleTokens (n :: ns) ∧ ns.length = 1 :=
  sample_of sample_types sample_plain sample_labels sample_doc

/-- So it is read without an error, as two statements. -/
example : ∃ n0, ∀ m, n0 ≤ m → ∃ n ns s, ast Unicode.ascii m sampleTokens = .ok (n :: ns) s ∧ s.errors = [] ∧ ns.length = 1 := by
  obtain ⟨n, ns, h, hl⟩ := sample_program
  obtain ⟨n0, hn⟩ := C67_program h
  exact ⟨n0, fun m hm => by obtain ⟨s, h1, h2⟩ := hn m hm; exact ⟨n, ns, s, h1, h2, hl⟩⟩

/-! ## What is not read as it is written -/

/-- The numbers of statements and of errors of a text. -/
def counts (source : Text) : Option (Nat × Nat) :=
  match Backend.sourceToAst plainHost source with
  | .ok (some (ns, _, es)) => some (ns.length, es.length)
  | _ => none

/-- The documentation of the functions among the statements. -/
def documented (source : Text) : List Bool :=
  (treeOf source).filterMap fun
    | .namedFunctionDefinitionStatement _ _ _ (.functionDefinitionStatement _ _ _ _ _ d) _ => some d.isSome
    | _ => none

/-- **C67 violated**: correct programs that are rejected: a `die` or an `unset` in front of an `else`, a comma behind the last
parameter, a promoted parameter, `namespace\f()`, and a `throw` inside of an expression. -/
theorem C67_violated_rejected :
    counts c!"<?php if ($a) die(); else f();" = some (3, 1) ∧
    counts c!"<?php if ($a) unset($b); else f();" = some (3, 1) ∧
    counts c!"<?php function f($a,) {}" = some (1, 3) ∧
    counts c!"<?php class A { function __construct(private int $x) {} }" = some (1, 3) ∧
    counts c!"<?php namespace\\f();" = some (1, 1) ∧
    counts c!"<?php $x = $y ?? throw new E();" = some (1, 1) := by
  decide +kernel

/-- **C67 violated**: a closing tag stands for a semicolon only behind `echo`, `print`, an expression and the statements whose
semicolon is a statement of its own.  Behind other statements it is an error, and the text up to the next semicolon is lost: here
the call of `f`.  Behind an expression it is an error if the next thing inside of tags is the end of a block. -/
theorem C67_violated_tag :
    counts c!"<?php foreach ($a as $b): ?> x <?php endforeach; ?> y <?php f(); g();" = some (4, 0) ∧
    counts c!"<?php foreach ($a as $b): ?> x <?php endforeach ?> y <?php f(); g();" = some (3, 2) ∧
    counts c!"<?php if ($a): ?> x <?php endif ?> y <?php f(); g();" = some (4, 0) ∧
    counts c!"<?php if ($a): ?> x <?php else: ?> z <?php endif ?> y <?php f(); g();" = some (3, 2) ∧
    counts c!"<?php echo 1 ?>" = some (2, 0) ∧ counts c!"<?php return 1 ?>" = some (1, 1) ∧
    counts c!"<?php if ($a) { f(); ?> x <?php } g();" = some (2, 0) ∧
    counts c!"<?php if ($a) { f() ?> x <?php } g();" = some (1, 2) := by
  decide +kernel

/-- **C67 violated**: a text that is not a program, and no error is reported. -/
theorem C67_violated_accepted : counts c!"<?php else;" = some (1, 0) := by decide +kernel

/-- **C67 violated**: the semicolon behind some statements is a statement of its own, behind others it is not. -/
theorem C67_violated_semicolon :
    counts c!"<?php die();" = some (2, 0) ∧ counts c!"<?php exit();" = some (1, 0) ∧
    counts c!"<?php if ($a): f(); endif;" = some (2, 0) ∧ counts c!"<?php while ($a): f(); endwhile;" = some (1, 0) := by
  decide +kernel

/-- **C67 violated**: the comment of a declaration behind an `if` is lost. -/
theorem C67_violated_comment :
    documented c!"<?php f(); /** d */ function g() {}" = [true] ∧
    documented c!"<?php if ($a) { f(); } /** d */ function g() {}" = [false] := by
  decide +kernel

/-- What the server gets for the sample. -/
example : ∃ n ns r, Backend.sourceToAst plainHost sample = .ok (some (n :: ns, r, [])) ∧ ns.length = 1 := by
  obtain ⟨n, ns, h, hl⟩ := sample_program
  have hok : (match Backend.sourceToAst plainHost sample with | .ok _ => true | _ => false) = true := by decide +kernel
  split at hok
  · rename_i r hr
    unfold sampleTokens at h
    split at h
    · rename_i s hs
      exact ⟨n, ns, _, hr.trans (congrArg _ (C67_server (h := plainHost) hs h hr)), hl⟩
    · nomatch h
  · nomatch hok

end PhpLs.Syntax
