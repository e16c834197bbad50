import Verif.FlawSem2
import Verif.Props.Programs

/-!
# C70: a missing semicolon

The programs with missing semicolons, their trees and their errors are in `Verif/FlawSpec.lean`.
-/

namespace PhpLs.Syntax

open PhpLs PhpLs.Parser

variable {doc : Token → Option Node} {ts us rest : List Token} {n : Node} {ns : List Node} {o o' : Tail} {tag eof k : Token}
  {a : After} {es : List Err}

/-! ## The loop over the statements -/

theorem astBody_stepE {acc : List Node} (h : TopE doc a ts n es) (hf : a.Holds rest) :
    RdE doc [] (fun r => astBody r acc) ts rest (.inl (acc ++ [n])) es := by
  obtain ⟨cs, us, rfl, hc, hn, hr⟩ := h
  refine RdE.first_peek hc hn.append fun k hk _ => ?_
  have e : (fun r : Rec => (if k.t = .eof then pure (.inr acc) else
      statementInto r acc >>= fun stmts => pure (.inl stmts) : P (List Node ⊕ List Node))) =
      fun r => statementInto r acc >>= fun stmts => pure (.inl stmts) := funext fun r => if_neg hk.noEof
  show RdE doc cs (fun r : Rec => (if k.t = .eof then pure (.inr acc) else
      statementInto r acc >>= fun stmts => pure (.inl stmts) : P (List Node ⊕ List Node))) us rest _ _
  rw [e]
  exact RdE.bind_last (statementInto_readsE (hr rest hf)) Rd.pure

theorem first_statementE {t : TT} {s : PSt} (ht : Tok t tag) (hst : t ∈ [TT.scriptStartRegular, .scriptStartShort])
    (h : TopE doc a ts n es) (hf : a.Holds rest) (hd : s.docs = []) (hc : s.ctx = .out) (hs : s.toks = tag :: (ts ++ rest)) :
    ∃ s' : PSt, Settled rest s'.toks ∧ s'.docs = [] ∧ s'.ctx = .script ∧ s'.errors = s.errors ++ es ∧
      ∃ n0, ∀ m, n0 ≤ m → (knot doc m).statement s = .ok n s' := by
  obtain ⟨cs, us, rfl, hl, hn, hr⟩ := h
  obtain ⟨k, r, rfl, hk, -⟩ := hn
  obtain ⟨s1, h1, h2, h3⟩ := takeFront_plain (a := some (tag, true)) ht.1 hs
  have htake : takeOr (fun k => k.t == .scriptStartRegular || k.t == .scriptStartShort) s = .ok (some (tag, true)) s1 := by
    refine (takeOr_yes (peekOn_plain ht.1 hs) ?_).trans h3
    show (tag.t == .scriptStartRegular || tag.t == .scriptStartShort) = true
    rw [ht.2]
    simpa using hst
  have hpk := peek_lead (s := { s1 with ctx := .script }) (r := r ++ rest) hl hk (h2.docs.trans hd) (by rw [h1]; simp)
  obtain ⟨s2, a1, a2, a3, a4, n0, a5⟩ := hr rest hf { s1 with ctx := .script, docs := cs, toks := k :: (r ++ rest) } rfl rfl (.inl rfl)
  refine ⟨s2, a1, a2, a3, a4.trans (congrArg (· ++ es) h2.errors), n0 + 1, fun m hm => ?_⟩
  cases m with
  | zero => omega
  | succ m =>
    show statementF (knot doc m) s = _
    unfold statementF
    refine (bind_ok (a := Ctx.out) (s' := s) (by unfold getCtx; rw [hc])).trans ?_
    refine (bind_ok htake).trans ?_
    show (setCtx .script >>= fun _ => _) s1 = _
    refine (bind_ok (p := setCtx .script) (a := ()) (s' := { s1 with ctx := .script }) rfl).trans ?_
    refine (bind_ok (a := some k) (s' := { s1 with ctx := .script, docs := cs, toks := k :: (r ++ rest) }) ?_).trans
      (a5 m (by omega))
    exact (peek_run _).trans (by rw [hpk])

theorem flawed_ast (h : Flawed doc ts ns es) :
    ∃ n0, ∀ m, n0 ≤ m → ∃ s, astLoop (knot doc m) (new ts) = .ok ns s ∧ s.errors = es := by
  cases h with
  | @mk tag t eof ts _ o n ns ht hst h ho he =>
  have he : AtEnd [eof] := .inr ⟨eof, rfl, he⟩
  have hseq : SeqE doc (.tail o) ts (n :: ns) es := h.sem
  generalize hao : After.tail o = ao at hseq
  cases hseq with
  | @cons o1 o2 ts us _ _ es1 es2 h1 h2 hf =>
    have hlast : (lastAfter ns o1 o2).Holds [eof] := by
      rw [← hao]
      cases o with
      | done => trivial
      | loose => exact .inr he
      | semi => rcases ho with h | h <;> cases h
      | tag => rcases ho with h | h <;> cases h
    have hfol : o1.Holds (us ++ [eof]) ∧ o2.Holds [eof] := by
      cases ns with
      | nil =>
        obtain ⟨rfl, rfl, -⟩ := h2.empty
        exact ⟨hlast, trivial⟩
      | cons m ns =>
        have h3 := h2.first (fun e => nomatch e)
        refine ⟨?_, hlast⟩
        rcases hf with rfl | hf
        · rcases h3 with ⟨k, r, e, -⟩ | ⟨c, r, e, -⟩ <;> cases e
        · exact hf.append h3
    have hnew : (new (tag :: (ts ++ us ++ [eof]))).toks = tag :: (ts ++ (us ++ [eof])) := by
      rw [List.append_assoc]; rfl
    obtain ⟨s1, a1, a2, a3, a4, n1, a5⟩ := first_statementE ht hst h1 hfol.1 rfl rfl hnew
    have hloop := SeqE.loop (site := .ast) (body := astBody) h2 (fun acc o ts n es rest h hf => astBody_stepE h hf)
      (fun acc => astBody_stop he) hfol.2 [n]
    obtain ⟨s2, b1, b2, b3, b4, n2, b5⟩ := hloop s1 a2 a3 a1
    refine ⟨max n1 n2 + 1, fun m hm => ⟨s2, ?_, by rw [b4, a4]; rfl⟩⟩
    obtain ⟨m, rfl⟩ : ∃ m', m = m' + 1 := ⟨m - 1, by omega⟩
    show loopP .ast (m + 1) (astBody (knot doc (m + 1))) [] (new (tag :: (ts ++ us ++ [eof]))) = _
    unfold loopP
    refine (bind_ok (a := .inl [n]) (s' := s1) ?_).trans (b5 (m + 1) m (by omega) (by omega))
    unfold astBody
    refine (bind_ok (a := some tag) (s' := new (tag :: (ts ++ us ++ [eof])))
      ((peek_run _).trans (by rw [peekOn_plain ht.1 rfl]))).trans ?_
    refine (congrFun (if_neg ht.1.noEof) _).trans ?_
    exact (bind_ok (statementInto_ok a2 (a5 (m + 1) (by omega)))).trans rfl

/-! ## The theorems -/

/-- **C70**: a program in which semicolons are missing is parsed, its tree is the one of the program with the semicolons except
for what the search for the next one skips, and there is exactly one error for every semicolon that is missed, in the order of
the text and at the token that stands in its place. -/
theorem C70_program {U : Unicode} (h : Flawed (DocBlock.docNode U) ts ns es) :
    ∃ n0, ∀ m, n0 ≤ m → ∃ s, ast U m ts = .ok ns s ∧ s.errors = es := by
  obtain ⟨n0, hn⟩ := flawed_ast h
  refine ⟨n0, fun m hm => ?_⟩
  have : ts.isEmpty = false := by cases h; rfl
  unfold ast
  rw [this]
  exact hn m hm

/-- The same for every amount of fuel. -/
theorem C70_fuel {U : Unicode} {m : Nat} (h : Flawed (DocBlock.docNode U) ts ns es)
    (hd : ∀ site, ast U m ts ≠ .diverge site) : ∃ s, ast U m ts = .ok ns s ∧ s.errors = es := by
  obtain ⟨n0, hn⟩ := C70_program h
  obtain ⟨s, h1, h2⟩ := hn (max m n0) (by omega)
  rw [ast_fuel U m (max m n0) (by omega) ts hd] at h1
  exact ⟨s, h1, h2⟩

/-- The tokens determine the tree and the errors. -/
theorem C70_unambiguous {ns' : List Node} {es' : List Err} (h : Flawed doc ts ns es) (h' : Flawed doc ts ns' es') :
    ns = ns' ∧ es = es' := by
  obtain ⟨n0, hn⟩ := flawed_ast h
  obtain ⟨n1, hn'⟩ := flawed_ast h'
  obtain ⟨s, h1, h2⟩ := hn (max n0 n1) (by omega)
  obtain ⟨s', h1', h2'⟩ := hn' (max n0 n1) (by omega)
  rw [h1] at h1'
  injection h1' with e1 e2
  subst e2
  exact ⟨e1, h2.symm.trans h2'⟩

/-- No text is both well-formed and a program with an error. -/
theorem C70_exclusive {ns' : List Node} (h : Flawed doc ts ns es) (h' : Program doc ts ns') : es = [] := by
  obtain ⟨n0, hn⟩ := flawed_ast h
  obtain ⟨n1, hn'⟩ := program_ast h'
  obtain ⟨s, h1, h2⟩ := hn (max n0 n1) (by omega)
  obtain ⟨s', h1', h2'⟩ := hn' (max n0 n1) (by omega)
  rw [h1] at h1'
  injection h1' with e1 e2
  subst e2
  exact h2.symm.trans h2'

/-- **C70**, for texts: line breaks and line comments may stand anywhere. -/
theorem C70_text {U : Unicode} {t : Text} {s : Scanner.St} (hs : Scanner.scan U t = .ok s)
    (h : Flawed (DocBlock.docNode U) (strip s.tokens) ns es) :
    ∃ n0, ∀ m, n0 ≤ m → ∃ p, ast U m s.tokens = .ok ns p ∧ p.errors = es := by
  obtain ⟨a, e, he, het⟩ : ∃ a e, s.tokens = a ++ [e] ∧ isTrivia e = false := by
    rcases scan_last hs with hn | he
    · rw [hn] at h
      generalize hts : strip [] = ts at h
      cases h
      cases hts
    · exact he
  obtain ⟨n0, hn⟩ := C70_program h
  refine ⟨n0, fun m hm => ?_⟩
  obtain ⟨p, h1, h2⟩ := hn m hm
  have hse : strip (a ++ [e]) = strip a ++ [e] := by
    unfold strip
    rw [List.filter_append]
    simp only [isTrivia, Bool.or_eq_false_iff, beq_eq_false_iff_ne] at het
    simp [het]
  have hss : strip (strip a ++ [e]) = strip (a ++ [e]) := by
    rw [← hse]
    unfold strip
    rw [List.filter_filter]
    simp
  rw [he, hse] at h1
  have hok : TriviaOk (strip a ++ [e]) := by
    intro k hk ht
    rw [← hse] at hk
    have := (List.mem_filter.1 hk).2
    unfold isTrivia at ht
    rw [ht] at this
    cases this
  have hok' := triviaOk_of_scan U t s hs
  rw [he] at hok'
  obtain ⟨p', h3, h4⟩ := C16_trivia_transparent U m _ _ e hss hok hok' ns p h1
  exact ⟨p', by rw [he]; exact h3, h4.trans h2⟩

/-- **C70**, for the server: the tree and the errors of the file. -/
theorem C70_server {h : Host} {t : Text} {s : Scanner.St} {r : Option (List Node × LspRange × List Parser.Err)}
    (hs : Scanner.scan h.U t = .ok s) (hp : Flawed (DocBlock.docNode h.U) (strip s.tokens) ns es)
    (hr : Backend.sourceToAst h t = .ok r) : r = some (ns, getRange ⟨0, 0, s.col, s.line⟩, es) := by
  obtain ⟨n0, hn⟩ := C70_text hs hp
  obtain ⟨p, h1, h2⟩ := hn (max h.fuel n0) (by omega)
  unfold Backend.sourceToAst at hr
  rw [hs] at hr
  have hd : ∀ site, ast h.U h.fuel s.tokens ≠ .diverge site := by
    intro site hx
    simp only [hx] at hr
    cases hr
  rw [ast_fuel h.U h.fuel (max h.fuel n0) (by omega) s.tokens hd] at h1
  simp only [h1, h2] at hr
  cases hr
  rfl

/-- An error for a missing semicolon, at a token that is none. -/
def AtToken (e : Err) : Prop :=
  ∃ x : Token, Plain x ∧ x.t ≠ .semicolon ∧ (e = .wrongToken [.semicolon] x ∨ e = .wrongToken [.semicolon, .scriptEnd] x)

theorem Lost.error {x e : Token} (h : Lost x us e) : ∀ er ∈ [missing x], AtToken er := by
  intro er her
  rw [List.mem_singleton.1 her]
  exact ⟨x, h.first, h.no, .inl rfl⟩

theorem Halt.error {x y : Token} (h : Halt x us y) : ∀ er ∈ [missingEnd x], AtToken er := by
  intro er her
  rw [List.mem_singleton.1 her]
  refine ⟨x, ?_, h.no.1, .inr rfl⟩
  obtain ⟨r, hr⟩ := h.first
  cases us with
  | nil => cases hr; exact h.plain
  | cons u us => cases hr; exact (h.skip _ (List.mem_cons_self ..)).1

theorem all_append {α : Type} {q : α → Prop} {l m : List α} (h1 : ∀ x ∈ l, q x) (h2 : ∀ x ∈ m, q x) : ∀ x ∈ l ++ m, q x :=
  fun x hx => (List.mem_append.1 hx).elim (h1 x) (h2 x)

theorem Has.errors {i : Part} (h : Has doc i ts es) : ∀ er ∈ es, AtToken er := by
  induction h with
  | expr _ _ hl | ret _ _ hl | throw _ _ hl | jump _ _ _ hl | goto _ _ hl | «namespace» _ _ hl => exact hl.error
  | echo _ _ hl | print _ _ hl => exact hl.error
  | use _ hl | useTraits _ _ hl | constMember _ _ _ _ hl | property _ _ _ _ _ _ hl => exact hl.error
  | doWhile _ _ _ _ _ _ _ hl ih => exact all_append ih hl.error
  | stmts _ _ _ ih ih' | entries _ _ ih ih' => exact all_append ih ih'
  | ifElse _ _ _ _ _ _ _ _ ih ihm ih' => exact all_append ih (all_append ihm ih')
  | «if» _ _ _ _ _ _ _ ih ih' | elif _ _ _ _ _ _ _ ih ih' => exact all_append ih ih'
  | altIf _ _ _ _ _ _ _ _ _ ih ih' => exact all_append ih ih'
  | altIfElse _ _ _ _ _ _ _ _ _ _ _ _ _ _ ih ihm ih' => exact all_append ih (all_append ihm ih')
  | alt _ _ _ _ _ _ _ _ ih ih' => exact all_append ih ih'
  | branch _ _ _ _ _ _ ih ih' => exact all_append ih ih'
  | tryFinally _ _ _ _ _ ih ih' => exact all_append ih ih'
  | okStmt | okTop | okBlock | okBody | okFunc | okDecl | okMember | okEntry | okClassBody | unset | die0 | die | define | declare
  | statics | noBranch | noElif | noAlt | noStmts | noEntries => exact fun _ h => nomatch h
  | _ => assumption

/-- **C70**: the server turns the errors into diagnostics without a crash, one for each, in their order, and each says what is
missing at the range of the token that stands in its place. -/
theorem C70_diagnostics (h : Flawed doc ts ns es) :
    ∃ ds, Backend.diagnosticsOf es = some ds ∧ ds.length = es.length ∧
      ∀ (i : Nat) (e : Err), es[i]? = some e → ∃ (x : Token) (rg : NodeRange) (ex : List TT), e = .wrongToken ex x ∧ x.range = some rg ∧ TT.semicolon ∈ ex ∧
        ds[i]? = some ⟨getRange rg, .wrongToken x.t ex, none⟩ := by
  have he : ∀ er ∈ es, AtToken er := by
    cases h with
    | mk _ _ h => exact h.errors
  clear h
  induction es with
  | nil => exact ⟨[], rfl, rfl, fun i e h => by simp at h⟩
  | cons er es ih =>
    obtain ⟨ds, h1, h2, h3⟩ := ih fun e h => he e (List.mem_cons_of_mem _ h)
    obtain ⟨x, hx, -, hor⟩ := he er (List.mem_cons_self ..)
    obtain ⟨rg, hr⟩ := hx.range
    obtain ⟨ex, rfl, hex⟩ : ∃ ex, er = .wrongToken ex x ∧ TT.semicolon ∈ ex := by
      rcases hor with h | h
      · exact ⟨_, h, by simp⟩
      · exact ⟨_, h, by simp⟩
    have hd : Diagnostic.ofError (.wrongToken ex x) = some ⟨getRange rg, .wrongToken x.t ex, none⟩ := by
      show (x.range >>= fun r => pure _) = _
      rw [hr]
      rfl
    refine ⟨⟨getRange rg, .wrongToken x.t ex, none⟩ :: ds, ?_, by simp [h2], ?_⟩
    · unfold Backend.diagnosticsOf at h1 ⊢
      rw [List.mapM_cons, hd, h1]
      rfl
    · intro i e hi
      cases i with
      | zero =>
        cases hi
        exact ⟨x, rg, ex, rfl, hr, hex, rfl⟩
      | succ i => exact h3 i e (by simpa using hi)

/-! ## A concrete program -/

/-- Three semicolons are missing and reported, behind `return 1`, `$a = 1` and `echo 3`; one is missing and not reported, behind
`unset($c)`. -/
def flawedText : Text :=
  c!"<?php function f() { return 1 } function g() { return 2; }\n$a = 1 // here\n $b = 2; if ($c) { echo 3 } unset($c) k();"

/-- Its tokens, without line breaks and line comments. -/
def flawedTokens : List Token :=
  match Scanner.scan Unicode.ascii flawedText with
  | .ok s => strip s.tokens
  | _ => []

/-- The types of these tokens. -/
def flawedTypes : List TT :=
  [.scriptStartRegular, .kwFunction, .identifier, .openParenthesis, .closeParenthesis, .openCurly, .kwReturn, .longNumber,
   .closeCurly, .kwFunction, .identifier, .openParenthesis, .closeParenthesis, .openCurly, .kwReturn, .longNumber, .semicolon,
   .closeCurly, .variable, .assignment, .longNumber, .variable, .assignment, .longNumber, .semicolon, .kwIf, .openParenthesis,
   .variable, .closeParenthesis, .openCurly, .kwEcho, .longNumber, .closeCurly, .kwUnset, .openParenthesis, .variable,
   .closeParenthesis, .identifier, .openParenthesis, .closeParenthesis, .semicolon, .eof]

theorem flawed_types : flawedTokens.map (·.t) = flawedTypes := by decide +kernel

theorem flawed_plain : flawedTokens.all (fun k => k.t == .eof || (solid k && k.range.isSome)) = true := by decide +kernel

theorem flawed_labels : flawedTokens.all (fun k => k.t != .variable || k.label.isSome) = true := by decide +kernel

/-- The tree and the errors of such tokens. -/
theorem flawed_abstract {k : Nat → Token}
    (ht : ∀ i, i < 41 → Tok (flawedTypes.getD i .eof) (k i))
    (hv : ∀ i, i < 41 → flawedTypes.getD i .eof = .variable → (k i).label.isSome = true) (he : (k 41).t = .eof) :
    ∃ n ns, Flawed doc ((List.range 42).map k) (n :: ns) [missing (k 8), missing (k 21), missingEnd (k 32)] ∧ ns.length = 4 := by
  have tk : ∀ i, (h : i < 41 := by decide) → Tok (flawedTypes.getD i .eof) (k i) := fun i h => ht i h
  have word : ∀ i, (h : i < 41 ∧ (flawedTypes.getD i .eof).isIdentifier = true := by decide) → Word (k i) := by
    intro i h
    have := tk i h.1
    refine ⟨this.1, ?_⟩
    show (k i).t.isIdentifier = true
    rw [this.2]
    exact h.2
  have var : ∀ i, (h : i < 41 ∧ flawedTypes.getD i .eof = .variable := by decide) →
      Is doc (.expr (.variable (k i)) [] []) [k i] := by
    intro i h
    have := tk i h.1
    rw [h.2] at this
    exact .call (.prim (.var ⟨this, hv i h.1 h.2⟩))
  have lit : ∀ i, (h : i < 41 ∧ flawedTypes.getD i .eof ∈ literalSet := by decide) →
      Is doc (.expr (.literal (k i)) [] []) [k i] := by
    intro i h
    have := tk i h.1
    exact .call (.prim (.lit this.1 (by rw [this.2]; exact h.2)))
  have skip : ∀ l : List Nat, (∀ i ∈ l, i < 41 ∧ flawedTypes.getD i .eof ≠ .semicolon) → Skipped [.semicolon] (l.map k) := by
    intro l hl u hu
    obtain ⟨i, hi, rfl⟩ := List.mem_map.1 hu
    have := tk i (hl i hi).1
    exact ⟨this.1, by rw [this.2]; simpa using (hl i hi).2⟩
  -- `function f() { return 1 .. }`
  have l1 : Lost (k 8) ([9, 10, 11, 12, 13, 14, 15].map k) (k 16) :=
    ⟨(tk 8).1, by rw [(tk 8).2]; decide, skip _ (by decide), tk 16⟩
  have r1 := Has.ret (tk 6) (.expr (lit 7)) l1 (by rw [(tk 8).2]; decide)
  have b1 := Has.block (tk 5) (.stmts (.top r1) .noStmts (.inl rfl)) (by simp [lastAfter, After.Closed, Tail.Free]) (tk 17)
  have f1 := Has.func (d := none) (tk 3) .noParams (tk 4) .none b1
  have d1 := Has.function (ats := []) (tk 1) .none (word 2) f1
  have s1 := Has.top (Has.declared .noAttrs d1)
  -- `$a = 1 ..`
  have l2 : Lost (k 21) ([22, 23].map k) (k 24) :=
    ⟨(tk 21).1, by rw [(tk 21).2]; decide, skip _ (by decide), tk 24⟩
  have a2 := Is.bin (var 18) (tk 19).1 (by rw [(tk 19).2]; decide) (by rw [(tk 19).2]; decide) (lit 20) (fun o h => nomatch h)
    (fun t h => nomatch h)
  have s2 := Has.top (Has.expr (.expr a2) ((tk 18).next.mono fun t ht => by rw [eq_of_beq ht]; rfl) l2 (by rw [(tk 21).2]; decide)
    (by rw [(tk 21).2]; decide) (.inl (by simp)))
  -- `if ($c) { echo 3 }`
  have l3 : Halt (k 32) [] (k 32) :=
    ⟨⟨[], rfl⟩, by rw [(tk 32).2]; decide, by rw [(tk 32).2]; decide, fun _ h => (nomatch h), (tk 32).1, by rw [(tk 32).2]; decide⟩
  have e3 := Has.echo (tk 30) (.last (.expr (lit 31))) l3
  have b3 := Has.block (tk 29) (.stmts (.top e3) .noStmts (.inl rfl)) rfl (tk 32)
  have s3 := Has.top (Has.if (tk 25) (tk 26) (.expr (var 27)) (tk 28) (.blockStmt b3) .noElif (.inl rfl))
  -- `unset($c) k();`
  have s4 := Has.top (Has.unset (tk 33) (tk 34) (.last (.expr (var 35))) (tk 36))
  have name : Is doc (.prim _) [k 37] :=
    .name (.mk (ns := none) (path := []) (fun _ h => nomatch h) (word 37) (fun _ h => nomatch h))
      ((tk 37).next.mono fun t ht => by rw [eq_of_beq ht]; rfl)
  have call := Is.apply (.prim name) (tk 38) .nil (tk 39)
  have s5 := Has.okTop (.top (Is.exprStmt (.expr (.call call)) ((tk 37).next.mono fun t ht => by rw [eq_of_beq ht]; rfl) (tk 40)))
  have all := Has.stmts s1 (.stmts s2 (.stmts s3 (.stmts s4 (.stmts s5 .noStmts (.inl rfl)) (.inr trivial))
    (.inr (.inl ⟨k 33, _, rfl, (tk 33).1, by rw [(tk 33).2]; decide⟩))) (.inr trivial)) (.inr trivial)
  exact ⟨_, _, .mk (tk 0) (by decide) all (.inl rfl) he, rfl⟩

theorem flawed_of {l : List Token} (h1 : l.map (·.t) = flawedTypes)
    (h2 : l.all (fun k => k.t == .eof || (solid k && k.range.isSome)) = true)
    (h3 : l.all (fun k => k.t != .variable || k.label.isSome) = true) :
    ∃ n ns, Flawed doc l (n :: ns) [missing (l.getD 8 (Token.new .eof 0 0 0)), missing (l.getD 21 (Token.new .eof 0 0 0)),
      missingEnd (l.getD 32 (Token.new .eof 0 0 0))] ∧ ns.length = 4 := by
  have hlen : l.length = 42 := by
    have := congrArg List.length h1
    rwa [List.length_map] at this
  let k : Nat → Token := fun i => l.getD i (Token.new .eof 0 0 0)
  have hk : ∀ i, i < 42 → (k i).t = flawedTypes.getD i .eof ∧ k i ∈ l := by
    intro i hi
    have e : k i = l[i]'(by omega) := by
      show l.getD i _ = _
      rw [List.getD_eq_getElem?_getD, List.getElem?_eq_getElem (by omega)]
      rfl
    refine ⟨?_, by rw [e]; exact List.getElem_mem _⟩
    rw [e, ← h1, List.getD_eq_getElem?_getD, List.getElem?_map, List.getElem?_eq_getElem (by omega)]
    rfl
  have hs : l = (List.range 42).map k := by
    apply List.ext_getElem
    · rw [List.length_map, List.length_range, hlen]
    · intro i h1 h2
      rw [List.getElem_map, List.getElem_range]
      show _ = l.getD i _
      rw [List.getD_eq_getElem?_getD, List.getElem?_eq_getElem h1]
      rfl
  have key : ∃ n ns, Flawed doc ((List.range 42).map k) (n :: ns) [missing (k 8), missing (k 21), missingEnd (k 32)] ∧
      ns.length = 4 := by
    refine flawed_abstract ?_ ?_ (hk 41 (by decide)).1
    · intro i hi
      obtain ⟨a, b⟩ := hk i (by omega)
      have hne : flawedTypes.getD i .eof ≠ .eof := by
        clear a b
        revert i
        decide
      have hp := List.all_eq_true.1 h2 _ b
      simp only [Bool.or_eq_true, Bool.and_eq_true, beq_iff_eq, a] at hp
      rcases hp with hp | hp
      · exact absurd hp hne
      · exact ⟨⟨hp.1, by rw [a]; exact hne, Option.isSome_iff_exists.1 hp.2⟩, a⟩
    · intro i hi h
      obtain ⟨a, b⟩ := hk i (by omega)
      have hp := List.all_eq_true.1 h3 _ b
      rw [a, h] at hp
      exact hp
  rw [← hs] at key
  exact key

/-- The text is such a program: five statements are left, and three errors are reported. -/
theorem flawed_program : ∃ n ns es, Flawed (DocBlock.docNode Unicode.ascii) flawedTokens (n :: ns) es ∧ ns.length = 4 ∧
    es.length = 3 := by
  obtain ⟨n, ns, h, hl⟩ := flawed_of (doc := DocBlock.docNode Unicode.ascii) flawed_types flawed_plain flawed_labels
  exact ⟨n, ns, _, h, hl, rfl⟩

example : ∃ n0, ∀ m, n0 ≤ m → ∃ n ns s, ast Unicode.ascii m flawedTokens = .ok (n :: ns) s ∧ s.errors.length = 3 ∧
    ns.length = 4 := by
  obtain ⟨n, ns, es, h, hl, he⟩ := flawed_program
  obtain ⟨n0, hn⟩ := C70_program h
  exact ⟨n0, fun m hm => by obtain ⟨s, h1, h2⟩ := hn m hm; exact ⟨n, ns, s, h1, by rw [h2]; exact he, hl⟩⟩

/-! ## A class with members without semicolons -/

/-- Three semicolons are missing and reported, behind `use T`, `public $p = 1` and `const X = 1`; one is missing and not reported,
behind `static $s = 1`. -/
def flawedClassText : Text :=
  c!"<?php class A { use T use U; public $p = 1 var $q; const X = 1 const Y = 2; function m() { static $s = 1 return 2; } }"

/-- Its tokens, without line breaks and line comments. -/
def flawedClassTokens : List Token :=
  match Scanner.scan Unicode.ascii flawedClassText with
  | .ok s => strip s.tokens
  | _ => []

/-- The types of these tokens. -/
def flawedClassTypes : List TT :=
  [.scriptStartRegular, .kwClass, .identifier, .openCurly, .kwUse, .identifier, .kwUse, .identifier, .semicolon,
   .kwPublic, .variable, .assignment, .longNumber, .kwVar, .variable, .semicolon,
   .kwConst, .identifier, .assignment, .longNumber, .kwConst, .identifier, .assignment, .longNumber, .semicolon,
   .kwFunction, .identifier, .openParenthesis, .closeParenthesis, .openCurly, .kwStatic, .variable, .assignment, .longNumber,
   .kwReturn, .longNumber, .semicolon, .closeCurly, .closeCurly, .eof]

theorem flawedClass_types : flawedClassTokens.map (·.t) = flawedClassTypes := by decide +kernel

theorem flawedClass_plain : flawedClassTokens.all (fun k => k.t == .eof || (solid k && k.range.isSome)) = true := by
  decide +kernel

theorem flawedClass_labels : flawedClassTokens.all (fun k => k.t != .variable || k.label.isSome) = true := by decide +kernel

/-- A list of tokens as a function of their number. -/
theorem tokens_of {l : List Token} {tys : List TT} {m : Nat} (h1 : l.map (·.t) = tys) (hm : tys.length = m + 1)
    (he : ∀ i, i < m → tys.getD i .eof ≠ .eof) (h0 : tys.getD m .eof = .eof)
    (h2 : l.all (fun k => k.t == .eof || (solid k && k.range.isSome)) = true)
    (h3 : l.all (fun k => k.t != .variable || k.label.isSome) = true) :
    ∃ k : Nat → Token, l = (List.range (m + 1)).map k ∧ (∀ i, i < m → Tok (tys.getD i .eof) (k i)) ∧
      (∀ i, i < m → tys.getD i .eof = .variable → (k i).label.isSome = true) ∧ (k m).t = .eof := by
  have hlen : l.length = m + 1 := by rw [← hm, ← h1, List.length_map]
  let k : Nat → Token := fun i => l.getD i (Token.new .eof 0 0 0)
  have hk : ∀ i, i < m + 1 → (k i).t = tys.getD i .eof ∧ k i ∈ l := by
    intro i hi
    have e : k i = l[i]'(by omega) := by
      show l.getD i _ = _
      rw [List.getD_eq_getElem?_getD, List.getElem?_eq_getElem (by omega)]
      rfl
    refine ⟨?_, by rw [e]; exact List.getElem_mem _⟩
    rw [e, ← h1, List.getD_eq_getElem?_getD, List.getElem?_map, List.getElem?_eq_getElem (by omega)]
    rfl
  refine ⟨k, ?_, ?_, ?_, ?_⟩
  · apply List.ext_getElem
    · rw [List.length_map, List.length_range, hlen]
    · intro i h1 h2
      rw [List.getElem_map, List.getElem_range]
      show _ = l.getD i _
      rw [List.getD_eq_getElem?_getD, List.getElem?_eq_getElem h1]
      rfl
  · intro i hi
    obtain ⟨a, b⟩ := hk i (by omega)
    have hp := List.all_eq_true.1 h2 _ b
    simp only [Bool.or_eq_true, Bool.and_eq_true, beq_iff_eq, a] at hp
    rcases hp with hp | hp
    · exact absurd hp (he i hi)
    · exact ⟨⟨hp.1, by rw [a]; exact he i hi, Option.isSome_iff_exists.1 hp.2⟩, a⟩
  · intro i hi h
    obtain ⟨a, b⟩ := hk i (by omega)
    have hp := List.all_eq_true.1 h3 _ b
    rw [a, h] at hp
    exact hp
  · rw [(hk m (by omega)).1]
    exact h0

/-- The text is such a program: the class is left, and three errors are reported. -/
theorem flawedClass_program : ∃ n es, Flawed (DocBlock.docNode Unicode.ascii) flawedClassTokens [n] es ∧ es.length = 3 := by
  obtain ⟨k, hs, tk, hv, he⟩ := tokens_of (m := 39) flawedClass_types (by decide) (by decide) (by decide) flawedClass_plain
    flawedClass_labels
  rw [hs]
  clear hs
  generalize DocBlock.docNode Unicode.ascii = doc
  have tk : ∀ i, (h : i < 39 := by decide) → Tok (flawedClassTypes.getD i .eof) (k i) := fun i h => tk i h
  have word : ∀ i, (h : i < 39 ∧ (flawedClassTypes.getD i .eof).isIdentifier = true := by decide) → Word (k i) := by
    intro i h
    have := tk i h.1
    refine ⟨this.1, ?_⟩
    show (k i).t.isIdentifier = true
    rw [this.2]
    exact h.2
  have lit : ∀ i, (h : i < 39 ∧ flawedClassTypes.getD i .eof ∈ literalSet := by decide) →
      Is doc (.expr (.literal (k i)) [] []) [k i] := by
    intro i h
    have := tk i h.1
    exact .call (.prim (.lit this.1 (by rw [this.2]; exact h.2)))
  have skip : ∀ l : List Nat, (∀ i ∈ l, i < 39 ∧ flawedClassTypes.getD i .eof ≠ .semicolon) →
      Skipped [.semicolon] (l.map k) := by
    intro l hl u hu
    obtain ⟨i, hi, rfl⟩ := List.mem_map.1 hu
    have := tk i (hl i hi).1
    exact ⟨this.1, by rw [this.2]; simpa using (hl i hi).2⟩
  have mods : ∀ i, (h : i < 39 ∧ flawedClassTypes.getD i .eof ∈ modifierSet := by decide) → AllMods [k i] := by
    intro i h x hx
    rw [List.mem_singleton.1 hx]
    have := tk i h.1
    exact ⟨this.1, by rw [this.2]; exact h.2⟩
  -- `use T ..`
  have l1 : Lost (k 6) ([7].map k) (k 8) := ⟨(tk 6).1, by rw [(tk 6).2]; decide, skip _ (by decide), tk 8⟩
  have e1 := Has.useTraits (doc := doc) (tk 4)
    (.one (.mk (ns := none) (path := []) (fun _ h => nomatch h) (word 5) (fun _ h => nomatch h))) l1
    (by rw [(tk 6).2]; decide)
  -- `public $p = 1 ..`
  have l2 : Lost (k 13) ([14].map k) (k 15) := ⟨(tk 13).1, by rw [(tk 13).2]; decide, skip _ (by decide), tk 15⟩
  have e2 := Has.memberEntry .noAttrs (Has.property (doc := doc) (d := none) (ats := []) (mods 9) (by simp) (List.pairwise_singleton _ _) .none
    ((tk 10).next.mono fun t ht => by rw [eq_of_beq ht]; decide) (.last (.propInit (tk 10) (tk 11) (.expr (lit 12)))) l2
    (by rw [(tk 13).2]; decide) (by rw [(tk 13).2]; decide))
  -- `const X = 1 ..`
  have l3 : Lost (k 20) ([21, 22, 23].map k) (k 24) := ⟨(tk 20).1, by rw [(tk 20).2]; decide, skip _ (by decide), tk 24⟩
  have e3 := Has.memberEntry .noAttrs (Has.constMember (doc := doc) (d := none) (ats := []) (ms := []) (fun _ h => nomatch h) .nil
    (tk 16) (.last (.classConst (word 17) (tk 18) (.expr (lit 19)))) l3 (by rw [(tk 20).2]; decide) (by rw [(tk 20).2]; decide))
  -- `function m() { static $s = 1 return 2; }`
  have s4 := Has.top (Has.statics (doc := doc) (tk 30) (.last (.staticVar (tk 31) (tk 32) (.expr (lit 33)))) (tk 34).1
    (by rw [(tk 34).2]; decide) (by rw [(tk 34).2]; decide))
  have s5 := Has.okTop (.top (Is.ret (tk 34) (.expr (lit 35)) (tk 36)))
  have b4 := Has.block (tk 29) (.stmts s4 (.stmts s5 .noStmts (.inl rfl)) (.inr ⟨_, rfl⟩))
    (by simp [lastAfter, After.Closed, Tail.Free]) (tk 37)
  have f4 := Has.func (d := none) (tk 27) .noParams (tk 28) .none b4
  have e4 := Has.memberEntry .noAttrs (Has.method (ats := []) (ms := []) (fun _ h => nomatch h) .nil (tk 25) .none (word 26) f4)
  have body := Has.classBody (tk 3) (.entries e1 (.entries e2 (.entries e3 (.entries e4 .noEntries)))) (tk 38)
  have c := Has.class (d := none) (ats := []) (.inl ⟨.none, rfl⟩) (tk 1) (word 2) .none .none body
  have all := Has.stmts (Has.top (Has.declared .noAttrs c)) .noStmts (.inl rfl)
  exact ⟨_, _, .mk (tk 0) (by decide) all (.inl rfl) he, rfl⟩

/-! ## Branches and alternative forms around missing semicolons -/

/-- Four semicolons are missing and reported, behind the first `return` of the `switch`, of the `if`s and of the loop; one is
missing and not reported, behind `endif`. -/
def flawedBranchText : Text :=
  c!"<?php switch ($a) { case 1: return 1 default: return 2; } if ($b): return 2 return 3; elseif ($c): return 4; endif
    while ($d): return 5 return 6; endwhile; if ($e) return 7 return 8; elseif ($f) return 9;"

/-- Its tokens, without line breaks and line comments. -/
def flawedBranchTokens : List Token :=
  match Scanner.scan Unicode.ascii flawedBranchText with
  | .ok s => strip s.tokens
  | _ => []

/-- The types of these tokens. -/
def flawedBranchTypes : List TT :=
  [.scriptStartRegular, .kwSwitch, .openParenthesis, .variable, .closeParenthesis, .openCurly, .kwCase, .longNumber, .colon,
   .kwReturn, .longNumber, .kwDefault, .colon, .kwReturn, .longNumber, .semicolon, .closeCurly,
   .kwIf, .openParenthesis, .variable, .closeParenthesis, .colon, .kwReturn, .longNumber, .kwReturn, .longNumber, .semicolon,
   .elseIf, .openParenthesis, .variable, .closeParenthesis, .colon, .kwReturn, .longNumber, .semicolon, .endIf,
   .kwWhile, .openParenthesis, .variable, .closeParenthesis, .colon, .kwReturn, .longNumber, .kwReturn, .longNumber, .semicolon,
   .endWhile, .semicolon,
   .kwIf, .openParenthesis, .variable, .closeParenthesis, .kwReturn, .longNumber, .kwReturn, .longNumber, .semicolon,
   .elseIf, .openParenthesis, .variable, .closeParenthesis, .kwReturn, .longNumber, .semicolon, .eof]

theorem flawedBranch_types : flawedBranchTokens.map (·.t) = flawedBranchTypes := by decide +kernel

theorem flawedBranch_plain : flawedBranchTokens.all (fun k => k.t == .eof || (solid k && k.range.isSome)) = true := by
  decide +kernel

theorem flawedBranch_labels : flawedBranchTokens.all (fun k => k.t != .variable || k.label.isSome) = true := by decide +kernel

/-- The text is such a program: four statements are left, and four errors are reported. -/
theorem flawedBranch_program : ∃ n ns es, Flawed (DocBlock.docNode Unicode.ascii) flawedBranchTokens (n :: ns) es ∧
    ns.length = 3 ∧ es.length = 4 := by
  obtain ⟨k, hs, tk, hv, he⟩ := tokens_of (m := 64) flawedBranch_types (by decide) (by decide) (by decide) flawedBranch_plain
    flawedBranch_labels
  rw [hs]
  clear hs
  generalize DocBlock.docNode Unicode.ascii = doc
  have tk : ∀ i, (h : i < 64 := by decide) → Tok (flawedBranchTypes.getD i .eof) (k i) := fun i h => tk i h
  have var : ∀ i, (h : i < 64 ∧ flawedBranchTypes.getD i .eof = .variable := by decide) →
      Is doc (.one .expr (.variable (k i))) [k i] := by
    intro i h
    have := tk i h.1
    rw [h.2] at this
    exact .expr (.call (.prim (.var ⟨this, hv i h.1 h.2⟩)))
  have lit : ∀ i, (h : i < 64 ∧ flawedBranchTypes.getD i .eof ∈ literalSet := by decide) →
      Is doc (.one .expr (.literal (k i))) [k i] := by
    intro i h
    have := tk i h.1
    exact .expr (.call (.prim (.lit this.1 (by rw [this.2]; exact h.2))))
  have lost : ∀ i (l : List Nat) (j : Nat), (h : i < 64 ∧ flawedBranchTypes.getD i .eof ≠ .semicolon ∧
      (∀ i ∈ l, i < 64 ∧ flawedBranchTypes.getD i .eof ≠ .semicolon) ∧ j < 64 ∧ flawedBranchTypes.getD j .eof = .semicolon :=
        by decide) → Lost (k i) (l.map k) (k j) := by
    intro i l j h
    have hj := tk j h.2.2.2.1
    rw [h.2.2.2.2] at hj
    refine ⟨(tk i h.1).1, by rw [(tk i h.1).2]; exact h.2.1, fun u hu => ?_, hj⟩
    obtain ⟨i, hi, rfl⟩ := List.mem_map.1 hu
    have := tk i (h.2.2.1 i hi).1
    exact ⟨this.1, by rw [this.2]; simpa using (h.2.2.1 i hi).2⟩
  -- `switch ($a) { case 1: return 1 .. }`
  have r1 := Has.ret (tk 9) (lit 10) (lost 11 [12, 13, 14] 15) (by rw [(tk 11).2]; decide)
  have b1 := Has.branch (t := .closeCurly) (.label1 (tk 6) (lit 7) (.inl (tk 8))) (.stmts (.top r1) .noStmts (.inl rfl))
    (by decide) .noBranch (fun h => nomatch h) (.inr ⟨k 9, _, rfl, (tk 9).1, rfl⟩)
  have s1 := Has.top (Has.switch (tk 1) (tk 2) (var 3) (tk 4) (tk 5) b1 (tk 16))
  -- `if ($b): return 2 .. elseif ($c): return 4; endif`
  have r2 := Has.ret (tk 22) (lit 23) (lost 24 [25] 26) (by rw [(tk 24).2]; decide)
  have r3 := Is.ret (doc := doc) (tk 32) (lit 33) (tk 34)
  have a2 := Has.alt (tk 27).2 (tk 28) (var 29) (tk 30) (tk 31) (.stmts (.top (.okStmt r3)) .noStmts (.inl rfl))
    (.inl ⟨tk 35, by decide⟩) (.noAlt (by rw [(tk 35).2]; decide))
  have s2 := Has.top (Has.altIf (tk 17) (tk 18) (var 19) (tk 20) (tk 21) (.stmts (.top r2) .noStmts (.inl rfl))
    (.inr ⟨tk 27, by decide⟩) a2 (tk 35).2)
  -- `while ($d): return 5 .. endwhile;`
  have r4 := Has.ret (tk 41) (lit 42) (lost 43 [44] 45) (by rw [(tk 43).2]; decide)
  have s3 := Has.top (Has.while (tk 36) (tk 37) (var 38) (tk 39) (.altBody (tk 40) (.stmts (.top r4) .noStmts (.inl rfl))
    (by simp [lastAfter, After.Closed, Tail.Free]) (by decide) (tk 46) (tk 47)))
  -- `if ($e) return 7 .. elseif ($f) return 9;`
  have r5 := Has.ret (tk 52) (lit 53) (lost 54 [55] 56) (by rw [(tk 54).2]; decide)
  have r6 := Is.ret (doc := doc) (tk 61) (lit 62) (tk 63)
  have s4 := Has.top (Has.if (tk 48) (tk 49) (var 50) (tk 51) r5
    (.elif (tk 57) (tk 58) (var 59) (tk 60) (.okStmt r6) .noElif (.inl rfl)) (.inr rfl))
  have all := Has.stmts s1 (.stmts s2 (.stmts s3 (.stmts s4 .noStmts (.inl rfl)) (.inr trivial)) (.inr trivial)) (.inr trivial)
  exact ⟨_, _, _, .mk (tk 0) (by decide) all (.inr rfl) he, rfl, rfl⟩

/-! ## What a missing semicolon costs -/

/-- **C70 violated**: the statement behind a missing semicolon is lost; so is the rest of the function and the declaration behind
it up to its first semicolon, although a closing brace is in between; but behind `echo` nothing is lost at a closing brace. -/
theorem C70_violated_lost :
    counts c!"<?php $a = 1; $b = 2; $c = 3;" = some (3, 0) ∧ counts c!"<?php $a = 1 $b = 2; $c = 3;" = some (2, 1) ∧
    counts c!"<?php function f() { return 1; } function g() { return 2; }" = some (2, 0) ∧
    counts c!"<?php function f() { return 1 } function g() { return 2; }" = some (1, 1) ∧
    counts c!"<?php function f() { echo 1 } function g() { return 2; }" = some (2, 1) ∧
    counts c!"<?php class A { const X = 1; } function g() { return 2; }" = some (2, 0) ∧
    counts c!"<?php class A { const X = 1 } function g() { return 2; }" = some (1, 1) := by
  decide +kernel

/-- **C70 violated**: behind `unset`, `die`, `define`, `declare` and `static` a missing semicolon is not reported. -/
theorem C70_violated_silent :
    counts c!"<?php unset($a) f();" = some (2, 0) ∧ counts c!"<?php die() f();" = some (2, 0) ∧
    counts c!"<?php define('A', 1) f();" = some (2, 0) ∧ counts c!"<?php declare(strict_types=1) f();" = some (2, 0) ∧
    counts c!"<?php static $a = 1 f();" = some (2, 0) := by
  decide +kernel

/-- **C70 violated**: one missing semicolon behind `const` or `global` gives several errors, and of the statements behind it several
are lost: what follows is read as a further constant or variable, again and again. -/
theorem C70_violated_entries :
    counts c!"<?php const A = 1; f(); g(); h();" = some (4, 0) ∧ counts c!"<?php const A = 1 f(); g(); h();" = some (1, 3) ∧
    counts c!"<?php global $a; f(); g(); h();" = some (4, 0) ∧ counts c!"<?php global $a f(); g(); h();" = some (3, 2) ∧
    counts c!"<?php global $a; $b = 1; $c = 2; g();" = some (4, 0) ∧
    counts c!"<?php global $a $b = 1; $c = 2; g();" = some (1, 4) := by
  decide +kernel

end PhpLs.Syntax
