import Verif.GrammarTerm3
import Verif.Props.ParserTrivia

/-!
# C13: when parsing ends

The parser does not end on every input: six of its loops can run forever, and there is a PHP text for each of them
(`C13_fails_*`).  `C13_parsing_ends_partial` says that nothing else can go wrong: parsing a token list with `3 * n + 8` levels of
recursion and iterations comes to an end unless the tokens contain one of the patterns that `MayHang` names.
-/

namespace PhpLs.Parser

open PhpLs

/-! ## Specification -/

/-- The types of the tokens of a stream contain the given ones, in this order. -/
def Contains (ts : List TT) (tokens : List Token) : Prop := ts.Sublist (tokens.map (·.t))

/-- The stream has a closing tag or an echo tag, or does not begin with an opening tag. -/
def Mixed (tokens : List Token) : Prop :=
  (∃ k ∈ tokens, k.t = .scriptEnd ∨ k.t = .scriptStartEcho) ∨
  ∀ k r, tokens = k :: r → k.t ≠ .scriptStartRegular ∧ k.t ≠ .scriptStartShort

/-- The streams on which a loop may run forever. -/
def MayHang (tokens : List Token) : Site → Prop
  | .ast | .block | .altBlock => Mixed tokens
  | .globals => Contains [.kwGlobal] tokens
  | .lexicals => Contains [.kwFunction, .kwUse] tokens
  | .alterations => ∃ t ∈ [TT.kwClass, .kwAbstract, .kwFinal, .kwInterface, .kwTrait], Contains [t, .kwUse] tokens
  | .other | .recursion => False

/-! ## The proof -/

/-- What is known about a run on the given tokens. -/
def envOf (tokens : List Token) (c : Nat) (hc : c ≤ 1)
    (h1 : c = 1 → ∀ k ∈ tokens, k.t ≠ .scriptEnd ∧ k.t ≠ .scriptStartEcho)
    (exc : Site → Prop) (h2 : ∀ x, x ≠ .ast → x ≠ .block → x ≠ .altBlock → MayHang tokens x → exc x)
    (h3 : c = 0 → exc .ast ∧ exc .block ∧ exc .altBlock) : Env where
  P l := l.Sublist tokens
  sub := List.Sublist.trans
  c := c
  exc := exc
  tags h hP := h1 h _ (hP.subset List.mem_cons_self)
  c_le := hc
  loops := h3
  globals hP ht := h2 _ (by decide) (by decide) (by decide) (by
    have := (hP.map (·.t))
    rw [List.map_cons, ht] at this
    exact (List.cons_sublist_cons.2 (List.nil_sublist _)).trans this)
  lexicals hP hf ht := h2 _ (by decide) (by decide) (by decide) (by
    have := (hP.map (·.t))
    rw [List.map_cons, List.map_cons, ht, hf] at this
    exact (List.cons_sublist_cons.2 (List.cons_sublist_cons.2 (List.nil_sublist _))).trans this)
  alterations {f k l} hP hf ht := h2 _ (by decide) (by decide) (by decide) (by
    have := (hP.map (·.t))
    rw [List.map_cons, List.map_cons, ht] at this
    refine ⟨f.t, by simpa [classLike] using hf, ?_⟩
    exact (List.cons_sublist_cons.2 (List.cons_sublist_cons.2 (List.nil_sublist _))).trans this)

/-- The rest of `statement` after the opening tag. -/
def firstStatement (r : Rec) : P Node := do
  match ← peek with
  | none => pure .emptyScript
  | some _ => scriptStatement r

theorem statementF_open {r : Rec} {k : Token} {rest : List Token}
    (hk : k.t = .scriptStartRegular ∨ k.t = .scriptStartShort) :
    statementF r (new (k :: rest)) = .panic ∨
      ∃ s1, s1.toks = rest ∧ s1.ctx = .script ∧ statementF r (new (k :: rest)) = firstStatement r s1 := by
  have hsolid : solid k = true := solid_iff.2 (by rcases hk with h | h <;> rw [h] <;> decide)
  have heof : k.t ≠ .eof := by rcases hk with h | h <;> rw [h] <;> decide
  have hpeek : peekOn (new (k :: rest)).toks (new (k :: rest)) = (some k, new (k :: rest)) :=
    peekOn_front rfl hsolid heof
  have htake := takeOr_yes (f := fun k => k.t == .scriptStartRegular || k.t == .scriptStartShort) hpeek
    (by rcases hk with h | h <;> simp [h])
  unfold statementF
  rw [bind_ok (getCtx_run _)]
  show (takeOr _ >>= _) _ = _ ∨ ∃ s1, _ ∧ _ ∧ (takeOr _ >>= _) _ = _
  unfold takeFront at htake
  cases hr : k.range with
  | none =>
    rw [hr] at htake
    exact .inl (bind_panic htake)
  | some rg =>
    rw [hr] at htake
    exact .inr ⟨{ (new (k :: rest)) with toks := rest, ctx := .script, endPrev := rg }, rfl, rfl, (bind_ok htake).trans rfl⟩

/-- The body of the loop of `Parser::ast`. -/
def astBody (r : Rec) (stmts : List Node) : P (List Node ⊕ List Node) := do
  match ← peek with
  | none => pure (.inr stmts)
  | some k =>
    if k.t = .eof then pure (.inr stmts)
    else do
      let stmts ← statementInto r stmts
      pure (.inl stmts)

theorem wp_astBody {V : Env} {N : Nat} {r : Rec} {s : PSt} {stmts : List Node} (hc : V.c = 1) (hr : RT V N r)
    (h : s.toks.length < N) :
    wp V (astBody r stmts) (Sum.elim (fun _ => s.toks.length) (fun _ => s.toks.length + 1)) 0 s := by
  unfold astBody
  wp_auto

/-- The first statement of a file that begins with an opening tag, and all that follows. -/
theorem astLoop_open {doc : Token → Option Node} {n : Nat} {k : Token} {rest : List Token}
    (hk : k.t = .scriptStartRegular ∨ k.t = .scriptStartShort) {V : Env} (hc : V.c = 1) (hP : V.P rest)
    (hn : 3 * rest.length + 7 ≤ n) (x : Site) (hx : astLoop (knot doc n) (new (k :: rest)) = .diverge x) : V.exc x := by
  have hsolid : solid k = true := solid_iff.2 (by rcases hk with h | h <;> rw [h] <;> decide)
  have heof : k.t ≠ .eof := by rcases hk with h | h <;> rw [h] <;> decide
  have hpeek : peekOn (new (k :: rest)).toks (new (k :: rest)) = (some k, new (k :: rest)) :=
    peekOn_front rfl hsolid heof
  obtain ⟨n, rfl⟩ : ∃ m, n = m + 1 := ⟨n - 1, by omega⟩
  have hst : (knot doc (n + 1)).statement (new (k :: rest)) = statementF (knot doc n) (new (k :: rest)) := rfl
  have hx : loopP .ast (n + 1) (astBody (knot doc (n + 1))) [] (new (k :: rest)) = .diverge x := hx
  have hbody : astBody (knot doc (n + 1)) [] (new (k :: rest)) =
      (do
        let stmts ← statementInto (knot doc (n + 1)) []
        pure (.inl stmts) : P (List Node ⊕ List Node)) (new (k :: rest)) := by
    unfold astBody
    rw [bind_ok (peek_run _), hpeek]
    dsimp only
    rw [if_neg heof]
  have hrt : RT V (rest.length + 1) (knot doc n) := knot_RT doc (by omega)
  have hrt' : RT V (rest.length + 1) (knot doc (n + 1)) := knot_RT doc (by omega)
  unfold loopP at hx
  rw [bind_run, hbody, bind_run] at hx
  rcases statementF_open (r := knot doc n) (rest := rest) hk with h | ⟨s1, h1, h2, h3⟩
  · have e : statementInto (knot doc (n + 1)) [] (new (k :: rest)) = .panic := by
      unfold statementInto P.catchErr
      rw [hst, h]
    rw [e] at hx
    cases hx
  · have e : statementInto (knot doc (n + 1)) [] (new (k :: rest)) =
        P.catchErr (firstStatement (knot doc n)) (fun n => do
          let ds ← drainDocs doc
          pure ([] ++ ds ++ [n])) (fun e => do
          pushErr e
          errorFastForward
          pure []) s1 := by
      unfold statementInto P.catchErr
      rw [hst, h3]
      rfl
    have hready : V.Ready s1 := ⟨h1 ▸ hP, fun _ => h2⟩
    have hlen : s1.toks.length = rest.length := by rw [h1]
    have hfirst : wp V (firstStatement (knot doc n)) (fun _ => s1.toks.length + 1) s1.toks.length s1 := by
      unfold firstStatement
      refine wp_peek ?_ ?_
      · wp_auto
      · intro a s2 _ _ h2 _ _ _
        exact wp_monoC (wp_scriptStatement hrt (by omega)
          (fun b s' hs' => (knot_wp (V := V) doc n).2.1 b s' (by omega))) (by omega) (by omega)
    have hall : wp V (P.catchErr (firstStatement (knot doc n)) (fun n => do
          let ds ← drainDocs doc
          pure ([] ++ ds ++ [n])) (fun e => do
          pushErr e
          errorFastForward
          pure [])) (fun _ => s1.toks.length + 1) 0 s1 := by
      refine wp_catchErrC hfirst ?_ ?_ <;> wp_auto
    have h4 := hall hready
    rw [← e] at h4
    cases hz : statementInto (knot doc (n + 1)) [] (new (k :: rest)) with
    | ok stmts s2 =>
      rw [hz] at h4 hx
      obtain ⟨h5, _, h6⟩ := h4
      dsimp only at h6
      have hloop : wp V (loopP .ast n (astBody (knot doc (n + 1))) stmts) (fun _ => s2.toks.length + 1) 0 s2 := by
        refine wp_loopP (by omega) ?_ _
        intro b s3 h7 _
        refine wp_mono (wp_astBody hc hrt' (by omega)) ?_ (Nat.le_refl _)
        rintro (_ | _) <;> simp; omega
      have := hloop h5
      have hx : loopP .ast n (astBody (knot doc (n + 1))) stmts s2 = .diverge x := hx
      rw [hx] at this
      exact this
    | err e s2 => rw [hz] at hx; cases hx
    | panic => rw [hz] at hx; cases hx
    | diverge y =>
      rw [hz] at h4 hx
      injection hx with hx
      exact hx ▸ h4

/-! ## The theorems -/

/-- **C13 (partial).** Parsing ends, with as many recursive calls as there are tokens, times three: if the model runs out of
that much fuel, it does so in one of the six loops of `MayHang` and the tokens have the pattern that this loop needs.  In
particular no other loop and not the recursion can run forever.

Missing for the full property: on some of the streams excluded here the parser does run forever (`C13_fails_*`). -/
theorem C13_parsing_ends_partial (U : Unicode) (tokens : List Token) (n : Nat) (hn : 3 * tokens.length + 8 ≤ n) (x : Site)
    (hx : ast U n tokens = .diverge x) : MayHang tokens x := by
  unfold ast at hx
  split at hx
  · cases hx
  · by_cases hm : Mixed tokens
    · let V := envOf tokens 0 (by omega) (by omega) (MayHang tokens) (fun x _ _ _ h => h) (fun _ => ⟨hm, hm, hm⟩)
      have hr : RT V (tokens.length + 1) (knot (DocBlock.docNode U) n) := knot_RT _ (by omega)
      have := wp_astLoop hr (s := new tokens) (Nat.lt_succ_self tokens.length)
        ⟨(List.Sublist.refl tokens : (new tokens).toks.Sublist tokens), fun h => by cases h⟩
      rw [hx] at this
      exact this
    · obtain ⟨h1, h2⟩ := not_or.1 hm
      cases tokens with
      | nil => exact absurd (fun k r h => by cases h) h2
      | cons k rest =>
        have hk : k.t = .scriptStartRegular ∨ k.t = .scriptStartShort := by
          refine Decidable.byContradiction fun hn => h2 ?_
          rintro k' r' e
          cases e
          exact not_or.1 hn
        let V := envOf (k :: rest) 1 (by omega)
          (fun _ k' h' => not_or.1 fun h => h1 ⟨k', h', h⟩)
          (MayHang (k :: rest)) (fun x _ _ _ h => h) (fun h => by cases h)
        refine astLoop_open hk (V := V) rfl ?_ ?_ x hx
        · exact List.sublist_cons_self ..
        · simp at hn; omega

/-- **C13 (partial).** On a stream with none of the patterns the parser ends, and it ends in the same way with every larger amount of
fuel: the parse is a total function of the tokens. -/
theorem C13_parse_exists_partial (U : Unicode) (tokens : List Token) (h : ∀ x, ¬ MayHang tokens x) :
    ∃ res : Res (List Node), (∀ x, res ≠ .diverge x) ∧ ∀ n, 3 * tokens.length + 8 ≤ n → ast U n tokens = res := by
  have hd : ∀ x, ast U (3 * tokens.length + 8) tokens ≠ .diverge x := fun x hx =>
    h x (C13_parsing_ends_partial U tokens _ (Nat.le_refl _) x hx)
  exact ⟨_, hd, fun n hn => ast_fuel U _ n hn tokens hd⟩

end PhpLs.Parser
