import Verif.Props.ParserTermination
import Verif.KernelRfl

/-!
# C13: the loops that run forever

For each of the loops that `MayHang` names: a PHP text whose parse does not end with any amount of fuel, or the states in
which the loop does not end.
-/

namespace PhpLs.Parser

open PhpLs

/-- The iteration goes on with a state that meets `I`. -/
def GoesOn {α β : Type} (I : PSt → Prop) : Res (β ⊕ α) → Prop
  | .ok (.inl _) s => I s
  | _ => False

/-- A loop that does not end from the states that meet an invariant. -/
theorem loop_stuck {α β : Type} {site : Site} {body : β → P (β ⊕ α)} (I : PSt → Prop)
    (h : ∀ b s, I s → GoesOn I (body b s)) : ∀ n b s, I s → loopP site n body b s = .diverge site
  | 0, _, _, _ => rfl
  | n + 1, b, s, hi => by
    have h1 := h b s hi
    unfold loopP
    rw [bind_run]
    cases hx : body b s with
    | ok x s' =>
      rw [hx] at h1
      cases x with
      | inl b' => exact loop_stuck I h n b' s' h1
      | inr a => exact h1.elim
    | err e s' => rw [hx] at h1; exact h1.elim
    | panic => rw [hx] at h1; exact h1.elim
    | diverge y => rw [hx] at h1; exact h1.elim

/-- There are no tokens left. -/
def Exhausted (s : PSt) : Prop := s.toks = []

/-! ## `global $a` at the end of the file -/

/-- The body of the loop of `variables::global_variables`. -/
def globalsBody (r : Rec) (vars : List Node) : P (List Node ⊕ List Node) := do
  if ← nextOneOf [.semicolon] then pure (.inr vars)
  else do
    let v ← variable' r
    if ← nextOneOf [.semicolon] then pure (.inr (vars ++ [v]))
    else do
      consumeOrFfAfter .comma [.semicolon]
      pure (.inl (vars ++ [v]))

/-- At the end of the tokens the loop of `global_variables` adds a `Missing` variable in every iteration. -/
theorem globalsBody_stuck (doc : Token → Option Node) (m : Nat) (vars : List Node) (s : PSt) (h : Exhausted s) :
    GoesOn Exhausted (globalsBody (knot doc (m + 1)) vars s) := by
  obtain ⟨a, b, c, d, e, f⟩ := s
  cases (h : b = [])
  kernel_exact (rfl : ([] : List Token) = [])

/-- The body of the loop of `variables::non_empty_lexical_variables_list`. -/
def lexicalsBody (args : List Node) : P (List Node ⊕ List Node) := do
  if ← nextOneOf [.closeParenthesis] then pure (.inr args)
  else do
    let v ← lexicalVariable
    if ← nextOneOf [.closeParenthesis] then pure (.inr (args ++ [v]))
    else do
      consumeOrFfAfter .comma [.semicolon]
      pure (.inl (args ++ [v]))

theorem lexicalsBody_stuck (args : List Node) (s : PSt) (h : Exhausted s) :
    GoesOn Exhausted (lexicalsBody args s) := by
  obtain ⟨a, b, c, d, e, f⟩ := s
  cases (h : b = [])
  kernel_exact (rfl : ([] : List Token) = [])

/-- The body of the loop of `classes::trait_usage_alteration_group`. -/
def alterationsBody (r : Rec) (as : List Node) : P (List Node ⊕ List Node) := do
  if ← nextOneOf [.closeCurly] then pure (.inr as)
  else do
    let a ← alteration r
    consumeOrFfAfter .semicolon [.closeCurly]
    pure (.inl (as ++ a.toList))

theorem alterationsBody_stuck (doc : Token → Option Node) (m : Nat) (as : List Node) (s : PSt) (h : Exhausted s) :
    GoesOn Exhausted (alterationsBody (knot doc (m + 1)) as s) := by
  obtain ⟨a, b, c, d, e, f⟩ := s
  cases (h : b = [])
  kernel_exact (rfl : ([] : List Token) = [])

/-! ## From a statement to the file -/

/-- If the first statement does not end, the parse does not end. -/
theorem ast_diverge {U : Unicode} {n : Nat} {k : Token} {r : List Token} {x : Site} (hk : solid k = true) (he : k.t ≠ .eof)
    (h : statementF (knot (DocBlock.docNode U) n) (new (k :: r)) = .diverge x) :
    ast U (n + 1) (k :: r) = .diverge x := by
  have hpeek : peekOn (new (k :: r)).toks (new (k :: r)) = (some k, new (k :: r)) := peekOn_front rfl hk he
  show loopP .ast (n + 1) (astBody (knot (DocBlock.docNode U) (n + 1))) [] (new (k :: r)) = _
  unfold loopP
  refine bind_diverge ?_
  unfold astBody
  rw [bind_ok (peek_run _), hpeek]
  dsimp only
  rw [if_neg he]
  refine bind_diverge ?_
  unfold statementInto P.catchErr
  have e : (knot (DocBlock.docNode U) (n + 1)).statement (new (k :: r)) =
    statementF (knot (DocBlock.docNode U) n) (new (k :: r)) := rfl
  rw [e, h]

/-- More fuel than some amount diverges, so every amount does. -/
theorem ast_diverge_all {U : Unicode} {tokens : List Token} {c : Nat} {x : Site}
    (h : ∀ n, ast U (n + c) tokens = .diverge x) (n : Nat) : ∃ y, ast U n tokens = .diverge y := by
  refine Classical.byContradiction fun hn => ?_
  have := ast_fuel U n (n + c) (Nat.le_add_right ..) tokens fun y hy => hn ⟨y, hy⟩
  rw [h n] at this
  exact hn ⟨x, this.symm⟩

/-! ## The texts -/

/-- The tokens of a text that can be scanned. -/
def tokensOf (text : Text) : Option (List Token) :=
  match Scanner.scan Unicode.ascii text with
  | .ok s => some s.tokens
  | _ => none

/-- The tokens of `<?php global $a`. -/
def globalToks : List Token :=
  [⟨0, 0, .scriptStartRegular, none, some 0⟩, ⟨6, 0, .kwGlobal, none, some 1⟩, ⟨13, 0, .variable, some ['a'], some 2⟩,
   ⟨15, 0, .eof, none, some 3⟩]

theorem scan_global : tokensOf c!"<?php global $a" = some globalToks := by decide +kernel

theorem globalToks_hang (U : Unicode) (m : Nat) : ast U (m + 2) globalToks = .diverge .globals := by
  refine ast_diverge (by decide) (by decide) ?_
  generalize DocBlock.docNode U = doc
  have h1 : statementF (knot doc (m + 1)) (new globalToks) =
      globalVariables (knot doc (m + 1)) ⟨[], globalToks.tail, [], .script, (0, 15), ⟨0, 0, 5, 0⟩⟩ := by kernel_rfl
  refine h1.trans ?_
  unfold globalVariables
  refine (bind_ok (a := ⟨6, 0, .kwGlobal, none, some 1⟩)
    (s' := ⟨[], globalToks.tail.tail, [], .script, (0, 15), ⟨6, 0, 12, 0⟩⟩) (by kernel_rfl)).trans ?_
  refine (bind_ok (a := .variable ⟨13, 0, .variable, some ['a'], some 2⟩)
    (s' := ⟨[], globalToks.tail.tail.tail, [], .script, (0, 15), ⟨13, 0, 15, 0⟩⟩) (by kernel_rfl)).trans ?_
  refine (bind_ok (a := none) (s' := ⟨[], [], [], .script, (0, 15), ⟨13, 0, 15, 0⟩⟩) (by kernel_rfl)).trans ?_
  exact bind_diverge (loop_stuck (body := globalsBody (knot doc (m + 1))) Exhausted (globalsBody_stuck doc m) _ _ _ rfl)

/-- **C13 (violated).** The parse of `<?php global $a` does not end: with no amount of fuel does the model return. -/
theorem C13_fails_globals (n : Nat) :
    ∃ tokens x, tokensOf c!"<?php global $a" = some tokens ∧ ast Unicode.ascii n tokens = .diverge x := by
  obtain ⟨x, hx⟩ := ast_diverge_all (c := 2) (globalToks_hang Unicode.ascii) n
  exact ⟨_, x, scan_global, hx⟩

/-- The tokens of `<?= ) ; ?>`. -/
def echoToks : List Token :=
  [⟨0, 0, .scriptStartEcho, none, some 0⟩, ⟨4, 0, .closeParenthesis, none, some 1⟩, ⟨6, 0, .semicolon, none, some 2⟩,
   ⟨8, 0, .scriptEnd, none, some 3⟩]

theorem scan_echo : tokensOf c!"<?= ) ; ?>" = some echoToks := by decide +kernel

/-- Outside of a script, in front of the first token or of the semicolon. -/
def echoStuck (s : PSt) : Prop :=
  (s.ctx == .out && decide (s.docs = []) && (decide (s.toks = echoToks) || decide (s.toks = echoToks.tail.tail))) = true

theorem echo_stuck (doc : Token → Option Node) (m : Nat) (b : List Node) (s : PSt) (h : echoStuck s) :
    GoesOn echoStuck (astBody (knot doc (m + 6)) b s) := by
  obtain ⟨docs, toks, errors, ctx, eof, endPrev⟩ := s
  unfold echoStuck at h
  simp only [Bool.and_eq_true, Bool.or_eq_true, decide_eq_true_eq, beq_iff_eq] at h
  obtain ⟨⟨rfl, rfl⟩, h⟩ := h
  rcases h with rfl | rfl
  · kernel_exact (rfl : true = true)
  · kernel_exact (rfl : true = true)

/-- **C13 (violated).** The parse of `<?= ) ; ?>` does not end. -/
theorem C13_fails_ast (n : Nat) :
    ∃ tokens x, tokensOf c!"<?= ) ; ?>" = some tokens ∧ ast Unicode.ascii n tokens = .diverge x := by
  have h : ∀ n, ast Unicode.ascii (n + 6) echoToks = .diverge .ast := fun n =>
    loop_stuck (body := astBody (knot (DocBlock.docNode Unicode.ascii) (n + 6))) echoStuck (echo_stuck _ n) (n + 6) []
      (new echoToks) (by kernel_exact (rfl : true = true))
  obtain ⟨x, hx⟩ := ast_diverge_all (c := 6) h n
  exact ⟨_, x, scan_echo, hx⟩

/-- **C13 (violated).** A list of captured variables that the end of the file cuts off is read forever. -/
theorem C13_fails_lexicals (doc : Token → Option Node) (n : Nat) (s : PSt) (h : Exhausted s) :
    nonEmptyLexicalVariablesList (knot doc n) s = .diverge .lexicals := by
  obtain ⟨a, b, c, d, e, f⟩ := s
  cases (h : b = [])
  unfold nonEmptyLexicalVariablesList
  refine (bind_ok (a := ()) (s' := ⟨a, [], c ++ [.eof], d, e, f⟩) (by kernel_rfl)).trans ?_
  refine (bind_ok (a := .lexicalVariable none (Token.missing e))
    (s' := ⟨a, [], c ++ [.eof] ++ [.wrongToken [.variable] (Token.missing e)], d, e, f⟩) (by kernel_rfl)).trans ?_
  refine (bind_ok (a := none)
    (s' := ⟨a, [], c ++ [.eof] ++ [.wrongToken [.variable] (Token.missing e)], d, e, f⟩) (by kernel_rfl)).trans ?_
  exact bind_diverge (loop_stuck (body := lexicalsBody) Exhausted lexicalsBody_stuck _ _ _ rfl)

/-- **C13 (violated).** A block of trait adaptations that the end of the file cuts off is read forever. -/
theorem C13_fails_alterations (doc : Token → Option Node) (n : Nat) (s : PSt) (ts : List Node) (h : Exhausted s) :
    traitUsageAlterationGroup (knot doc (n + 1)) ts s = .diverge .alterations := by
  obtain ⟨a, b, c, d, e, f⟩ := s
  cases (h : b = [])
  unfold traitUsageAlterationGroup
  refine (bind_ok (a := Token.missing e) (s' := ⟨a, [], c ++ [.wrongToken [.openCurly] (Token.missing e)], d, e, f⟩) (by kernel_rfl)).trans ?_
  exact bind_diverge (loop_stuck (body := alterationsBody (knot doc (n + 1))) Exhausted (alterationsBody_stuck doc n) _ _ _ rfl)

/-- Texts that run into these two loops, and into the loops of blocks, with 60 steps. -/
example : ∀ p ∈ [(c!"<?php $a = function() use ($a", Site.lexicals), (c!"<?php class A { use T {", Site.alterations),
      (c!"<?php if ($a) { ?> <?= 1 ?> <?= ) ; ?> <?php }", Site.block),
      (c!"<?php while ($a): ?> <?= 1 ?> <?= ) ; ?> <?php endwhile;", Site.altBlock)],
    (match (tokensOf p.1).map (ast Unicode.ascii 60) with | some (.diverge x) => x == p.2 | _ => false) = true := by
  decide +kernel

/-- A file without any of the patterns, with nested functions, classes, loops and conditions, to which
`C13_parse_exists_partial` applies. -/
def plainText : Text :=
  c!"<?php namespace A; class B extends C { public function f($x) { foreach ($x as $k => $v) { if ($v) { return fn() => 1; } } } }"

theorem no_hang_of {text : Text} (key : (tokensOf text).map (fun ts =>
      ts.all (fun k => k.t != .scriptEnd && k.t != .scriptStartEcho && k.t != .kwGlobal && k.t != .kwUse) &&
        (match ts with | k :: _ => k.t == .scriptStartRegular | [] => false)) = some true) :
    ∃ tokens, tokensOf text = some tokens ∧ ∀ x, ¬ MayHang tokens x := by
  generalize tokensOf text = o at key
  cases o with
  | none => cases key
  | some ts =>
    refine ⟨ts, rfl, ?_⟩
    simp only [Option.map_some, Option.some.injEq, Bool.and_eq_true, List.all_eq_true, bne_iff_ne, ne_eq] at key
    obtain ⟨h1, h2⟩ := key
    have hmixed : ¬ Mixed ts := by
      rintro (⟨k, hk, h | h⟩ | h)
      · exact (h1 k hk).1.1.1 h
      · exact (h1 k hk).1.1.2 h
      · cases ts with
        | nil => cases h2
        | cons k r => exact (h k r rfl).1 (by simpa using h2)
    have hmem : ∀ {l t}, Contains l ts → t ∈ l → ∃ k ∈ ts, k.t = t := by
      intro l t hs ht
      simpa using hs.subset ht
    intro x hx
    cases x with
    | ast => exact hmixed hx
    | block => exact hmixed hx
    | altBlock => exact hmixed hx
    | globals => obtain ⟨k, hk, h⟩ := hmem (t := .kwGlobal) hx (by simp); exact (h1 k hk).1.2 h
    | lexicals => obtain ⟨k, hk, h⟩ := hmem (t := .kwUse) hx (by simp); exact (h1 k hk).2 h
    | alterations =>
      obtain ⟨t, _, hx⟩ := hx
      obtain ⟨k, hk, h⟩ := hmem (t := .kwUse) hx (by simp); exact (h1 k hk).2 h
    | other => exact hx
    | recursion => exact hx

example : ∃ tokens, tokensOf plainText = some tokens ∧ ∀ x, ¬ MayHang tokens x := no_hang_of (by decide +kernel)

end PhpLs.Parser
