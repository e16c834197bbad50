import Verif.Props.Programs

/-!
# A second program (C67)

The rules for trait adaptations, for a `yield` without a value and for the text outside of the script, met by a concrete text.
-/

namespace PhpLs.Syntax

open PhpLs PhpLs.Parser

variable {doc : Token → Option Node}

/-- A class that adapts its traits, a `yield` without a value, text with an echo, and a closing tag at the end. -/
def sampleMore : Text :=
  c!"<?php class A { use B, C { B::x insteadof C; y as private z; } } $x = yield; ?> text <?= 1, 2 ?> <?php f(); ?>"

/-- Its tokens, without line breaks and line comments. -/
def sampleMoreTokens : List Token :=
  match Scanner.scan Unicode.ascii sampleMore with
  | .ok s => strip s.tokens
  | _ => []

/-- The types of these tokens. -/
def sampleMoreTypes : List TT :=
  [.scriptStartRegular, .kwClass, .identifier, .openCurly, .kwUse, .identifier, .comma, .identifier, .openCurly, .identifier,
   .paamayimNekudayim, .identifier, .insteadof, .identifier, .semicolon, .identifier, .kwAs, .kwPrivate, .identifier,
   .semicolon, .closeCurly, .closeCurly, .variable, .assignment, .kwYield, .semicolon, .scriptEnd, .scriptStartEcho,
   .longNumber, .comma, .longNumber, .scriptEnd, .scriptStartRegular, .identifier, .openParenthesis, .closeParenthesis,
   .semicolon, .scriptEnd]

theorem sampleMore_types : sampleMoreTokens.map (·.t) = sampleMoreTypes := by decide +kernel

theorem sampleMore_plain : sampleMoreTokens.all (fun k => solid k && k.range.isSome) = true := by decide +kernel

theorem sampleMore_labels : sampleMoreTokens.all (fun k => k.t != .variable || k.label.isSome) = true := by decide +kernel

/-- The tree of this text, for any tokens of these types. -/
theorem sampleMore_abstract {k : Nat → Token} (ht : ∀ i, i < 38 → Tok (sampleMoreTypes.getD i .eof) (k i))
    (hv : ∀ i, i < 38 → sampleMoreTypes.getD i .eof = .variable → (k i).label.isSome = true) :
    Program doc ((List.range 38).map k)
      [.classStatement (k 1) (k 2) none none none none
        (.block (k 3) [.useTraitStatement (k 4) [.useTraitAlterationBlock [.typeRef ⟨[k 5], false⟩, .typeRef ⟨[k 7], false⟩] (k 8)
          [.useTraitInsteadOf (some (.typeRef ⟨[k 9], false⟩)) (some (k 10)) (.typeRef ⟨[k 11], false⟩) (k 12) [.typeRef ⟨[k 13], false⟩],
           .useTraitAs none none (.typeRef ⟨[k 15], false⟩) (k 16) (some (k 17)) (some (k 18))] (k 20)]] (k 21)) none [],
       .expressionStatement (.binary (.variable (k 22)) (k 23) (.yieldExpr (k 24) none)),
       .echoStatement (k 27) [.literal (k 28), .literal (k 30)],
       .expressionStatement (.call (.typeRef ⟨[k 33], false⟩) (k 34) [] (k 35)),
       .inlineHtml (k 37) none] := by
  have tk : ∀ i, (h : i < 38 := by decide) → Tok (sampleMoreTypes.getD i .eof) (k i) := fun i h => ht i h
  have word : ∀ i, (h : i < 38 ∧ (sampleMoreTypes.getD i .eof).isIdentifier = true := by decide) → Word (k i) := by
    intro i h
    have := tk i h.1
    refine ⟨this.1, ?_⟩
    show (k i).t.isIdentifier = true
    rw [this.2]
    exact h.2
  have var : ∀ i, (h : i < 38 ∧ sampleMoreTypes.getD i .eof = .variable := by decide) →
      Is doc (.expr (.variable (k i)) [] []) [k i] := by
    intro i h
    have := tk i h.1
    rw [h.2] at this
    exact .call (.prim (.var ⟨this, hv i h.1 h.2⟩))
  have lit : ∀ i, (h : i < 38 ∧ sampleMoreTypes.getD i .eof ∈ literalSet := by decide) →
      Is doc (.expr (.literal (k i)) [] []) [k i] := by
    intro i h
    have := tk i h.1
    exact .call (.prim (.lit this.1 (by rw [this.2]; exact h.2)))
  have nm : ∀ i, (h : i < 38 ∧ (sampleMoreTypes.getD i .eof).isIdentifier = true := by decide) →
      Name [k i] (.typeRef ⟨[k i], false⟩) := fun i h =>
    .mk (ns := none) (path := []) (fun _ h => nomatch h) (word i h) (fun _ h => nomatch h)
  -- The class
  have a1 := Adaptation.instead (.of (nm 9) (tk 10) (nm 11)) (tk 12) (.one (nm 13))
  have a2 := Adaptation.both (.plain (nm 15)) (tk 16) (tk 17) (by decide) (word 18)
  have t1 := Is.adaptTraits (doc := doc) (tk 4) (.more (nm 5) (tk 6) (.one (nm 7))) (tk 8)
    (.more a1 (tk 14) (.more a2 (tk 19) .none)) (tk 20)
  have c1 := Is.classBody (tk 3) (.entries t1 .noEntries) (tk 21)
  have c2 := Is.class (ats := []) (d := none) (.inl ⟨.none, rfl⟩) (tk 1) (word 2) .none .none c1
  -- `$x = yield;`
  have y1 := Is.bin (var 22) (tk 23).1 (by rw [(tk 23).2]; decide) (by rw [(tk 23).2]; decide) (.yieldsNothing (tk 24))
    (fun o h => nomatch h) (fun t h => nomatch h)
  have y2 := Is.exprSemi y1 ((tk 22).next.mono fun t ht => by rw [eq_of_beq ht]; rfl) (tk 25)
  -- `?> text <?= 1, 2 ?> <?php`
  have e1 := Is.inlineEcho (doc := doc) (tk 26) (tk 27) (.cons (.expr (lit 28)) (tk 29) (.last (.expr (lit 30)))) .none (tk 31) (tk 32)
    (by decide)
  -- `f();`
  have name : Is doc (.prim _) [k 33] := .name (nm 33) ((tk 33).next.mono fun t ht => by rw [eq_of_beq ht]; rfl)
  have call := Is.apply (.prim name) (tk 34) .nil (tk 35)
  have s1 := Is.exprStmt (.expr (.call call)) ((tk 33).next.mono fun t ht => by rw [eq_of_beq ht]; rfl) (tk 36)
  have all := Is.stmts (.top (.declared .noAttrs c2))
    (.stmts (.top y2) (.stmts (.top e1) (.stmts (.top s1) .noStmts (.inl rfl)) (.inr trivial)) (.inr trivial)) (.inr trivial)
  exact .closed (tk 0) (by decide) all (tk 37)

theorem sampleMore_of {l : List Token} (types : l.map (·.t) = sampleMoreTypes)
    (plain : l.all (fun k => solid k && k.range.isSome) = true)
    (labels : l.all (fun k => k.t != .variable || k.label.isSome) = true) :
    ∃ n1 n2 n3 n4 n5, Program doc l [n1, n2, n3, n4, n5] := by
  have hlen : l.length = 38 := by
    have := congrArg List.length types
    rwa [List.length_map] at this
  let k : Nat → Token := fun i => l.getD i (Token.new .eof 0 0 0)
  have hk : ∀ i, i < 38 → (k i).t = sampleMoreTypes.getD i .eof ∧ k i ∈ l := by
    intro i hi
    have e : k i = l[i]'(by omega) := by
      show l.getD i _ = _
      rw [List.getD_eq_getElem?_getD, List.getElem?_eq_getElem (by omega)]
      rfl
    refine ⟨?_, by rw [e]; exact List.getElem_mem _⟩
    rw [e, ← types, List.getD_eq_getElem?_getD, List.getElem?_map, List.getElem?_eq_getElem (by omega)]
    rfl
  have hs : l = (List.range 38).map k := by
    apply List.ext_getElem
    · rw [List.length_map, List.length_range, hlen]
    · intro i h1 h2
      rw [List.getElem_map, List.getElem_range]
      show _ = l.getD i _
      rw [List.getD_eq_getElem?_getD, List.getElem?_eq_getElem h1]
      rfl
  rw [hs]
  refine ⟨_, _, _, _, _, sampleMore_abstract ?_ ?_⟩
  · intro i hi
    obtain ⟨a, b⟩ := hk i hi
    have hne : sampleMoreTypes.getD i .eof ≠ .eof := by
      clear a b
      revert i
      decide
    have hp := List.all_eq_true.1 plain _ b
    rw [Bool.and_eq_true] at hp
    exact ⟨⟨hp.1, by rw [a]; exact hne, Option.isSome_iff_exists.1 hp.2⟩, a⟩
  · intro i hi h1
    obtain ⟨a, b⟩ := hk i hi
    have hp := List.all_eq_true.1 labels _ b
    rw [a, h1] at hp
    exact hp

/-- So this text is read without an error, as five statements. -/
theorem sampleMore_program : ∃ n1 n2 n3 n4 n5, Program (DocBlock.docNode Unicode.ascii) sampleMoreTokens [n1, n2, n3, n4, n5] :=
  sampleMore_of sampleMore_types sampleMore_plain sampleMore_labels

example : ∃ n0, ∀ m, n0 ≤ m → ∃ ns s, ast Unicode.ascii m sampleMoreTokens = .ok ns s ∧ s.errors = [] ∧ ns.length = 5 := by
  obtain ⟨_, _, _, _, _, h⟩ := sampleMore_program
  obtain ⟨n0, hn⟩ := C67_program h
  exact ⟨n0, fun m hm => by obtain ⟨s, h1, h2⟩ := hn m hm; exact ⟨_, s, h1, h2, rfl⟩⟩

/-- `<?php echo 1 ?>`: the closing tag ends the statement and is a statement itself. -/
example {tag e one s : Token} (h1 : Tok .scriptStartRegular tag) (h2 : Tok .kwEcho e) (h3 : Tok .longNumber one)
    (h4 : Tok .scriptEnd s) : Program doc [tag, e, one, s] [.echoStatement e [.literal one], .inlineHtml s none] := by
  have lit : Is doc (.expr (.literal one) [] []) [one] := .call (.prim (.lit h3.1 (by rw [h3.2]; decide)))
  have st := Is.echoTag h2 (.last (b := false) (.expr lit))
  exact .closed (ns := [.echoStatement e [.literal one]]) h1 (by decide) (.stmts (.top st) .noStmts (.inl rfl)) h4

/-- `<?php unset($a) ?>`: the same behind a statement whose semicolon would be a statement of its own. -/
example {tag e lp v rp s : Token} (h1 : Tok .scriptStartRegular tag) (h2 : Tok .kwUnset e) (h3 : Tok .openParenthesis lp)
    (h4 : Tok .variable v) (hv : v.label.isSome = true) (h5 : Tok .closeParenthesis rp) (h6 : Tok .scriptEnd s) :
    Program doc [tag, e, lp, v, rp, s] [.unsetStatement e lp [.variable v] rp, .inlineHtml s none] := by
  have x : Is doc (.expr (.variable v) [] []) [v] := .call (.prim (.var ⟨h4, hv⟩))
  have st := Is.unset h2 h3 (.last (b := true) (.expr x)) h5
  exact .closed (ns := [.unsetStatement e lp [.variable v] rp]) h1 (by decide) (.stmts (.top st) .noStmts (.inl rfl)) h6

end PhpLs.Syntax
