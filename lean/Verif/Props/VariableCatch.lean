import Verif.Props.VariableTypes

/-!
# C75, blocks that catch an exception

`catch (A | B $e) { … }` (`src/environment/visitor/name_resolver.rs` 514–533) tells the types of `$e` by their names; which classes
these are is found at each use of the variable (`src/environment/visitor/name_resolver.rs` 894–930).
-/

namespace PhpLs.Env

theorem mapM_toType : ∀ (l : List TypeRef) (l' : List SymRef), l.mapM SymRef.toType = some l' →
    l'.map (·.typeRef) = l ∧ ∀ r ∈ l', r.node = none
  | [], l', h => by
    simp only [List.mapM_nil, Option.pure_def, Option.some.injEq] at h
    subst h
    exact ⟨rfl, fun _ h => nomatch h⟩
  | t :: ts, l', h => by
    rw [List.mapM_cons] at h
    simp only [Option.bind_eq_bind, Option.bind_eq_some_iff, Option.pure_def, Option.some.injEq] at h
    obtain ⟨r, hr, rs, hrs, rfl⟩ := h
    obtain ⟨h1, h2⟩ := mapM_toType ts rs hrs
    unfold SymRef.toType at hr
    simp only [Option.bind_eq_bind, Option.bind_eq_some_iff, Option.pure_def, Option.some.injEq] at hr
    obtain ⟨_, _, rfl⟩ := hr
    refine ⟨by simp [h1], fun x hx => ?_⟩
    rcases List.mem_cons.1 hx with rfl | hx
    · rfl
    · exact h2 x hx

/-- **C75, caught exceptions.** At `catch (types $v)` the types between the parentheses, in their order, are all that is known of
the variable, by their names only; nothing of what was known of it before is left; all other variables, all symbols and all places
that were recorded are as they were, and the block is walked next. -/
theorem C75_catch (U : Unicode) (H : HashOrder) (file : NodeId) (fuel : Nat) (token op cp v : Token) (types : List Node) (body : Node)
    (parent : NodeId) (label : Text) (s s' : Env) (a : NextAction) (h : s.Lives) (hl : v.label = some label)
    (hs : s.resolver.localScopes ≠ [])
    (e : visitName U H file fuel (.catchBlock token op types v cp body) parent s = .ok (a, s')) :
    (s'.known label).map (·.typeRef) = types.flatMap getTypeRef ∧ (∀ r ∈ s'.known label, r.node = none) ∧
      (∃ n, s'.stands label = some n ∧ ¬ s.arena.Live n) ∧ (∀ other, other ≠ label → s'.stands other = s.stands other) ∧
      s'.resolver.localScopes.tail = s.resolver.localScopes.tail ∧ (∀ f, s'.resolver.refsOf f = s.resolver.refsOf f) ∧
      (∀ n, s.arena.Live n → s'.arena.get? n = s.arena.get? n) ∧ a = .processChildren parent := by
  unfold visitName at e
  dsimp only at e
  obtain ⟨ts, hts, e⟩ := Out.bind_eq_ok e
  obtain ⟨w, hw, e⟩ := Out.bind_eq_ok e
  obtain ⟨n, hn, e⟩ := Out.bind_eq_ok e
  obtain ⟨t, ht, e⟩ := Out.bind_eq_ok e
  cases e
  have hts := Out.ofOption_ok hts
  unfold addVar at hn
  obtain ⟨x, hx, hn⟩ := Out.bind_eq_ok hn
  have hx := Out.ofOption_ok hx
  cases hn
  unfold declareOver Resolver.declareOrOverwriteLocal at ht
  cases hsc : s.resolver.localScopes with
  | nil => exact absurd hsc hs
  | cons top rest =>
    dsimp only at ht
    rw [hl, hsc] at ht
    cases ht
    have h3 : ∀ l, stands { s with resolver := { s.resolver with localScopes := Dict.insert top label (s.arena.addChild s.resolver.scopeContainer { w with dataTypes := ts }).1 :: rest }, arena := (s.arena.addChild s.resolver.scopeContainer { w with dataTypes := ts }).2 } l = if label = l then some (s.arena.addChild s.resolver.scopeContainer { w with dataTypes := ts }).1 else s.stands l := by
      intro l
      have : s.stands l = Dict.get? top l := by simp only [stands, hsc]; rfl
      rw [this, ← Dict.get?_insert]
      rfl
    have hk := known_of ((h3 label).trans (if_pos rfl)) (get?_addChild_new h.arena hx { w with dataTypes := ts })
    obtain ⟨h1, h2⟩ := mapM_toType _ _ hts
    dsimp only at hk ⊢
    rw [hk]
    refine ⟨h1, h2, ⟨_, (h3 label).trans (if_pos rfl), ?_⟩, fun o ho => (h3 o).trans (if_neg (Ne.symm ho)), by simp,
      fun _ => rfl, fun m hm => get?_addChild_old h.arena hx _ hm, rfl⟩
    intro hlive
    obtain ⟨u, z, hu⟩ := hlive.has
    exact hu.ne_fresh h.arena rfl

/-- **C75, uses of a variable whose types are known by name.** If the first type that is known of a variable is only a name, a use of
the variable records the place and then looks for the class of this name; if there is one, this class is what the use leads to. -/
theorem C75_use_named (U : Unicode) (H : HashOrder) (file : NodeId) (fuel : Nat) (w : Token) (label : Text) (ref : SymRef)
    (rest : List SymRef) (s s' : Env) (o : Option NodeId) (hl : w.label = some label) (ht : label ≠ c!"this")
    (hk : s.known label = ref :: rest) (hd : ref.node = none)
    (e : memberType U H file fuel s (.variable w) = .ok (o, s')) :
    ∃ (s₁ : Env) (n : NodeId) (range : NodeRange) (c : Option NodeId) (s₂ : Env), s.stands label = some n ∧ w.range = some range ∧
      s₁ = { s with resolver := s.resolver.reference file ⟨range, n⟩ } ∧
      s₁.resolve U (fuel - 2) ref.typeRef n = .ok (c, s₂) ∧ ∀ d, c = some d → o = some d := by
  cases fuel with
  | zero => cases e
  | succ fuel =>
  unfold memberType at e
  obtain ⟨p, hp, e⟩ := Out.bind_eq_ok e
  cases fuel with
  | zero => cases hp
  | succ fuel =>
  unfold rootOf at hp
  dsimp only at hp
  rw [getLocal_stands hl ht] at hp
  unfold known at hk
  cases hs : s.stands label with
  | none => rw [hs] at hk; cases hk
  | some n =>
    rw [hs] at hk hp
    dsimp only at hp
    obtain ⟨s1, hs1, hp⟩ := Out.bind_eq_ok hp
    unfold refLocal Resolver.referenceLocal at hs1
    obtain ⟨r, hr, hs1⟩ := Out.bind_eq_ok hs1
    obtain ⟨range, hrange, hr⟩ := Out.bind_eq_ok hr
    cases hr
    cases hs1
    rw [hl] at hp
    dsimp only at hp
    rw [if_neg ht] at hp
    obtain ⟨sym, hsym, hp⟩ := Out.bind_eq_ok hp
    have hsym := Out.ofOption_ok hsym
    rw [Option.bind_some, hsym] at hk
    have hk : sym.dataTypes = ref :: rest := hk
    rw [hk] at hp
    simp only [variableType, hd] at hp
    obtain ⟨q, hq, hp⟩ := Out.bind_eq_ok hp
    obtain ⟨⟨c, s₂⟩, hc, hq⟩ := Out.bind_eq_ok hq
    refine ⟨_, n, range, c, s₂, rfl, Out.ofOption_ok hrange, rfl, hc, fun d hd => ?_⟩
    subst hd
    cases hq
    cases hp
    dsimp only at e
    obtain ⟨_, _, e⟩ := Out.bind_eq_ok e
    obtain ⟨_, _, e⟩ := Out.bind_eq_ok e
    obtain ⟨_, _, e⟩ := Out.bind_eq_ok e
    cases e
    rfl

/-- **C75, what was caught.** Inside of `catch (T | … $v)` a use of the variable leads to the class that the name `T` stands for there,
if there is one, whatever was known of the variable before. -/
theorem C75_caught (U : Unicode) (H : HashOrder) (file : NodeId) (fuel fuel' : Nat) (token op cp v w : Token) (types : List Node)
    (body : Node) (parent : NodeId) (label : Text) (t : TypeRef) (ts : List TypeRef) (s s' s'' : Env) (a : NextAction)
    (o : Option NodeId) (h : s.Lives) (hl : v.label = some label) (hw : w.label = some label) (ht : label ≠ c!"this")
    (hs : s.resolver.localScopes ≠ []) (htypes : types.flatMap getTypeRef = t :: ts)
    (e : visitName U H file fuel (.catchBlock token op types v cp body) parent s = .ok (a, s'))
    (e' : memberType U H file fuel' s' (.variable w) = .ok (o, s'')) :
    ∃ (s₁ : Env) (n : NodeId) (range : NodeRange) (c : Option NodeId) (s₂ : Env), s'.stands label = some n ∧ w.range = some range ∧
      s₁ = { s' with resolver := s'.resolver.reference file ⟨range, n⟩ } ∧
      s₁.resolve U (fuel' - 2) t n = .ok (c, s₂) ∧ ∀ d, c = some d → o = some d := by
  obtain ⟨h1, h2, _⟩ := C75_catch U H file fuel token op cp v types body parent label s s' a h hl hs e
  rw [htypes] at h1
  cases hk : s'.known label with
  | nil => rw [hk] at h1; cases h1
  | cons ref rest =>
    rw [hk] at h1 h2
    have := C75_use_named U H file fuel' w label ref rest s' s'' o hw ht hk (h2 ref (by simp)) e'
    rwa [show ref.typeRef = t from (List.cons.inj h1).1] at this

/-- A state at the top of a file with two variables, at which `catch (A $x)` is met: what is known of `$x` before and behind it, and
what the use of `$x` then leads to. -/
private def caught : Out (List (Bool × Nat × List Nat) × List Nat) := do
  let st ← startWith [(c!"a.php", c!"<?php class A { public $a; } class B { public $b; }")]
  let file ← .ofOption (Dict.get? st.files c!"a.php")
  let tok (col : Nat) (t : TT) (l : Option Text) : Token := ⟨col, 5, t, l, none⟩
  let s : Env := ⟨st.arena, { Resolver.new st.globals file with localScopes := [[]] }⟩
  let s1 ← visitAssignment Unicode.ascii HashOrder.id file 9 (.variable (tok 0 .variable (some c!"x")))
    (.newExpr (tok 5 .kwNew none) (.typeRef (.one [tok 9 .identifier (some c!"B")]))) s
  let p ← visitName Unicode.ascii HashOrder.id file 9
    (.catchBlock (tok 20 .kwCatch none) (tok 26 .openParenthesis none) [.typeRef (.one [tok 27 .identifier (some c!"A")])]
      (tok 30 .variable (some c!"x")) (tok 32 .closeParenthesis none) (.missing (tok 33 .semicolon none))) file s1
  let q ← memberType Unicode.ascii HashOrder.id file 9 p.2 (.variable (tok 40 .variable (some c!"x")))
  let see (s : Env) := (livesB s, (s.known c!"x").length, ((s.known c!"x").filterMap (·.node)).map (·.idx))
  pure ([see s1, see p.2, see q.2], q.1.toList.map (·.idx))

private def seenCaught : Option (List (Bool × Nat × List Nat) × List Nat) :=
  match caught with
  | .ok p => some p
  | _ => none

/-- `B` was known of `$x`, then one type by its name, and the use leads to `A`. -/
example : seenCaught = some ([(true, 1, [4]), (true, 1, []), (true, 1, [])], [1]) := by
  decide +kernel

/-- In whole files: in a caught exception of type `A` only the unknown name `b` is reported, also if the variable was
something else before, and for a class that does not exist the class and both names are. -/
example :
    errorsAt c!"<?php class A { public $a; } try { } catch (A $x) { $x->a; $x->b; }" = some [63] ∧
    errorsAt c!"<?php class A { public $a; } class B {public $b;} $x = new A; try { } catch (B $x) { $x->a; $x->b; }" = some [89] ∧
    errorsAt c!"<?php class A { public $a; } try { } catch (Missing $x) { $x->a; $x->b; }" = some [44, 62, 69] := by
  decide +kernel

/-- **C75 fails for more than one type of an exception:** in `catch (A | B $x)` a property of `B` is reported as unknown. -/
theorem C75_violated_caught :
    errorsAt c!"<?php class A { public $a; } class B {public $b;} try { } catch (A | B $x) { $x->a; $x->b; }" = some [88] := by
  decide +kernel

end PhpLs.Env
