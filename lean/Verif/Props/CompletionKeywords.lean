import Verif.Props.CompletionNames

/-!
# C61: where keywords are offered
-/

namespace PhpLs.Suggester

open Out

/-! ## Specification -/

/-- A class. -/
def IsClass (n : Node) : Prop := ∃ a b c d e f g i j, n = .classStatement a b c d e f g i j

/-- A block `{ … }`. -/
def IsBlock (n : Node) : Prop := ∃ o s c, n = .block o s c

/-- The innermost class or block among the nodes around the cursor (given from the outside to the inside) is a class, or a block
that belongs to a class. -/
def InClassBlock (around : List Node) : Prop :=
  ∃ outer x inner, around = outer ++ x :: inner ∧ (∀ y ∈ inner, ¬ IsClass y ∧ ¬ IsBlock y) ∧
    (IsClass x ∨ IsBlock x ∧ ∃ outer' k, outer = outer' ++ [k] ∧ IsClass k)

/-- Nodes for which something else than keywords is offered: imports, traits, variables, members. -/
inductive Names : Node → Prop
  | useTrait (t : Node) : Names (.useTrait t)
  | groupedUse (a : Token) (p : Node) (b : Token) (l : List Node) (c : Token) : Names (.groupedUse a p b l c)
  | useDeclaration (a : Option Token) (d : Node) (b : Option Token) (c : Option Token) : Names (.useDeclaration a d b c)
  | variable (t : Token) : Names (.variable t)
  | aliasedVariable (t : Token) (e : Node) : Names (.aliasedVariable t e)
  | missing (t : Token) : Names (.missing t)
  | literal (t : Token) : Names (.literal t)
  | member (o : Node) (a : Token) (b : Option Token) (m : Node) (c : Option Token) : Names (.member o a b m c)

/-- The keywords that are to be offered: those that begin a declaration on the top level of a file, where there is no node, and
those for the visibility in a class. -/
inductive Fitting (trigger : Option Char) (kind : Option SymbolKind) : Option (Node × List Node) → TT → Prop
  | top (t : TT) (h : trigger ≠ some '$') (hk : kind = some .file)
      (ht : t ∈ [TT.kwNamespace, .kwUse, .kwClass, .kwFunction, .kwConst, .kwTrait, .kwInterface]) : Fitting trigger kind none t
  | member (n : Node) (path : List Node) (t : TT) (hn : ¬ Names n) (hc : InClassBlock path.dropLast)
      (ht : t ∈ [TT.kwPublic, .kwPrivate, .kwProtected]) : Fitting trigger kind (some (n, path)) t

/-! ## Proof -/

/-- As `InClassBlock`, from the inside to the outside. -/
private def Inside (l : List Node) : Prop :=
  ∃ inner x outer, l = inner ++ x :: outer ∧ (∀ y ∈ inner, ¬ IsClass y ∧ ¬ IsBlock y) ∧
    (IsClass x ∨ IsBlock x ∧ ∃ k outer', outer = k :: outer' ∧ IsClass k)

private theorem inside_cons {n : Node} {l : List Node} (h1 : ¬ IsClass n) (h2 : ¬ IsBlock n) : Inside (n :: l) ↔ Inside l := by
  constructor
  · rintro ⟨inner, x, outer, e, hi, hx⟩
    cases inner with
    | nil =>
      cases e
      rcases hx with hx | hx
      · exact absurd hx h1
      · exact absurd hx.1 h2
    | cons y inner =>
      cases e
      exact ⟨inner, x, outer, rfl, fun z hz => hi z (List.mem_cons_of_mem _ hz), hx⟩
  · rintro ⟨inner, x, outer, rfl, hi, hx⟩
    refine ⟨n :: inner, x, outer, rfl, ?_, hx⟩
    intro z hz
    rcases List.mem_cons.1 hz with rfl | hz
    · exact ⟨h1, h2⟩
    · exact hi z hz

private theorem inside_head {n : Node} {l : List Node} (h : IsClass n ∨ IsBlock n) :
    Inside (n :: l) ↔ IsClass n ∨ IsBlock n ∧ ∃ k l', l = k :: l' ∧ IsClass k := by
  constructor
  · rintro ⟨inner, x, outer, e, hi, hx⟩
    cases inner with
    | nil => cases e; exact hx
    | cons y inner =>
      cases e
      have := hi n List.mem_cons_self
      rcases h with h | h
      · exact absurd h this.1
      · exact absurd h this.2
  · intro hx
    exact ⟨[], n, l, rfl, (fun _ h => nomatch h), hx⟩

private theorem inClassBlock_inside : ∀ l : List Node, inClassBlock l = true ↔ Inside l := by
  intro l
  fun_induction inClassBlock l with
  | case1 => simp [Inside]
  | case2 => exact ⟨fun _ => (inside_head (.inl ⟨_, _, _, _, _, _, _, _, _, rfl⟩)).2 (.inl ⟨_, _, _, _, _, _, _, _, _, rfl⟩), fun _ => rfl⟩
  | case3 => exact ⟨fun _ => (inside_head (.inr ⟨_, _, _, rfl⟩)).2 (.inr ⟨⟨_, _, _, rfl⟩, _, _, rfl, _, _, _, _, _, _, _, _, _, rfl⟩), fun _ => rfl⟩
  | case4 r o s c h =>
    rw [inside_head (.inr ⟨_, _, _, rfl⟩)]
    constructor
    · intro e; cases e
    · rintro (⟨_, _, _, _, _, _, _, _, _, e⟩ | ⟨-, k, l', rfl, ⟨_, _, _, _, _, _, _, _, _, rfl⟩⟩)
      · cases e
      · exact (h _ _ _ _ _ _ _ _ _ _ rfl).elim
  | case5 n r h1 h2 h3 ih =>
    rw [ih, inside_cons]
    · rintro ⟨_, _, _, _, _, _, _, _, _, rfl⟩; exact h1 _ _ _ _ _ _ _ _ _ rfl
    · rintro ⟨_, _, _, rfl⟩; exact h3 _ _ _ rfl

private theorem inClassBlock_iff (l : List Node) : inClassBlock l.reverse = true ↔ InClassBlock l := by
  rw [inClassBlock_inside]
  constructor
  · rintro ⟨inner, x, outer, e, hi, hx⟩
    refine ⟨outer.reverse, x, inner.reverse, ?_, fun y hy => hi y (List.mem_reverse.1 hy), ?_⟩
    · rw [← List.reverse_reverse l, e]; simp
    · rcases hx with hx | ⟨hx, k, o, rfl, hk⟩
      · exact .inl hx
      · exact .inr ⟨hx, o.reverse, k, by simp, hk⟩
  · rintro ⟨outer, x, inner, rfl, hi, hx⟩
    refine ⟨inner.reverse, x, outer.reverse, by simp, fun y hy => hi y (List.mem_reverse.1 hy), ?_⟩
    rcases hx with hx | ⟨hx, o, k, rfl, hk⟩
    · exact .inl hx
    · exact .inr ⟨hx, k, o.reverse, by simp, hk⟩

/-- No keyword is among the suggestions. -/
private def NoKeyword (l : List Suggestion) : Prop := ∀ s ∈ l, s.token = none

private theorem variables_none (a : Arena Symbol) (cursor : NodeId) : OkThat NoKeyword (variablesOf a cursor) := by
  intro l hl s hs
  obtain ⟨cs, -, c, -, h⟩ := C58_variables_partial a cursor l hl
  rcases (h s).1 hs with ⟨n, t, -, -, rfl⟩ | ⟨n, -, rfl⟩ <;> rfl

private theorem members_none (h : Host) (trigger : Option Char) (node parent : Node) (a : Arena Symbol) (globals : Dict Text NodeId)
    (cursor : NodeId) (refs : FileRefs) : OkThat NoKeyword (membersOfSymbol h trigger node parent a globals cursor refs) := by
  intro l hl s hs
  rcases C47_offered_partial h trigger node parent a globals cursor refs l hl with ⟨rfl, _⟩ | ⟨_, _, _, _, _, _, _, _, _, _, _, _, _, _, hm⟩
  · cases hs
  · obtain ⟨_, _, _, _, _, _, _, _, _, _, _, rfl⟩ := (hm s).1 hs
    rfl

/-- **C61** — a keyword is offered exactly where `Fitting` says, where `findIn` gives the node at the cursor and the nodes around
it (C46). -/
theorem C61_keywords (h : Host) (trigger : Option Char) (position : Pos) (cursor : NodeId) (ast : List Node) (a : Arena Symbol)
    (globals : Dict Text NodeId) (refs : FileRefs) :
    OkThat (fun l => ∃ o, findIn position h.fuel ast = .ok o ∧ ∀ t, (∃ s ∈ l, s.token = some t) ↔ Fitting trigger ((a.get? cursor).map (·.kind)) o t)
      (suggestionsAt h trigger position cursor ast a globals refs) := by
  unfold suggestionsAt
  intro l hl
  obtain ⟨o, ho, hl⟩ := Out.bind_eq_ok hl
  refine ⟨o, ho, fun t => ?_⟩
  have none_of : ∀ {f : Prop}, NoKeyword l → ¬ f → ((∃ s ∈ l, s.token = some t) ↔ f) := by
    intro f hn hf
    refine ⟨?_, fun h => absurd h hf⟩
    rintro ⟨s, hs, e⟩
    rw [hn s hs] at e
    cases e
  cases o with
  | none =>
    simp only at hl
    split at hl
    · next hd =>
      refine none_of (variables_none a cursor l hl) ?_
      rintro ⟨_, hd', _, _⟩
      exact hd' hd
    · next hd =>
      unfold keywords at hl
      obtain ⟨s, hs, hl⟩ := Out.bind_eq_ok hl
      have hs := Out.ofOption_ok hs
      split at hl
      · next hk =>
        cases hl
        constructor
        · rintro ⟨x, hx, e⟩
          obtain ⟨y, hy, rfl⟩ := List.mem_map.1 hx
          cases e
          exact .top _ hd (by rw [hs]; simp [hk]) hy
        · rintro ⟨_, _, _, ht⟩
          exact ⟨.ofToken t, List.mem_map.2 ⟨t, ht, rfl⟩, rfl⟩
      · next hk =>
        cases hl
        refine none_of (fun _ h => nomatch h) ?_
        rintro ⟨_, _, hk', _⟩
        rw [hs] at hk'
        exact hk (by simpa using hk')
  | some p =>
    obtain ⟨n, path⟩ := p
    have names : Names n → NoKeyword l → ((∃ s ∈ l, s.token = some t) ↔ Fitting trigger ((a.get? cursor).map (·.kind)) (some (n, path)) t) := by
      intro hN hn
      refine none_of hn ?_
      rintro ⟨⟩
      rename_i hn' _ _
      exact hn' hN
    have mem : Names n → (do let parent ← Out.ofOption path.dropLast.getLast?; membersOfSymbol h trigger n parent a globals cursor refs) = .ok l →
        ((∃ s ∈ l, s.token = some t) ↔ Fitting trigger ((a.get? cursor).map (·.kind)) (some (n, path)) t) := by
      intro hN e
      obtain ⟨parent, -, e⟩ := Out.bind_eq_ok e
      exact names hN (members_none h trigger n parent a globals cursor refs l e)
    simp only at hl
    split at hl
    · refine names (.useTrait _) fun s hs => ?_
      obtain ⟨_, _, hx⟩ := C58_traits _ _ _ _ _ l hl
      obtain ⟨_, _, _, _, _, _, _, _, _, rfl⟩ := (hx s).1 hs
      rfl
    · refine names (.groupedUse _ _ _ _ _) fun s hs => ?_
      obtain ⟨_, _, hx⟩ := C58_imports _ _ _ l hl
      obtain ⟨_, _, _, _, _, _, rfl⟩ := (hx s).1 hs
      rfl
    · refine names (.useDeclaration _ _ _ _) fun s hs => ?_
      obtain ⟨_, _, hx⟩ := C58_imports _ _ _ l hl
      obtain ⟨_, _, _, _, _, _, rfl⟩ := (hx s).1 hs
      rfl
    · exact names (.variable _) (variables_none a cursor l hl)
    · exact names (.aliasedVariable _ _) (variables_none a cursor l hl)
    · exact mem (.missing _) hl
    · exact mem (.literal _) hl
    · exact mem (.member _ _ _ _ _) hl
    · rename_i g1 g2 g3 g4 g5 g6 g7 g8
      have hN : ¬ Names n := by
        intro hN
        cases hN
        · exact g1 _ rfl
        · exact g2 _ _ _ _ _ rfl
        · exact g3 _ _ _ _ rfl
        · exact g4 _ rfl
        · exact g5 _ _ rfl
        · exact g6 _ rfl
        · exact g7 _ rfl
        · exact g8 _ _ _ _ _ rfl
      split at hl
      · next hc =>
        cases hl
        constructor
        · rintro ⟨x, hx, e⟩
          obtain ⟨y, hy, rfl⟩ := List.mem_map.1 hx
          cases e
          exact .member _ _ _ hN ((inClassBlock_iff _).1 hc) hy
        · rintro ⟨⟩
          rename_i ht
          exact ⟨.ofToken t, List.mem_map.2 ⟨t, ht, rfl⟩, rfl⟩
      · next hc =>
        refine none_of ?_ ?_
        · intro s hs
          obtain ⟨_, _, hx⟩ := C58_names _ _ _ _ l hl
          obtain ⟨_, _, _, _, _, _, _, _, rfl⟩ := (hx s).1 hs
          rfl
        · rintro ⟨⟩
          rename_i hc' _
          exact hc ((inClassBlock_iff _).2 hc')

end PhpLs.Suggester

namespace PhpLs.Backend

/-- Runs that meet the hypotheses: an empty class, and the top level of a file. -/
theorem C61_case : offers c!"<?php class A {  }" ⟨0, 16⟩ none = .ok (some [c!"public", c!"private", c!"protected"]) ∧
    offers c!"<?php  $x = 1;" ⟨0, 6⟩ none =
      .ok (some [c!"namespace", c!"use", c!"class", c!"function", c!"const", c!"trait", c!"interface"]) := by decide +kernel

/-- **C61** is violated: in an empty method only the keywords for the visibility are offered, which may not stand there, because the
nearest block outside of the method is that of the class. -/
theorem C61_violated_method : offers c!"<?php class A { function f() {  } }" ⟨0, 31⟩ none =
    .ok (some [c!"public", c!"private", c!"protected"]) := by decide +kernel

/-- **C61** is violated: they are offered instead of classes for the type of a parameter, and behind `extends`. -/
theorem C61_violated_types : offers c!"<?php class A { function f(F $x) { } }" ⟨0, 28⟩ none =
      .ok (some [c!"public", c!"private", c!"protected"]) ∧
    offers c!"<?php class A extends B {  }" ⟨0, 22⟩ none = .ok (some [c!"public", c!"private", c!"protected"]) := by decide +kernel

/-- **C61** is violated: they are not offered in a trait. -/
theorem C61_violated_trait : offers c!"<?php trait A {  }" ⟨0, 16⟩ none = .ok (some [c!"A"]) := by decide +kernel

end PhpLs.Backend
