import Verif.Props.CompletionMembers

/-!
# C58, C59: completion of names, and the imports that it adds
-/

namespace PhpLs.Suggester

open Out

/-- C58, imports.  Behind `use` exactly the global symbols are offered whose full name begins with the typed one, regardless of
case; the typed name is what the chosen one replaces. -/
theorem C58_imports (h : Host) (globals : Dict Text NodeId) (declaration : Node) :
    OkThat (fun l => ∃ typed, declaration.name = some typed ∧ ∀ x, x ∈ l ↔ ∃ k n r, (k, n) ∈ globals ∧ h.U.lower typed <+: k ∧
      declaration.range = some r ∧ x = .ofNode n .import (some r)) (importsStarting h globals declaration) := by
  unfold importsStarting
  refine OkThat.bindOption fun pre hpre => ?_
  unfold normalizedName at hpre
  rw [Option.map_eq_some_iff] at hpre
  obtain ⟨typed, ht, rfl⟩ := hpre
  intro l hl
  refine ⟨typed, ht, fun x => ?_⟩
  have := (collect_mem (step := fun e : Text × NodeId =>
      if (h.U.lower typed).isPrefixOf e.1 then do
        let r ← Out.ofOption declaration.range
        .ok (some (Suggestion.ofNode e.2 .import (some r)))
      else .ok none) ?_ _ _ l hl).2 x
  · rw [this]
    simp only [List.not_mem_nil, false_or]
    constructor
    · rintro ⟨e, he, hx⟩
      by_cases hp : (h.U.lower typed).isPrefixOf e.1 = true
      · rw [if_pos hp] at hx
        obtain ⟨r, hr, hx⟩ := Out.bind_eq_ok hx
        injection hx with hx
        injection hx with hx
        exact ⟨e.1, e.2, r, (h.H.perm _).mem_iff.1 he, List.isPrefixOf_iff_prefix.1 hp, Out.ofOption_ok hr, hx.symm⟩
      · rw [if_neg hp] at hx
        cases hx
    · rintro ⟨k, n, r, hm, hp, hr, rfl⟩
      refine ⟨(k, n), (h.H.perm _).mem_iff.2 hm, ?_⟩
      rw [if_pos (List.isPrefixOf_iff_prefix.2 hp), hr]
      rfl
  · intro acc e
    split
    · cases declaration.range <;> rfl
    · simp

/-- The steps of the two functions that look at the symbols. -/
private theorem named_exact {h : Host} {a : Arena Symbol} {globals : Dict Text NodeId} {typed : Text} {range : Option NodeRange}
    {role : SuggestionContext} {ok : Symbol → Bool} {f : List Suggestion → Text × NodeId → Out (List Suggestion)}
    (hf : ∀ acc e, f acc e = (do
      let s ← Out.ofOption (a.get? e.2)
      if ok s && (h.U.lower typed).isPrefixOf (s.normalizedName h.U) then do
        let r ← Out.ofOption range
        .ok (acc ++ [.ofNode e.2 role (some r)])
      else .ok acc)) {l : List Suggestion} (hl : (h.H.order globals).foldlM f [] = .ok l) (x : Suggestion) :
    x ∈ l ↔ ∃ k n s r, (k, n) ∈ globals ∧ a.get? n = some s ∧ ok s = true ∧ h.U.lower typed <+: h.U.lower s.plainName ∧
      range = some r ∧ x = .ofNode n role (some r) := by
  have := (collect_mem (step := fun e : Text × NodeId => do
      let s ← Out.ofOption (a.get? e.2)
      if ok s && (h.U.lower typed).isPrefixOf (s.normalizedName h.U) then do
        let r ← Out.ofOption range
        .ok (some (Suggestion.ofNode e.2 role (some r)))
      else .ok none) ?_ _ _ l hl).2 x
  · rw [this]
    simp only [List.not_mem_nil, false_or]
    constructor
    · rintro ⟨e, he, hx⟩
      obtain ⟨s, hs, hx⟩ := Out.bind_eq_ok hx
      by_cases hp : (ok s && (h.U.lower typed).isPrefixOf (s.normalizedName h.U)) = true
      · rw [if_pos hp] at hx
        obtain ⟨r, hr, hx⟩ := Out.bind_eq_ok hx
        injection hx with hx
        injection hx with hx
        rw [Bool.and_eq_true] at hp
        exact ⟨e.1, e.2, s, r, (h.H.perm _).mem_iff.1 he, Out.ofOption_ok hs, hp.1, List.isPrefixOf_iff_prefix.1 hp.2,
          Out.ofOption_ok hr, hx.symm⟩
      · rw [if_neg hp] at hx
        cases hx
    · rintro ⟨k, n, s, r, hm, hs, ho, hp, hr, rfl⟩
      refine ⟨(k, n), (h.H.perm _).mem_iff.2 hm, ?_⟩
      simp only [hs, Out.ofOption_some, Out.bind_ok]
      rw [if_pos (by rw [Bool.and_eq_true]; exact ⟨ho, List.isPrefixOf_iff_prefix.2 hp⟩), hr]
      rfl
  · intro acc e
    rw [hf]
    cases a.get? e.2 with
    | none => rfl
    | some s =>
      simp only [Out.ofOption_some, Out.bind_ok]
      split
      · cases range <;> rfl
      · simp

/-- C58, traits.  Behind `use` in a class exactly the traits are offered whose name begins with the typed one. -/
theorem C58_traits (h : Host) (globals : Dict Text NodeId) (declaration : Node) (a : Arena Symbol) (node : Node) :
    OkThat (fun l => ∃ typed, declaration.name = some typed ∧ ∀ x, x ∈ l ↔ ∃ k n s r, (k, n) ∈ globals ∧ a.get? n = some s ∧
      s.kind = .trait ∧ h.U.lower typed <+: h.U.lower s.plainName ∧ node.range = some r ∧ x = .ofNode n .traitUsage (some r))
      (traitsStarting h globals declaration a node) := by
  unfold traitsStarting
  refine OkThat.bindOption fun pre hpre => ?_
  unfold normalizedName at hpre
  rw [Option.map_eq_some_iff] at hpre
  obtain ⟨typed, ht, rfl⟩ := hpre
  intro l hl
  refine ⟨typed, ht, fun x => ?_⟩
  have := named_exact (h := h) (typed := typed) (ok := fun s => decide (s.kind = .trait)) (range := node.range) (role := .traitUsage)
    (a := a) ?_ hl x
  · simpa using this
  · intro acc e
    cases a.get? e.2 with
    | none => rfl
    | some s =>
      simp only [Out.ofOption_some, Out.bind_ok]
      by_cases hk : s.kind = .trait <;> simp [hk]

/-- C58, names.  Where any name may stand, exactly the global symbols are offered whose name (without the namespace) begins with
the typed one. -/
theorem C58_names (h : Host) (globals : Dict Text NodeId) (a : Arena Symbol) (node : Node) :
    OkThat (fun l => ∃ typed, node.name = some typed ∧ ∀ x, x ∈ l ↔ ∃ k n s r, (k, n) ∈ globals ∧ a.get? n = some s ∧
      h.U.lower typed <+: h.U.lower s.plainName ∧ node.range = some r ∧ x = .ofNode n .unknown (some r))
      (symbolsStarting h globals a node) := by
  unfold symbolsStarting
  refine OkThat.bindOption fun pre hpre => ?_
  unfold normalizedName at hpre
  rw [Option.map_eq_some_iff] at hpre
  obtain ⟨typed, ht, rfl⟩ := hpre
  intro l hl
  refine ⟨typed, ht, fun x => ?_⟩
  have := named_exact (h := h) (typed := typed) (ok := fun _ => true) (range := node.range) (role := .unknown) (a := a) ?_ hl x
  · simpa using this
  · intro acc e
    cases a.get? e.2 with
    | none => rfl
    | some s => simp

/-- C58, variables, the part that holds: what is offered are exactly the variables and parameters that are declared right in the
symbol under the cursor, and `$this` if there is a class around.  Missing: that this symbol is the function the cursor is in
(`C58_violated_statement`), and that `$this` exists there (`C58_violated_static`). -/
theorem C58_variables_partial (a : Arena Symbol) (scope : NodeId) :
    OkThat (fun l => ∃ cs, a.children? scope = some cs ∧ ∃ c, ClassAround a scope c ∧ ∀ x, x ∈ l ↔
      (∃ n s, (n, s) ∈ cs ∧ (s.kind = .variable ∨ s.kind = .functionParameter) ∧ x = .ofNode n .reference none) ∨
      ∃ n, c = some n ∧ x = .this n .reference) (variablesOf a scope) := by
  unfold variablesOf
  refine OkThat.bindOption fun cs hcs => ?_
  refine OkThat.bindOption fun l hl => ?_
  refine (nearestClass_around hl).bind fun c hc => ?_
  have hv : ∀ x, x ∈ cs.filterMap (fun c => if c.2.kind = .variable ∨ c.2.kind = .functionParameter then
      some (Suggestion.ofNode c.1 .reference none) else none) ↔
      ∃ n s, (n, s) ∈ cs ∧ (s.kind = .variable ∨ s.kind = .functionParameter) ∧ x = .ofNode n .reference none := by
    intro x
    rw [List.mem_filterMap]
    constructor
    · rintro ⟨e, he, hx⟩
      by_cases hk : e.2.kind = .variable ∨ e.2.kind = .functionParameter
      · rw [if_pos hk] at hx
        injection hx with hx
        exact ⟨e.1, e.2, he, hk, hx.symm⟩
      · rw [if_neg hk] at hx
        cases hx
    · rintro ⟨n, s, hm, hk, rfl⟩
      exact ⟨(n, s), hm, if_pos hk⟩
  cases c with
  | none => exact OkThat.ok ⟨cs, hcs, none, hc, fun x => by rw [hv x]; simp⟩
  | some c => exact OkThat.ok ⟨cs, hcs, some c, hc, fun x => by rw [List.mem_append, hv x]; simp⟩

end PhpLs.Suggester

namespace PhpLs.Backend

open Out

/-- A class is known in a file by its own name: it is imported under the full name. -/
def Imported (file : Symbol) (fqdn : Text) : Prop := ∃ l, file.imports = some l ∧ ∃ i ∈ l, i.fullName = some fqdn

private theorem hasImport_spec (fqdn : Text) : ∀ l, OkThat (fun b => b = true ↔ ∃ i ∈ l, SymbolImport.fullName i = some fqdn)
    (hasImport fqdn l)
  | [] => OkThat.ok (by simp)
  | i :: l => by
    unfold hasImport
    refine OkThat.bindOption fun n hn => ?_
    by_cases he : n = fqdn
    · rw [if_pos he]
      exact OkThat.ok (by simp [hn, he])
    · rw [if_neg he]
      refine (hasImport_spec fqdn l).mono fun b hb => ?_
      rw [hb]
      simp [hn, he]

/-- The line where an import is put: that of the first import, or the fourth one. -/
inductive ImportAt (file : Symbol) : Nat → Prop where
  | first {i : SymbolImport} {l : List SymbolImport} {r : NodeRange} : file.imports = some (i :: l) → i.path.range = some r →
      ImportAt file r.startLine
  | fourth : file.imports.getD [] = [] → ImportAt file 3

private theorem importLine_spec (fqdn : Text) (file : Symbol) :
    OkThat (fun o => (o = none ↔ Imported file fqdn) ∧ ∀ line, o = some line → ImportAt file line) (importLine fqdn file) := by
  unfold importLine Imported
  cases hi : file.imports with
  | none => exact OkThat.ok ⟨by simp, fun line e => by cases e; exact .fourth (by rw [hi]; rfl)⟩
  | some l =>
    simp only
    refine (hasImport_spec fqdn l).bind fun b hb => ?_
    cases b with
    | true => exact OkThat.ok ⟨by simpa using hb, fun _ e => nomatch e⟩
    | false =>
      have hb' : ¬ ∃ i ∈ l, SymbolImport.fullName i = some fqdn := fun h => nomatch hb.2 h
      cases l with
      | nil => exact OkThat.ok ⟨by simp, fun line e => by cases e; exact .fourth (by rw [hi]; rfl)⟩
      | cons i l =>
        refine OkThat.bindOption fun r hr => OkThat.ok ⟨?_, fun line e => by cases e; exact .first hi hr⟩
        simp only [reduceCtorEq, Option.some.injEq, exists_eq_left', false_iff]
        exact hb'

/-- C59, the part that holds.  A class or trait that is offered where a name may stand comes with an edit if and only if it has a
namespace, which is not that of the file symbol, and is not imported yet; the edit then adds one line with the `use` statement
in front of the first import or of the fourth line, and replaces nothing.  Missing: the namespace of the file (`C59_violated_namespace`) and the place (`C59_violated_first`, `C59_violated_place`). -/
theorem C59_import_partial {a : Arena Symbol} {file s : Symbol} {n : NodeId} {role : SuggestionContext} {replace : Option NodeRange}
    (hs : a.get? n = some s) (hk : s.kind = .cls ∨ s.kind = .trait) (hr : role ≠ .import) :
    OkThat (fun item => item.label = s.plainName ∧
      ((s.namespace = none ∨ s.namespace = file.namespace ∨ Imported file s.fqdn) → item.edits = []) ∧
      (s.namespace ≠ none → s.namespace ≠ file.namespace → ¬ Imported file s.fqdn →
        ∃ line, ImportAt file line ∧ item.edits = [(⟨⟨line, 0⟩, ⟨line, 0⟩⟩, c!"use " ++ s.fqdn ++ c!";\n")]))
      (completionItem a file (.ofNode n role replace)) := by
  unfold completionItem Suggestion.ofNode
  simp only [Bool.false_eq_true, if_false, Out.ofOption_some, Out.bind_ok, hs]
  rw [if_pos hk, if_neg hr]
  by_cases hn : s.namespace.isNone = true
  · rw [if_pos hn]
    exact OkThat.ok ⟨rfl, fun _ => rfl, fun h => absurd (Option.isNone_iff_eq_none.1 hn) h⟩
  · rw [if_neg hn]
    by_cases he : file.namespace = s.namespace
    · rw [if_pos he]
      exact OkThat.ok ⟨rfl, fun _ => rfl, fun _ h => absurd he.symm h⟩
    · rw [if_neg he]
      refine (importLine_spec s.fqdn file).bind fun o ho => ?_
      cases o with
      | none => exact OkThat.ok ⟨rfl, fun _ => rfl, fun _ _ h => absurd (ho.1.1 rfl) h⟩
      | some line =>
        refine OkThat.ok ⟨rfl, ?_, fun _ _ _ => ⟨line, ho.2 line rfl, rfl⟩⟩
        rintro (h | h | h)
        · exact absurd (Option.isNone_iff_eq_none.2 h) hn
        · exact absurd h.symm he
        · exact nomatch ho.1.2 h

/-- The labels and edits that are offered at a position of a text that is opened, in a workspace with another file. -/
def itemsOf (other text : Text) (position : Pos) (trigger : Option Char) : Out (Option (List CompletionItem)) := do
  let st ← initWorkspace plainHost [(c!"b.php", other), (c!"a.php", text)] empty
  let st ← didOpen plainHost c!"a.php" (some text) st
  st.completion plainHost trigger position c!"a.php"

/-- Runs that meet the hypotheses: names, imports, traits and variables. -/
example : itemsOf c!"<?php namespace App; class Foo {} trait Fum {}" c!"<?php\nuse App\\Foo;\nnew F" ⟨2, 5⟩ none =
      .ok (some [⟨c!"Fum", [(⟨⟨1, 0⟩, ⟨1, 0⟩⟩, c!"use App\\Fum;\n")]⟩, ⟨c!"Foo", []⟩]) ∧
    itemsOf c!"<?php namespace App; class Foo {} trait Fum {}" c!"<?php use App\\" ⟨0, 14⟩ none =
      .ok (some [⟨c!"App\\Fum", [(⟨⟨0, 10⟩, ⟨0, 14⟩⟩, [])]⟩, ⟨c!"App\\Foo", [(⟨⟨0, 10⟩, ⟨0, 14⟩⟩, [])]⟩]) ∧
    itemsOf c!"<?php trait Fum {} class Foo {}" c!"<?php class A { use F; }" ⟨0, 21⟩ none = .ok (some [⟨c!"Fum", []⟩]) ∧
    itemsOf [] c!"<?php function f($x) { $y = $; }" ⟨0, 29⟩ (some '$') =
      .ok (some [⟨c!"$x", []⟩, ⟨c!"$y", []⟩]) := by
  decide +kernel

/-- C58 is violated: at the beginning of a statement the variable that is typed is itself the symbol under the cursor, and none of
the variables of the function is offered. -/
theorem C58_violated_statement : itemsOf [] c!"<?php function f($x) { $a = 1; $; }" ⟨0, 32⟩ (some '$') = .ok (some []) := by
  decide +kernel

/-- C58 is violated: `$this` is offered in a static method. -/
theorem C58_violated_static : itemsOf [] c!"<?php class A { static function f($x) { $y = $; } }" ⟨0, 46⟩ (some '$') =
    .ok (some [⟨c!"$x", []⟩, ⟨c!"$y", []⟩, ⟨c!"$this", []⟩]) := by
  decide +kernel

/-- C59 is violated: the class is in the namespace of the file, and an import of it is added all the same. -/
theorem C59_violated_namespace : itemsOf c!"<?php namespace App; class Foo {}" c!"<?php namespace App; new F" ⟨0, 26⟩ none =
    .ok (some [⟨c!"Foo", [(⟨⟨3, 0⟩, ⟨3, 0⟩⟩, c!"use App\\Foo;\n")]⟩]) := by
  decide +kernel

/-- C59 is violated: if the first import is in the first line, the new one is put before it, and that is before `<?php`. -/
theorem C59_violated_first : itemsOf c!"<?php namespace App; class Foo {} trait Fum {}" c!"<?php use App\\Foo; new F" ⟨0, 24⟩ none =
    .ok (some [⟨c!"Fum", [(⟨⟨0, 0⟩, ⟨0, 0⟩⟩, c!"use App\\Fum;\n")]⟩, ⟨c!"Foo", []⟩]) := by
  decide +kernel

/-- C59 is violated: without other imports the new one is put before the fourth line, whatever that line is.  Here it is the second
line of a string. -/
theorem C59_violated_place : itemsOf c!"<?php namespace App; class Foo {}" c!"<?php\n\n'a\nb';\nnew F;" ⟨4, 5⟩ none =
    .ok (some [⟨c!"Foo", [(⟨⟨3, 0⟩, ⟨3, 0⟩⟩, c!"use App\\Foo;\n")]⟩]) := by
  decide +kernel

end PhpLs.Backend
