import Verif.Props.VariableOneChange

/-!
# C77: what the client is told

`C77_answers`: at any two places of a variable of a function the server leads to the same definition and makes the same edits for a
new name, provided that no other symbol is recorded at these places; `C77_answers_open`, `C77_answers_change`: behind the messages that
open and change a file.
-/

namespace PhpLs.Linked

open Out Env

/-! ## Specification -/

/-- At the position at most one symbol is recorded. -/
def Alone (p : Pos) (refs : FileRefs) : Prop :=
  ∀ e ∈ refs, ∀ e' ∈ refs, Backend.covers p e.2 = true → Backend.covers p e'.2 = true → e.1 = e'.1

/-- At the two positions the answers are the same. -/
def Alike (h : Host) (disk : Text → Option Text) (st : Backend) (path : Text) (p p' : Pos) : Prop :=
  Backend.gotoDefinition h.H st p path = Backend.gotoDefinition h.H st p' path ∧
  Backend.rename h disk p path st = Backend.rename h disk p' path st

/-! ## Lemmas -/

/-- The definition of the only symbol at a position. -/
theorem definitionIn_alone (a : Arena Symbol) (p : Pos) (sym : NodeId) : ∀ (l : List (NodeId × List NodeRange)),
    (∀ e ∈ l, Backend.covers p e.2 = true → e.1 = sym) →
    Backend.definitionIn a p l = if l.any (fun e => Backend.covers p e.2) then Out.ofOption (Backend.symbolLocation a sym) else .ok none
  | [], _ => rfl
  | e :: l, h => by
    have ih := definitionIn_alone a p sym l fun d hd => h d (List.mem_cons_of_mem _ hd)
    unfold Backend.definitionIn
    rw [List.any_cons]
    cases hc : Backend.covers p e.2 with
    | false =>
      rw [if_neg (by simp), ih]
      rfl
    | true =>
      rw [h e List.mem_cons_self hc, if_pos rfl, Bool.true_or, if_pos rfl]
      cases hl : Backend.symbolLocation a sym with
      | none => rfl
      | some o =>
        cases o with
        | some loc => rfl
        | none =>
          show Backend.definitionIn a p l = .ok none
          rw [ih, hl]
          split <;> rfl

theorem referenced_alone {H : HashOrder} {p : Pos} {sym : NodeId} {refs : FileRefs}
    (h : ∀ e ∈ refs, Backend.covers p e.2 = true → e.1 = sym) (hs : ∃ e ∈ refs, Backend.covers p e.2 = true) :
    Backend.referencedSymbol H p refs = some sym := by
  unfold Backend.referencedSymbol
  cases hf : (H.order refs).find? fun e => Backend.covers p e.2 with
  | none =>
    obtain ⟨e, he, hc⟩ := hs
    have := List.find?_eq_none.1 hf e ((H.perm _).mem_iff.2 he)
    exact absurd hc this
  | some e =>
    have h1 := List.find?_some hf
    exact congrArg some (h e ((H.perm _).mem_iff.1 (List.mem_of_find?_eq_some hf)) h1)

theorem alike_of_kept (h : Host) (disk : Text → Option Text) (st : Backend) (path : Text) (refs : FileRefs) (sym : NodeId)
    (ranges : List NodeRange) (r r' : NodeRange) (hr : Dict.get? st.references path = some refs) (hs : Dict.get? refs sym = some ranges)
    (hm : r ∈ ranges) (hm' : r' ∈ ranges) (p p' : Pos) (hp : inRange p (getRange r) = true) (hp' : inRange p' (getRange r') = true)
    (ha : Alone p refs) (ha' : Alone p' refs) : Alike h disk st path p p' := by
  have hmem : (sym, ranges) ∈ refs := Dict.get?_mem hs
  have hc : Backend.covers p ranges = true := List.any_eq_true.2 ⟨r, hm, hp⟩
  have hc' : Backend.covers p' ranges = true := List.any_eq_true.2 ⟨r', hm', hp'⟩
  have k : ∀ e ∈ refs, Backend.covers p e.2 = true → e.1 = sym := fun e he h1 => ha e he _ hmem h1 hc
  have k' : ∀ e ∈ refs, Backend.covers p' e.2 = true → e.1 = sym := fun e he h1 => ha' e he _ hmem h1 hc'
  have hin := ((h.H.perm refs).mem_iff (a := (sym, ranges))).2 hmem
  constructor
  · unfold Backend.gotoDefinition
    rw [hr]
    dsimp only
    rw [definitionIn_alone st.arena p sym _ fun e he => k e ((h.H.perm _).mem_iff.1 he),
      definitionIn_alone st.arena p' sym _ fun e he => k' e ((h.H.perm _).mem_iff.1 he),
      if_pos (List.any_eq_true.2 ⟨_, hin, hc⟩), if_pos (List.any_eq_true.2 ⟨_, hin, hc'⟩)]
  · unfold Backend.rename
    rw [hr]
    dsimp only
    rw [referenced_alone k ⟨_, hmem, hc⟩, referenced_alone k' ⟨_, hmem, hc'⟩]

/-! ## The claims -/

/-- The answers at any two places of a variable in a run of statements of the tree are the same, at positions with one symbol, or the
name of a class around them is looked up and not found. -/
def AnswersAlike (h : Host) (path : Text) (ast : List Node) (st : Backend) : Prop :=
  ∃ (file : NodeId) (s s' : Env) (refs : FileRefs), Dict.get? st.files path = some file ∧ s.resolver.globalScope = st.globals ∧
    Dict.get? st.references path = some refs ∧ ∀ (cs : List Token) (k k' : Token), Twice ast cs k k' →
      (∃ range range', k.range = some range ∧ k'.range = some range' ∧ ∀ (disk : Text → Option Text) (p p' : Pos),
        inRange p (getRange range) = true → inRange p' (getRange range') = true → Alone p refs → Alone p' refs →
        Alike h disk st path p p') ∨
      ∃ c ∈ cs, Answered true file h.U (.one [c]) none s s'

/-- **C77, answers**: if the state keeps the places of a variable under one symbol, the server leads from any of them to the same
definition and makes the same edits for a new name. -/
theorem C77_answers (h : Host) (path : Text) (ast : List Node) (st : Backend) (hk : OneKept h path ast st) :
    AnswersAlike h path ast st := by
  obtain ⟨file, s, s', refs, h1, h2, h3, h4⟩ := hk
  refine ⟨file, s, s', refs, h1, h2, h3, fun cs k k' ht => ?_⟩
  rcases h4 cs k k' ht with ⟨r, r', sym, ranges, g1, g2, g3, g4, g5⟩ | h4
  · exact .inl ⟨r, r', g1, g2, fun disk p p' hp hp' ha ha' =>
      alike_of_kept h disk st path refs sym ranges r r' h3 g3 g4 g5 p p' hp hp' ha ha'⟩
  · exact .inr h4

/-- **C77, answers for a file that is opened.** -/
theorem C77_answers_open (h : Host) (path source : Text) (st st' : Backend) (file : NodeId)
    (hfile : Dict.get? st.files path = some file) (hnew : Dict.get? st.opened path = none)
    (e : Backend.didOpen h path (some source) st = .ok st') (ast : List Node) (range : LspRange) (errors : List Parser.Err)
    (ht : Backend.sourceToAst h source = .ok (some (ast, range, errors))) : AnswersAlike h path ast st' :=
  C77_answers h path ast st' (C77_open h path source st st' file hfile hnew e ast range errors ht)

/-- **C77, answers for a file that is changed.** -/
theorem C77_answers_change (h : Host) (path text : Text) (more : List Text) (st st' : Backend)
    (e : Backend.didChange h path (text :: more) st = .ok st') (ast : List Node) (range : LspRange) (errors : List Parser.Err)
    (ht : Backend.sourceToAst h text = .ok (some (ast, range, errors))) : AnswersAlike h path ast st' :=
  C77_answers h path ast st' (C77_change h path text more st st' e ast range errors ht)

/-! ## A concrete case -/

private abbrev source : Text := c!"<?php function f($y) { if ($y) { $x = 1; } g($y, $x); return $x; }"

/-- The columns of the definition and of the edits. -/
private def asked (p : Pos) : List Nat × List (Text × List Nat) :=
  match (do
    let st ← startAndOpen [(c!"a", source)] c!"a"
    let d ← Backend.gotoDefinition plainHost.H st p c!"a"
    let r ← Backend.rename plainHost (fun _ => some source) p c!"a" st
    pure (d.toList.map fun l => l.range.start.character, (r.1.getD []).map fun e => (e.1, e.2.map fun r => r.start.character)) : Out _) with
  | .ok (x, y) => (x, y)
  | _ => ([], [])

/-- The checks of `Alone` at a position. -/
private def alone (p : Pos) : Bool :=
  match startAndOpen [(c!"a", source)] c!"a" with
  | .ok st => match Dict.get? st.references c!"a" with
    | some refs => (refs.filter fun e => Backend.covers p e.2).length ≤ 1
    | none => false
  | _ => false

/-- The positions have one symbol each.  At two places of the parameter `$y` the definition is the parameter and all its places are
renamed; at two places of `$x` the definition is the first assignment and no edit is made, as in `C38_violated_variable`. -/
example :
    [27, 45, 33, 49, 61].map (fun c => alone ⟨0, c⟩) = [true, true, true, true, true] ∧
    [28, 46].map (fun c => asked ⟨0, c⟩) =
      [([17], [(c!"a", [17, 27, 45])]), ([17], [(c!"a", [17, 27, 45])])] ∧
    [34, 62].map (fun c => asked ⟨0, c⟩) = [([33], [(c!"a", [])]), ([33], [(c!"a", [])])] := by
  refine ⟨?_, ?_, ?_⟩ <;> decide +kernel

end PhpLs.Linked
