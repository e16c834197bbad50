import Verif.Props.VariableOneAccess

/-!
# C77: behind the message that changes a file

`C77_change`: once a file has a new text, the places of a variable are kept under one symbol; `C77_change_top`: the same for the
statements of the file outside of functions.
-/

namespace PhpLs.Linked

open Out Env

/-! ## Lemmas -/

/-- The references that are kept for a file are those of its tree. -/
def Resolved (h : Host) (path : Text) (ast : List Node) (st : Backend) : Prop :=
  ∃ (st0 st1 : Backend) (refs : FileRefs), Backend.resolveFile h path ast st0 = .ok (some refs, st1) ∧
    Dict.get? st.files path = Dict.get? st0.files path ∧ st.globals = st0.globals ∧ Dict.get? st.references path = some refs

theorem resolved_collect (h : Host) (path : Text) (ast : List Node) (st st' : Backend) (file : NodeId)
    (hf : Dict.get? st.files path = some file) (e : Backend.collectReferences h path ast st = .ok st') : Resolved h path ast st' := by
  obtain ⟨h1, h2, _⟩ := collectReferences_rest h path ast st st' e
  unfold Backend.collectReferences at e
  obtain ⟨⟨o, st1⟩, hp, e⟩ := Out.bind_eq_ok e
  cases o with
  | none =>
    unfold Backend.resolveFile at hp
    rw [hf] at hp
    dsimp only at hp
    obtain ⟨_, _, hp⟩ := Out.bind_eq_ok hp
    obtain ⟨_, _, hp⟩ := Out.bind_eq_ok hp
    injection hp with hp
    injection hp with hp
    cases hp
  | some refs =>
    injection e with e
    refine ⟨st, st1, refs, hp, by rw [h1], h2, ?_⟩
    rw [← e]
    show Dict.get? (Dict.insert _ _ _) _ = _
    rw [Dict.get?_insert, if_pos rfl]

theorem resolved_other {h : Host} {path q : Text} {ast tree : List Node} {st st' : Backend} (hk : Resolved h path ast st)
    (hq : path ≠ q) (e : Backend.collectReferences h q tree st = .ok st') : Resolved h path ast st' := by
  obtain ⟨h1, h2, h3⟩ := collectReferences_rest h q tree st st' e
  obtain ⟨st0, st1, refs, g1, g2, g3, g4⟩ := hk
  exact ⟨st0, st1, refs, g1, by rw [h1]; exact g2, by rw [h2]; exact g3, by rw [h3 path hq]; exact g4⟩

theorem resolved_refresh {h : Host} {path : Text} {ast : List Node} {range : LspRange} : ∀ (l : List (Text × List Node × LspRange))
    (st st' : Backend), (∀ x ∈ l, x.1 = path → x = (path, ast, range)) → Dict.get? st.files path ≠ none →
    ((path, ast, range) ∈ l ∨ Resolved h path ast st) →
    l.foldlM (fun st e => Backend.collectReferences h e.1 e.2.1 st) st = .ok st' → Resolved h path ast st'
  | [], st, st', _, _, hk, e => by
    cases e
    rcases hk with hk | hk
    · cases hk
    · exact hk
  | x :: l, st, st', hl, hf, hk, e => by
    rw [List.foldlM_cons] at e
    obtain ⟨st1, h1, e⟩ := Out.bind_eq_ok e
    have hf' : Dict.get? st1.files path ≠ none := by
      rw [(collectReferences_rest h x.1 x.2.1 st st1 h1).1]
      exact hf
    refine resolved_refresh l st1 st' (fun y hy => hl y (List.mem_cons_of_mem _ hy)) hf' ?_ e
    by_cases hx : x.1 = path
    · have := hl x List.mem_cons_self hx
      subst this
      cases hg : Dict.get? st.files path with
      | none => exact absurd hg hf
      | some file => exact .inr (resolved_collect h path ast st st1 file hg h1)
    · rcases hk with hk | hk
      · rcases List.mem_cons.1 hk with rfl | hk
        · exact absurd rfl hx
        · exact .inl hk
      · exact .inr (resolved_other hk (Ne.symm hx) h1)

/-- A file that is changed is resolved with its new tree. -/
theorem resolved_change (h : Host) (path text : Text) (more : List Text) (st st' : Backend)
    (e : Backend.didChange h path (text :: more) st = .ok st') (ast : List Node) (range : LspRange) (errors : List Parser.Err)
    (ht : Backend.sourceToAst h text = .ok (some (ast, range, errors))) : Resolved h path ast st' := by
  unfold Backend.didChange Backend.refreshFile at e
  obtain ⟨p, h1, e⟩ := Out.bind_eq_ok e
  rw [ht] at h1
  cases h1
  obtain ⟨st1, h1, e⟩ := Out.bind_eq_ok e
  dsimp only at h1
  obtain ⟨st0, h0, h1⟩ := Out.bind_eq_ok h1
  obtain ⟨ds, h2, h1⟩ := Out.bind_eq_ok h1
  cases h1
  refine resolved_refresh (range := range) _ _ st' ?_ ?_ (.inl ((h.H.perm _).mem_iff.2 List.mem_cons_self)) e
  · intro x hx hxp
    rcases List.mem_cons.1 ((h.H.perm _).mem_iff.1 hx) with hx | hx
    · exact hx
    · have := (List.mem_filter.1 hx).2
      simp [hxp] at this
  · have hfiles : OkThat (fun s : Backend => Dict.get? s.files path ≠ none)
        (Backend.collectSymbols h path ast range { st with latest := Dict.insert st.latest path text }) := by
      unfold Backend.collectSymbols
      refine (OkThat.any _).bind fun c _ => ?_
      refine OkThat.bind (Q := fun s : Backend => Dict.get? s.files path ≠ none) ?_ fun s hs =>
        OkThat.bindOption fun kids _ => OkThat.ok hs
      split
      · unfold Backend.dropFile
        refine OkThat.bindOption fun _ _ => OkThat.bindOption fun _ _ => OkThat.ok ?_
        rw [Dict.get?_insert, if_pos rfl]
        exact fun h => nomatch h
      · refine OkThat.ok ?_
        rw [Dict.get?_insert, if_pos rfl]
        exact fun h => nomatch h
    exact hfiles st0 h0

/-! ## The claims -/

/-- **C77 for a file that is changed**: once a file has a new text that can be scanned, the state keeps any two places of a variable in
a run of statements of this text under the same symbol, unless the name of a class around it is looked up and not found, whatever the
other open files are and whichever order they are visited in. -/
theorem C77_change (h : Host) (path text : Text) (more : List Text) (st st' : Backend)
    (e : Backend.didChange h path (text :: more) st = .ok st') (ast : List Node) (range : LspRange) (errors : List Parser.Err)
    (ht : Backend.sourceToAst h text = .ok (some (ast, range, errors))) : OneKept h path ast st' := by
  obtain ⟨st0, st1, refs, g1, g2, g3, g4⟩ := resolved_change h path text more st st' e ast range errors ht
  obtain ⟨file, s, s', k1, k2, k3, k4⟩ := C77_file h path ast st0 st1 refs g1
  exact ⟨file, s, s', refs, g2.trans k1, k2.trans g3.symm, g4, k4⟩

/-- **C77 for the statements of a file that is changed**: outside of functions and classes any two places of a variable, and a place
and a later one in a member access or an assignment, are kept under the same symbol, if nothing there gives the name anew. -/
theorem C77_change_top (h : Host) (path text : Text) (more : List Text) (st st' : Backend)
    (e : Backend.didChange h path (text :: more) st = .ok st') (a b : List Node) (d : Node) (range : LspRange)
    (errors : List Parser.Err) (ht : Backend.sourceToAst h text = .ok (some (a ++ d :: b, range, errors))) (x : Text)
    (hx : x ≠ c!"this") (hfix : ∀ c ∈ a ++ d :: b, Fixed x c) (c : Node) (hc : c ∈ a) (k k' : Token) (hk : k.label = some x)
    (hk' : k'.label = some x) (hkc : Direct k c) (hkd : Direct k' d ∨ Within k' d) :
    ∃ refs range range' sym ranges, Dict.get? st'.references path = some refs ∧ k.range = some range ∧ k'.range = some range' ∧
      Dict.get? refs sym = some ranges ∧ range ∈ ranges ∧ range' ∈ ranges := by
  obtain ⟨st0, st1, refs, g1, _, _, g4⟩ := resolved_change h path text more st st' e _ range errors ht
  rcases hkd with hkd | hkd
  · obtain ⟨r, r', sym, ranges, h1⟩ := C77_top h path _ st0 st1 refs c d k k' (List.mem_append_left _ hc) (by simp) hk hk' hx hfix
      hkc hkd g1
    exact ⟨refs, r, r', sym, ranges, g4, h1⟩
  · obtain ⟨r, r', sym, ranges, h1⟩ := C77_then_top h path a b c d st0 st1 refs k hk hk' hx hfix hc hkc hkd g1
    exact ⟨refs, r, r', sym, ranges, g4, h1⟩

/-- A file is changed while another one is open: the seven places of `$u` in the new text are kept under one symbol. -/
example :
    (let st := do
      let st ← startAndOpen [(c!"a", c!"<?php $u;"), (c!"b", c!"<?php $u; f($u);")] c!"b"
      Backend.didChange plainHost c!"a" [c!"<?php $u = 1; f($u); $u->x; if ($u) { $u = $u[0]; return $u; }"] st
    (referencedIn c!"a" st, referencedIn c!"b" st)) =
      ([(c!"u", [(6, 8), (16, 18), (21, 23), (32, 34), (43, 45), (38, 40), (57, 59)])], [(c!"u", [(6, 8), (12, 14)])]) := by
  decide +kernel

end PhpLs.Linked
