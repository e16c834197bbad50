import Verif.Props.GlobalTable

/-!
# C37, C38: references

`BackendState::symbol_references` holds, for each opened file, where its symbols are mentioned.

* `C37_index`: indexing a file keeps all recorded references alive: those to symbols that are taken away are taken away too.
  `C37_close`: closing a file does.  `C37_violated`: finding references leaves references to variables that do not exist any more.
* `C38_grouped`: the table of a file has, for each symbol, exactly the places that were recorded, in order.
  `C38_files`: the request looks into exactly the indexed files that contain the name and can be scanned.
  `C38_locations_partial`, `C38_rename_partial`: the answer is exactly what is recorded there for this symbol.
  `C38_violated_variable`: for a local variable the answer is empty; `C38_violated_case`: uses with another case are missing;
  `C38_violated_unsaved`: text that is not saved is not looked at.
-/

namespace PhpLs

open Out

namespace Backend

/-- All references that are recorded point to symbols that exist. -/
def RefsLive (st : Backend) : Prop :=
  ∀ path m n ranges, Dict.get? st.references path = some m → Dict.get? m n = some ranges → st.arena.Live n

end Backend

open Backend

/-- Indexing a file with any tree keeps the references alive. -/
theorem C37_index (h : Host) (path : Text) (ast : List Node) (range : LspRange) (st st' : Backend) (hi : Safe h.U st)
    (hl : RefsLive st) (e : collectSymbols h path ast range st = .ok st') : RefsLive st' := by
  obtain ⟨root, gone, hc⟩ := collectSymbols_collected h path ast range st hi.arena (hi.root path) st' e
  intro p m n ranges hp hn
  rcases hc.refs p with ⟨h1, _⟩ | ⟨m0, m', h1, h2, h3, h4⟩
  · rw [h1] at hp
    cases hp
  · rw [h1] at hp
    cases hp
    by_cases hg : gone n
    · rw [h3 n hg] at hn
      cases hn
    · rw [h4 n hg] at hn
      obtain ⟨v, q, hv⟩ := (hl p m0 n ranges h2 hn).has
      obtain ⟨w, hw, _⟩ := hc.keep n v q hv hg
      exact hw.live

/-- Closing a file keeps the references alive. -/
theorem C37_close (path : Text) (st : Backend) (hl : RefsLive st) : RefsLive (didClose path st) := by
  intro p m n ranges hp hn
  have hp' : Dict.get? (Dict.remove st.references path) p = some m := hp
  rw [Dict.get?_remove] at hp'
  split at hp'
  · cases hp'
  · exact hl p m n ranges hp' hn

/-- Files change on the disk: the references stay alive. -/
theorem C37_watched (h : Host) : ∀ (events : List (Text × Option Text)) (st st' : Backend), Safe h.U st → RefsLive st →
    didChangeWatched h events st = .ok st' → RefsLive st' := by
  intro events
  induction events with
  | nil =>
    intro st st' _ hl e
    cases e
    exact hl
  | cons x rest ih =>
    intro st st' hs hl e
    revert e
    suffices OkThat RefsLive (didChangeWatched h (x :: rest) st) from this st'
    unfold didChangeWatched
    split
    · exact OkThat.ok hl
    · refine OkThat.bindOption fun content _ => (OkThat.any _).bind fun p _ => ?_
      split
      · exact fun st' e => ih st st' hs hl e
      · next ast range errors =>
        refine OkThat.bind (Q := fun s => Safe h.U s ∧ RefsLive s) ?_ fun st1 h1 => OkThat.bindOption fun ds _ => ?_
        · intro s e
          exact ⟨hs.collectSymbols _ _ _ s e, C37_index h _ _ _ st s hs hl e⟩
        · intro st2 e
          exact ih { st1 with diagnostics := Dict.insert st1.diagnostics x.1 ds } st2 (h1.1.same rfl rfl rfl)
            (fun p m n r hp hn => h1.2 p m n r hp hn) e

set_option synthInstance.maxSize 1000 in
/-- References of the kind that `C37_index` is about: the other file keeps its reference to `f`, and loses the one to `A`. -/
example : (match (do
      let st ← startAndOpen [(c!"a.php", c!"<?php class A {}"), (c!"b.php", c!"<?php function f() {} new A(); f();")] c!"b.php"
      let st' ← reindex c!"a.php" c!"<?php class C {}" st
      pure (refsIn c!"b.php" (.ok st), refsIn c!"b.php" (.ok st')) : Out _) with
    | .ok p => p
    | _ => (none, none)) =
    (some [(⟨4, 0⟩, [(0, 15), (0, 31)]), (⟨1, 0⟩, [(0, 26)])], some [(⟨4, 0⟩, [(0, 15), (0, 31)])]) := by decide +kernel

/-- The text of the witnesses, as it is on the disk. -/
private abbrev disk (files : List (Text × Text)) (path : Text) : Option Text := Dict.get? files path

private abbrev sample : List (Text × Text) := [(c!"a.php", c!"<?php function f() { $x = 1; echo $x; } f();")]

/-- The references to the function `f` are requested.  Behind it the references to `$x` of the opened file are references to a
symbol that does not exist (`false`). -/
theorem C37_violated :
    (match (do
        let st ← startAndOpen sample c!"a.php"
        let r ← findReferences plainHost (disk sample) ⟨0, 15⟩ c!"a.php" st
        pure ((Dict.get? st.references c!"a.php").map (fun m => m.map fun e => (e.1, decide (st.arena.Live e.1))),
          (Dict.get? r.2.references c!"a.php").map (fun m => m.map fun e => (e.1, decide (r.2.arena.Live e.1)))) : Out _) with
      | .ok p => p
      | _ => (none, none)) =
      (some [(⟨1, 0⟩, true), (⟨2, 0⟩, true)], some [(⟨1, 0⟩, true), (⟨2, 0⟩, false)]) := by decide +kernel

/-! ## C38 -/

/-- The places of a symbol in the table of a file are exactly the recorded ones, in the order in which they were recorded. -/
theorem C38_grouped (l : List NameRef) (n : NodeId) :
    Dict.get? (groupRefs l) n =
      if (l.filter fun r => decide (r.node = n)).isEmpty then none
      else some ((l.filter fun r => decide (r.node = n)).map (·.range)) := by
  have key : ∀ (l : List NameRef) (m : FileRefs), Dict.get? (l.foldl (fun m r => Dict.push m r.node r.range) m) n =
      if (l.filter fun r => decide (r.node = n)).isEmpty then Dict.get? m n
      else some ((Dict.get? m n).getD [] ++ (l.filter fun r => decide (r.node = n)).map (·.range)) := by
    intro l
    induction l with
    | nil => intro m; rfl
    | cons r l ih =>
      intro m
      rw [List.foldl_cons, ih]
      have hp : Dict.get? (Dict.push m r.node r.range) n =
          if r.node = n then some ((Dict.get? m n).getD [] ++ [r.range]) else Dict.get? m n := by
        unfold Dict.push
        rw [Dict.get?_insert]
        split
        · next e => rw [e]
        · rfl
      rw [hp]
      by_cases hr : r.node = n
      · simp only [hr, decide_true, List.filter_cons_of_pos, if_true]
        cases hf : l.filter fun r => decide (r.node = n) with
        | nil => simp
        | cons y t => simp
      · simp [hr]
  exact key l []

example : Dict.get? (groupRefs [⟨⟨0, 0, 1, 0⟩, ⟨1, 0⟩⟩, ⟨⟨2, 0, 3, 0⟩, ⟨2, 0⟩⟩, ⟨⟨4, 0, 5, 0⟩, ⟨1, 0⟩⟩]) ⟨1, 0⟩ =
    some [⟨0, 0, 1, 0⟩, ⟨4, 0, 5, 0⟩] := by decide

/-- The places that a request finds are exactly those that are recorded for the symbol in one of the files. -/
theorem locations_iff (H : HashOrder) (n : NodeId) (refs : Dict Text FileRefs) (loc : Location) :
    loc ∈ locationsOf H n refs ↔
      ∃ m ranges r, (loc.path, m) ∈ refs ∧ Dict.get? m n = some ranges ∧ r ∈ ranges ∧ loc.range = getRange r := by
  have key : ∀ (l : List (Text × FileRefs)) (cur : List Location), loc ∈ l.foldl (fun cur e =>
      match Dict.get? e.2 n with
      | some ranges => ranges.map (fun r => ⟨e.1, getRange r⟩) ++ cur
      | none => cur) cur ↔ loc ∈ cur ∨ ∃ m ranges r, (loc.path, m) ∈ l ∧ Dict.get? m n = some ranges ∧ r ∈ ranges ∧
        loc.range = getRange r := by
    intro l
    induction l with
    | nil => intro cur; simp
    | cons x l ih =>
      intro cur
      rw [List.foldl_cons, ih]
      constructor
      · rintro (h | ⟨m, ranges, r, h1, h2, h3, h4⟩)
        · split at h
          · next ranges hr =>
            rcases List.mem_append.1 h with h | h
            · obtain ⟨r, hr1, rfl⟩ := List.mem_map.1 h
              exact .inr ⟨x.2, ranges, r, List.mem_cons_self .., hr, hr1, rfl⟩
            · exact .inl h
          · exact .inl h
        · exact .inr ⟨m, ranges, r, List.mem_cons_of_mem _ h1, h2, h3, h4⟩
      · rintro (h | ⟨m, ranges, r, h1, h2, h3, h4⟩)
        · left
          split
          · exact List.mem_append.2 (.inr h)
          · exact h
        · rcases List.mem_cons.1 h1 with e | h1
          · left
            rw [← e]
            dsimp only
            rw [h2]
            exact List.mem_append.2 (.inl (List.mem_map.2 ⟨r, h3, by cases loc; simp_all⟩))
          · exact .inr ⟨m, ranges, r, h1, h2, h3, h4⟩
  unfold locationsOf
  refine (key _ _).trans ?_
  simp only [List.not_mem_nil, false_or]
  constructor
  · rintro ⟨m, ranges, r, h1, h2⟩
    exact ⟨m, ranges, r, (H.perm refs).mem_iff.1 h1, h2⟩
  · rintro ⟨m, ranges, r, h1, h2⟩
    exact ⟨m, ranges, r, (H.perm refs).mem_iff.2 h1, h2⟩

/-- `str::contains` finds the text anywhere. -/
theorem contains_iff {needle : Text} : ∀ {t : Text}, contains needle t = true ↔ needle <:+: t
  | [] => by simp [contains]
  | c :: r => by
    rw [contains, Bool.or_eq_true, List.isPrefixOf_iff_prefix, contains_iff, List.infix_cons_iff]

/-- A file has to be looked at: it is indexed, contains the name and can be scanned. -/
def Relevant (h : Host) (disk : Text → Option Text) (name : Text) (files : Dict Text NodeId) (path : Text) : Prop :=
  (Dict.get? files path).isSome ∧ ∃ content ast range errors, disk path = some content ∧ name <:+: content ∧
    sourceToAst h content = .ok (some (ast, range, errors))

/-- What may happen to the state `st` while the relevant files are searched: their names are resolved, one file after the other. -/
inductive Searched (h : Host) (disk : Text → Option Text) (name : Text) (st : Backend) : Backend → Prop where
  | start : Searched h disk name st st
  | file {path : Text} {s s' : Backend} {content : Text} {ast : List Node} {range : LspRange} {errors : List Parser.Err}
      {refs : Option FileRefs} : Searched h disk name st s → Relevant h disk name st.files path → disk path = some content →
      sourceToAst h content = .ok (some (ast, range, errors)) → resolveFile h path ast s = .ok (refs, s') →
      Searched h disk name st s'

/-- The names of a file are resolved while the relevant files are searched, and the references `refs` are recorded. -/
def FoundIn (h : Host) (disk : Text → Option Text) (name : Text) (st : Backend) (path : Text) (refs : FileRefs) : Prop :=
  ∃ content ast range errors s s', disk path = some content ∧ name <:+: content ∧
    sourceToAst h content = .ok (some (ast, range, errors)) ∧ Searched h disk name st s ∧
    resolveFile h path ast s = .ok (some refs, s')

private theorem resolve_some (h : Host) (path : Text) (ast : List Node) (st : Backend) :
    OkThat (fun p : Option FileRefs × Backend => p.2.files = st.files ∧ (p.1.isSome ↔ (Dict.get? st.files path).isSome))
      (resolveFile h path ast st) := by
  unfold resolveFile
  split
  · next e => exact OkThat.ok ⟨rfl, by rw [e]; simp⟩
  · next f e =>
    refine (OkThat.any _).bind fun a _ => (OkThat.any _).bind fun w _ => OkThat.ok ⟨rfl, by rw [e]; simp⟩

/-- The request looks into exactly the relevant files. -/
theorem C38_files (h : Host) (disk : Text → Option Text) (name : Text) (st : Backend) (r : Dict Text FileRefs × Backend)
    (e : collectEverywhere h disk name st = .ok r) :
    (∀ path, (Dict.get? r.1 path).isSome ↔ Relevant h disk name st.files path) ∧
    (∀ path refs, Dict.get? r.1 path = some refs → FoundIn h disk name st path refs) ∧ Dict.Ok r.1 := by
  have key : ∀ (l : List (Text × NodeId)) (acc r : Dict Text FileRefs × Backend), acc.2.files = st.files → Searched h disk name st acc.2 →
      (∀ x ∈ l, (Dict.get? st.files x.1).isSome) → Dict.Ok acc.1 →
      (∀ path refs, Dict.get? acc.1 path = some refs → FoundIn h disk name st path refs) →
      l.foldlM (searchFile h disk name) acc = .ok r →
      (∀ path, (Dict.get? r.1 path).isSome ↔ (Dict.get? acc.1 path).isSome ∨
        (path ∈ l.map (·.1) ∧ Relevant h disk name st.files path)) ∧
      (∀ path refs, Dict.get? r.1 path = some refs → FoundIn h disk name st path refs) ∧ Dict.Ok r.1 := by
    intro l
    induction l with
    | nil =>
      intro acc r _ _ _ hk hf e
      cases e
      exact ⟨fun path => by simp, hf, hk⟩
    | cons x l ih =>
      intro acc r hfiles hsr hl hk hf e
      rw [List.foldlM_cons] at e
      obtain ⟨acc', e1, e2⟩ := Out.bind_eq_ok e
      have step : acc'.2.files = st.files ∧ Searched h disk name st acc'.2 ∧ Dict.Ok acc'.1 ∧
          (∀ path refs, Dict.get? acc'.1 path = some refs → FoundIn h disk name st path refs) ∧
          (∀ path, (Dict.get? acc'.1 path).isSome ↔ (Dict.get? acc.1 path).isSome ∨
            (path = x.1 ∧ Relevant h disk name st.files path)) := by
        revert e1
        suffices OkThat (fun acc' : Dict Text FileRefs × Backend => acc'.2.files = st.files ∧
          Searched h disk name st acc'.2 ∧ Dict.Ok acc'.1 ∧
          (∀ path refs, Dict.get? acc'.1 path = some refs → FoundIn h disk name st path refs) ∧
          (∀ path, (Dict.get? acc'.1 path).isSome ↔ (Dict.get? acc.1 path).isSome ∨
            (path = x.1 ∧ Relevant h disk name st.files path))) (searchFile h disk name acc x) from this acc'
        have same : ¬ Relevant h disk name st.files x.1 → (∀ path, (Dict.get? acc.1 path).isSome ↔ (Dict.get? acc.1 path).isSome ∨
            (path = x.1 ∧ Relevant h disk name st.files path)) := by
          intro hn path
          constructor
          · exact .inl
          · rintro (h | ⟨rfl, h⟩)
            · exact h
            · exact absurd h hn
        unfold searchFile
        split
        · next hd =>
          refine OkThat.ok ⟨hfiles, hsr, hk, hf, same ?_⟩
          rintro ⟨_, c, _, _, _, h1, _⟩
          rw [hd] at h1
          cases h1
        · next content hd =>
          split
          · next hcon =>
            refine OkThat.bind (Q := fun p => sourceToAst h content = .ok p) (fun _ e => e) fun p ep => ?_
            split
            · refine OkThat.ok ⟨hfiles, hsr, hk, hf, same ?_⟩
              rintro ⟨_, c, _, _, _, h1, _, h2⟩
              rw [hd] at h1
              cases h1
              rw [ep] at h2
              cases h2
            · next ast range errors =>
              refine OkThat.bind (Q := fun q => resolveFile h x.1 ast acc.2 = .ok q) (fun _ e => e) fun q eq => ?_
              obtain ⟨hq1, hq2⟩ := resolve_some h x.1 ast acc.2 q eq
              have hrel : Relevant h disk name st.files x.1 :=
                ⟨hl x (List.mem_cons_self ..), content, ast, range, errors, hd, contains_iff.1 hcon, ep⟩
              split
              · next refs hrefs =>
                refine OkThat.ok ⟨hq1.trans hfiles, hsr.file hrel hd ep eq, Dict.ok_insert hk _ _, fun path rs hrs => ?_, fun path => ?_⟩
                · rw [Dict.get?_insert] at hrs
                  split at hrs
                  · next hx =>
                    cases hrs
                    subst hx
                    exact ⟨content, ast, range, errors, acc.2, q.2, hd, contains_iff.1 hcon, ep, hsr, by rw [eq, ← hrefs]⟩
                  · exact hf path rs hrs
                · rw [Dict.get?_insert]
                  split
                  · next hx => exact ⟨fun _ => .inr ⟨hx.symm, hx ▸ hrel⟩, fun _ => rfl⟩
                  · next hx =>
                    constructor
                    · exact .inl
                    · rintro (h | ⟨h, _⟩)
                      · exact h
                      · exact absurd h.symm hx
              · next hrefs =>
                have := hq2.2 (by rw [hfiles]; exact hl x (List.mem_cons_self ..))
                rw [hrefs] at this
                cases this
          · next hcon =>
            refine OkThat.ok ⟨hfiles, hsr, hk, hf, same ?_⟩
            rintro ⟨_, c, _, _, _, h1, h2, _⟩
            rw [hd] at h1
            cases h1
            exact hcon (contains_iff.2 h2)
      obtain ⟨s1, s1b, s2, s3, s4⟩ := step
      obtain ⟨i1, i2, i3⟩ := ih acc' r s1 s1b (fun y hy => hl y (List.mem_cons_of_mem _ hy)) s2 s3 e2
      refine ⟨fun path => ?_, i2, i3⟩
      rw [i1, s4, List.map_cons, List.mem_cons]
      constructor
      · rintro ((h | ⟨h1, h2⟩) | ⟨h1, h2⟩)
        · exact .inl h
        · exact .inr ⟨.inl h1, h2⟩
        · exact .inr ⟨.inr h1, h2⟩
      · rintro (h | ⟨h1 | h1, h2⟩)
        · exact .inl (.inl h)
        · exact .inl (.inr ⟨h1, h2⟩)
        · exact .inr ⟨h1, h2⟩
  have hmem : ∀ path, path ∈ (h.H.order st.files).map (·.1) ↔ (Dict.get? st.files path).isSome := by
    intro path
    constructor
    · intro hp
      obtain ⟨x, hx, rfl⟩ := List.mem_map.1 hp
      cases hg : Dict.get? st.files x.1 with
      | some _ => rfl
      | none => exact absurd ((h.H.perm st.files).mem_iff.1 hx) (Dict.get?_none.1 hg x.2)
    · intro hp
      obtain ⟨f, hf⟩ := Option.isSome_iff_exists.1 hp
      exact List.mem_map.2 ⟨(path, f), (h.H.perm st.files).mem_iff.2 (Dict.get?_mem hf), rfl⟩
  obtain ⟨k1, k2, k3⟩ := key (h.H.order st.files) ([], st) r rfl .start (fun x hx => (hmem x.1).1 (List.mem_map.2 ⟨x, hx, rfl⟩))
    Dict.ok_nil (fun _ _ h => nomatch h) e
  refine ⟨fun path => ?_, k2, k3⟩
  rw [k1, hmem]
  constructor
  · rintro (h | ⟨_, h⟩)
    · cases h
    · exact h
  · intro h
    exact .inr ⟨h.1, h⟩

/-- Find references: the symbol `n` under the cursor is looked for in all relevant files, and the answer has exactly the places
where one of these files mentions `n`.  Missing: for variables the symbols in the files are new ones, see
`C38_violated_variable`. -/
theorem C38_locations_partial (h : Host) (disk : Text → Option Text) (position : Pos) (path : Text) (st : Backend)
    (locs : List Location) (st' : Backend) (e : findReferences h disk position path st = .ok (some locs, st')) :
    ∃ n name found, symbolUnderCursor st position path = .ok (some (n, name)) ∧
      (∀ p, (Dict.get? found p).isSome ↔ Relevant h disk name st.files p) ∧
      (∀ p refs, Dict.get? found p = some refs → FoundIn h disk name st p refs) ∧
      ∀ loc, loc ∈ locs ↔ ∃ refs ranges r, Dict.get? found loc.path = some refs ∧ Dict.get? refs n = some ranges ∧ r ∈ ranges ∧
        loc.range = getRange r := by
  unfold findReferences at e
  obtain ⟨s, e1, e2⟩ := Out.bind_eq_ok e
  match s, e1, e2 with
  | none, _, e2 => cases e2
  | some (n, name), e1, e2 =>
    obtain ⟨p, e3, e4⟩ := Out.bind_eq_ok e2
    cases e4
    obtain ⟨f1, f2, f3⟩ := C38_files h disk name st p e3
    refine ⟨n, name, p.1, e1, f1, f2, fun loc => ?_⟩
    rw [locations_iff]
    constructor
    · rintro ⟨m, ranges, r, h1, h2⟩
      exact ⟨m, ranges, r, Dict.mem_get? f3 h1, h2⟩
    · rintro ⟨m, ranges, r, h1, h2⟩
      exact ⟨m, ranges, r, Dict.get?_mem h1, h2⟩

/-- Rename: a symbol `n` that is mentioned under the cursor is looked for in all relevant files, and the edits of each file are
exactly the places where it mentions `n`.  Missing: as above. -/
theorem C38_rename_partial (h : Host) (disk : Text → Option Text) (position : Pos) (path : Text) (st : Backend)
    (edits : List (Text × List LspRange)) (st' : Backend) (e : rename h disk position path st = .ok (some edits, st')) :
    ∃ n name found, (∀ p, (Dict.get? found p).isSome ↔ Relevant h disk name st.files p) ∧
      (∀ p refs, Dict.get? found p = some refs → FoundIn h disk name st p refs) ∧
      (∃ s, st.arena.get? n = some s ∧ s.name = name) ∧
      (∃ here ranges r, Dict.get? st.references path = some here ∧ (n, ranges) ∈ here ∧ r ∈ ranges ∧
        inRange position (getRange r) = true) ∧
      ∀ p range, (∃ ranges, (p, ranges) ∈ edits ∧ range ∈ ranges) ↔
        ∃ refs ranges r, Dict.get? found p = some refs ∧ (n, ranges) ∈ refs ∧ r ∈ ranges ∧ range = getRange r := by
  unfold rename at e
  split at e
  · cases e
  · next here hhere =>
    split at e
    · cases e
    · next n hn =>
      obtain ⟨s, e1, e2⟩ := Out.bind_eq_ok e
      obtain ⟨p, e3, e4⟩ := Out.bind_eq_ok e2
      have hs := ofOption_ok e1
      cases e4
      obtain ⟨f1, f2, f3⟩ := C38_files h disk s.name st p e3
      have hcur : ∃ ranges r, (n, ranges) ∈ here ∧ r ∈ ranges ∧ inRange position (getRange r) = true := by
        unfold referencedSymbol at hn
        obtain ⟨y, hy, rfl⟩ := Option.map_eq_some_iff.1 hn
        have hcov : covers position y.2 = true := List.find?_some (p := fun e : NodeId × List NodeRange => covers position e.2) hy
        obtain ⟨r, hr, hc⟩ := List.any_eq_true.1 hcov
        exact ⟨y.2, r, (h.H.perm here).mem_iff.1 (List.mem_of_find?_eq_some hy), hr, hc⟩
      obtain ⟨cr, cx, c1, c2, c3⟩ := hcur
      refine ⟨n, s.name, p.1, f1, f2, ⟨s, hs, rfl⟩, ⟨here, cr, cx, hhere, c1, c2, c3⟩, fun q range => ?_⟩
      constructor
      · rintro ⟨ranges, h1, h2⟩
        obtain ⟨x, hx, ex⟩ := List.mem_map.1 h1
        cases ex
        obtain ⟨y, hy, hy2⟩ := List.mem_flatMap.1 h2
        split at hy2
        · next hn =>
          obtain ⟨r, hr, rfl⟩ := List.mem_map.1 hy2
          refine ⟨x.2, y.2, r, Dict.mem_get? f3 ((h.H.perm p.1).mem_iff.1 hx), ?_, hr, rfl⟩
          rw [← hn]
          exact (h.H.perm x.2).mem_iff.1 hy
        · cases hy2
      · rintro ⟨refs, ranges, r, h1, h2, h3, rfl⟩
        refine ⟨_, List.mem_map.2 ⟨(q, refs), (h.H.perm p.1).mem_iff.2 (Dict.get?_mem h1), rfl⟩, ?_⟩
        refine List.mem_flatMap.2 ⟨(n, ranges), (h.H.perm refs).mem_iff.2 h2, ?_⟩
        dsimp only
        rw [if_pos rfl]
        exact List.mem_map.2 ⟨r, h3, rfl⟩

/-- A function with two mentions, found in two files. -/
example : (match (do
      let files := [(c!"a.php", c!"<?php function foo() {}"), (c!"b.php", c!"<?php foo(); foo();")]
      let st ← startAndOpen files c!"a.php"
      let r ← findReferences plainHost (disk files) ⟨0, 16⟩ c!"a.php" st
      pure (r.1.map fun l => l.map fun x => (x.path, x.range.start.character)) : Out _) with
    | .ok p => p
    | _ => none) = some [(c!"b.php", 6), (c!"b.php", 13), (c!"a.php", 15)] := by decide +kernel

set_option synthInstance.maxSize 1000 in
/-- The cursor is on the local variable `$x`, which is used twice: rename changes nothing, and there are no references. -/
theorem C38_violated_variable :
    (match (do
        let st ← startAndOpen sample c!"a.php"
        let r ← rename plainHost (disk sample) ⟨0, 22⟩ c!"a.php" st
        let r' ← findReferences plainHost (disk sample) ⟨0, 22⟩ c!"a.php" st
        pure (refsIn c!"a.php" (.ok st), r.1, r'.1) : Out _) with
      | .ok p => p
      | _ => (none, none, none)) =
      (some [(⟨1, 0⟩, [(0, 15), (0, 40)]), (⟨2, 0⟩, [(0, 21), (0, 34)])], some [(c!"a.php", [])], some []) := by decide +kernel

private abbrev cased : List (Text × Text) :=
  [(c!"a.php", c!"<?php class Foo {}"), (c!"b.php", c!"<?php new FOO();"), (c!"c.php", c!"<?php new Foo();")]

/-- The definition of `FOO` in `b.php` is the class `Foo`, but `b.php` is not among its references. -/
theorem C38_violated_case :
    (match (do
        let st ← startAndOpen cased c!"b.php"
        let d ← gotoDefinition HashOrder.id st ⟨0, 11⟩ c!"b.php"
        let r ← findReferences plainHost (disk cased) ⟨0, 13⟩ c!"a.php" st
        pure (d.map (·.path), r.1.map fun l => l.map (·.path)) : Out _) with
      | .ok p => p
      | _ => (none, none)) = (some c!"a.php", some [c!"c.php", c!"a.php"]) := by decide +kernel

/-- The opened file has got a text with two calls of `f`; on the disk there is the old text without calls. -/
theorem C38_violated_unsaved :
    (match (do
        let old := [(c!"a.php", c!"<?php function f() {}")]
        let st ← startAndOpen old c!"a.php"
        let st ← didChange plainHost c!"a.php" [c!"<?php f(); f(); function f() {}"] st
        let r ← findReferences plainHost (disk old) ⟨0, 26⟩ c!"a.php" st
        pure (refsIn c!"a.php" (.ok st), r.1.map fun l => l.map fun x => (x.range.start.line, x.range.start.character)) : Out _) with
      | .ok p => p
      | _ => (none, none)) = (some [(⟨3, 0⟩, [(0, 6), (0, 11), (0, 25)])], some [(0, 15)]) := by decide +kernel

end PhpLs
