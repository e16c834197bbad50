import Verif.Hover
import Verif.Props.Definition
import Verif.Props.Fs

/-!
# C62: hover shows the declaration

* `C62_text`: for every symbol that exists, the text is made of the lines that its range covers in the file it is declared in, as
  this file is on the disk; it cannot be computed exactly if the last of these lines is before the first one.
* `C62_shown`: what hover answers, for every history and every position: the lines of the innermost symbol if the cursor is on its
  name, else those of a symbol that is recorded at the cursor.
* `C62_toplevel`: wherever the cursor is outside of all declarations, the answer is the whole file, whatever is at the cursor.
* `C62_violated_toplevel`: a call of a function at the top level shows the file instead of the function.
  `C62_violated_unsaved`: the text on the disk is shown, with the lines of the text in the editor.
  `C62_violated_crash`: the declaration of a function that is not complete ends before it starts, and hover on a call crashes.
-/

namespace PhpLs

open Out Backend

/-! ## Specification -/

/-- What is shown for some lines of a file. -/
inductive Shows : Option Text → Nat → Nat → Text → Prop where
  /-- The file cannot be read. -/
  | unreadable (first last : Nat) : Shows none first last
      (c!"\n# Documentation\n```php\n<?php\n" ++ c!"Error reading source file" ++ c!"\n```\n")
  /-- The lines from `first` to `last`. -/
  | lines (content : Text) (first last : Nat) : Shows (some content) first last
      (c!"\n# Documentation\n```php\n<?php\n" ++ Fs.linesBetween (Fs.lines content) first last ++ c!"\n```\n")

/-- The numbers of lines are those of `u32`, and a range does not cover all of them. -/
def Short (v : Symbol) : Prop := v.range.end.line < Fs.u32Max

/-- The symbol `n`, which is `v`, is declared in the indexed file `path`. -/
def DeclaredIn (st : Backend) (n : NodeId) (v : Symbol) (path : Text) : Prop :=
  st.arena.get? n = some v ∧ ∃ f, Dict.get? st.files path = some f ∧ st.arena.Below f n

/-! ## C62 -/

theorem firstFile_spec {U : Unicode} {st : Backend} (hs : Safe U st) : ∀ (l : List NodeId), (∀ j ∈ l, st.arena.Live j) →
    (∃ j ∈ l, ∃ w, st.arena.Has j w none) →
    ∃ w j, firstFile st.arena l = some (some w) ∧ j ∈ l ∧ st.arena.Has j w none
  | [], _, ⟨_, hj, _⟩ => nomatch hj
  | n :: l, hl, ⟨j, hj, w, hw⟩ => by
    obtain ⟨v, p, hv⟩ := (hl n (List.mem_cons_self ..)).has
    unfold firstFile
    rw [hv.get? hs.arena, Option.bind_eq_bind, Option.bind_some]
    by_cases hk : v.kind = .file
    · rw [if_pos hk]
      have hp := (hs.rooted n v p hv).1 hk
      subst hp
      exact ⟨v, n, rfl, List.mem_cons_self .., hv⟩
    · rw [if_neg hk]
      rcases List.mem_cons.1 hj with rfl | hj
      · exfalso
        obtain ⟨_, rfl, rfl⟩ := hv.unique hs.arena hw rfl
        exact hk ((hs.rooted _ _ _ hw).2 rfl)
      · obtain ⟨w', j', h1, h2, h3⟩ := firstFile_spec hs l (fun x hx => hl x (List.mem_cons_of_mem _ hx)) ⟨j, hj, w, hw⟩
        exact ⟨w', j', h1, List.mem_cons_of_mem _ h2, h3⟩

/-- The text for a symbol that exists: the lines of its declaration, or a crash if the last one is before the first one. -/
theorem C62_text (U : Unicode) (st : Backend) (hs : Safe U st) (disk : Text → Option Text) (n : NodeId) (v : Symbol)
    (p : Option NodeId) (hn : st.arena.Has n v p) (hv : Short v) :
    ∃ path, DeclaredIn st n v path ∧
      ((∃ t, v.hoverText disk st.arena n = .ok t ∧ Shows (disk path) v.range.start.line v.range.end.line t) ∨
        v.hoverText disk st.arena n = .panic ∧ v.range.end.line < v.range.start.line ∧ (disk path).isSome) := by
  obtain ⟨t, h1, h2, h3, _⟩ := Arena.mem_ancestors hs.arena hn
  obtain ⟨r, u, hr, hu⟩ := Arena.has_root hs.arena hn
  obtain ⟨w, j, h4, h5, h6⟩ := firstFile_spec hs (n :: t) (fun j hj => ((h2 j).1 hj).live hn) ⟨r, (h2 r).2 hr, u, hu⟩
  refine ⟨w.name, ⟨hn.get? hs.arena, j, hs.indexed j w h6, (h2 j).1 h5⟩, ?_⟩
  have hu : v.hoverText disk st.arena n =
      (do
        let doc ← .ofOption (Fs.fileReadRange (disk w.name) v.range.start.line v.range.end.line)
        pure (hoverFrame doc)) := by
    unfold Symbol.hoverText
    rw [h1]
    simp only [Out.ofOption_some, Out.bind_ok]
    rw [h4]
    rfl
  rw [hu]
  cases hd : disk w.name with
  | none => exact .inl ⟨_, rfl, .unreadable _ _⟩
  | some content =>
    have hb : v.range.end.line ≤ Fs.u32Max := Nat.le_of_lt hv
    by_cases hlt : v.range.end.line < v.range.start.line
    · rw [(Fs.C50_fails_iff content _ _ hb).2 (.inl hlt)]
      exact .inr ⟨rfl, hlt, rfl⟩
    · rw [Fs.C50_reads_exactly_partial content _ _ (Nat.le_of_not_lt hlt) hb
        (fun h => absurd hv (by unfold Short; rw [h.2]; exact Nat.lt_irrefl _))]
      exact .inl ⟨_, rfl, .lines _ _ _⟩

/-- The cursor is on the name of the symbol. -/
def OnName (v : Symbol) (position : Pos) : Prop :=
  Pos.Le v.selectionRange.start position ∧ Pos.Le position v.selectionRange.end

/-- What hover is about: the innermost symbol at the cursor if the cursor is on its name, else a symbol that is recorded at the
cursor; the range is marked. -/
def HoverAbout (st : Backend) (path : Text) (position : Pos) (f n : NodeId) (range : LspRange) : Prop :=
  ∃ own w, symbolAt position f st.arena = some own ∧ st.arena.get? own = some w ∧
    (OnName w position ∧ n = own ∧ range = w.range ∨
      ¬ OnName w position ∧ ∃ m ranges r, Dict.get? st.references path = some m ∧ Dict.get? m n = some ranges ∧ r ∈ ranges ∧
        At position r ∧ range = getRange r)

/-- What hover answers: the lines of the symbol whose name is at the cursor, if it is the innermost one there; else those of a symbol
that is recorded at the cursor; nothing if there is none.  It crashes only if the range of just this symbol ends before it starts. -/
theorem C62_shown (h : Host) (H : HashOrder) (st : Backend) (hi : Serving h st) (hl : RefsLive st)
    (hv : ∀ n v p, st.arena.Has n v p → Short v) (disk : Text → Option Text) (position : Pos) (path : Text) (f : NodeId)
    (hf : Dict.get? st.files path = some f) :
    (hoverShown disk H st position path = .ok none ∧ ∀ n range, ¬ HoverAbout st path position f n range) ∨
    ∃ n v file range, HoverAbout st path position f n range ∧ DeclaredIn st n v file ∧
      ((∃ t, hoverShown disk H st position path = .ok (some (range, t)) ∧
          Shows (disk file) v.range.start.line v.range.end.line t) ∨
        hoverShown disk H st position path = .panic ∧ v.range.end.line < v.range.start.line ∧ (disk file).isSome) := by
  have hs := hi.clean
  have key : ∀ n range, hover H st position path = .ok (some (n, range)) → st.arena.Live n →
      ∃ v file, DeclaredIn st n v file ∧
        ((∃ t, hoverShown disk H st position path = .ok (some (range, t)) ∧
            Shows (disk file) v.range.start.line v.range.end.line t) ∨
          hoverShown disk H st position path = .panic ∧ v.range.end.line < v.range.start.line ∧ (disk file).isSome) := by
    intro n range e hn
    obtain ⟨v, p, hp⟩ := hn.has
    obtain ⟨file, hd, ht⟩ := C62_text h.U st hs.toSafe disk n v p hp (hv n v p hp)
    refine ⟨v, file, hd, ?_⟩
    have hu : hoverShown disk H st position path = (do
        let t ← v.hoverText disk st.arena n
        pure (some (range, t))) := by
      unfold hoverShown
      rw [e]
      simp only [Out.bind_ok]
      rw [hp.get? hs.arena]
      rfl
    rw [hu]
    rcases ht with ⟨t, ht, hsh⟩ | ⟨ht, hlt, hdisk⟩
    · rw [ht]; exact .inl ⟨t, rfl, hsh⟩
    · rw [ht]; exact .inr ⟨rfl, hlt, hdisk⟩
  obtain ⟨own, w, p, h1, h2, h3, h4⟩ := C42_hover h H st hi hl position path f hf
  have hw := h2.get? hs.arena
  by_cases hsel : OnName w position
  · obtain ⟨v, file, hd, ht⟩ := key own w.range (h3 hsel) h2.live
    exact .inr ⟨own, v, file, w.range, ⟨own, w, h1, hw, .inl ⟨hsel, rfl, rfl⟩⟩, hd, ht⟩
  · rcases h4 hsel with ⟨h5, h6⟩ | ⟨n, m, ranges, r, h5, h6, h7, h8, h9⟩
    · refine .inl ⟨?_, ?_⟩
      · unfold hoverShown
        rw [h5]
        rfl
      · rintro n range ⟨own', w', a1, a2, a3⟩
        rw [h1] at a1
        cases a1
        rw [hw] at a2
        cases a2
        rcases a3 with ⟨a3, _⟩ | ⟨_, m, ranges, r, b1, b2, b3, b4, _⟩
        · exact hsel a3
        · exact h6 n ⟨m, ranges, r, b1, b2, b3, b4⟩
    · obtain ⟨v, file, hd, ht⟩ := key n _ h5 (hl path m n ranges h6 h7)
      exact .inr ⟨n, v, file, getRange r, ⟨own, w, h1, hw, .inr ⟨hsel, m, ranges, r, h6, h7, h8, h9, rfl⟩⟩, hd, ht⟩

/-- Outside of all declarations of a file hover shows the file itself, whatever is recorded at the cursor. -/
theorem C62_toplevel (h : Host) (H : HashOrder) (st : Backend) (hi : Serving h st) (hl : RefsLive st)
    (hv : ∀ n v p, st.arena.Has n v p → Short v) (disk : Text → Option Text) (position : Pos) (path : Text) (f : NodeId) (v : Symbol)
    (hf : Dict.get? st.files path = some f) (hfv : st.arena.get? f = some v)
    (hin : Pos.Le v.range.start position ∧ Pos.Le position v.range.end)
    (hout : ∀ n w, st.arena.Has n w (some f) → w.Placed → ¬ (Pos.Le w.range.start position ∧ Pos.Le position w.range.end)) :
    ∃ t, hoverShown disk H st position path = .ok (some (v.range, t)) ∧
        Shows (disk path) v.range.start.line v.range.end.line t := by
  have hs := hi.clean
  obtain ⟨fv, hfn, hkind, hname⟩ := hs.files path f hf
  have e : fv = v := by
    rw [hfn.get? hs.arena] at hfv
    exact Option.some.inj hfv
  subst e
  have hat : symbolAt position f st.arena = some f := by
    obtain ⟨m, l, h1, h2, h3, _⟩ := C24_innermost hs.arena hfn.live position
    cases h2 with
    | here => exact h1
    | down hch hc _ =>
      obtain ⟨kids, hk, hmem⟩ := Arena.has_children hs.arena hfn
      rw [hk] at hch
      cases hch
      obtain ⟨h4, h5⟩ := h3 _ (List.mem_cons_self ..)
      exact absurd ((C23_in_range_exact _ _).1 h5) (hout _ _ ((hmem _ _).1 hc) h4)
  obtain ⟨own, w, p, h1, h2, h3, _⟩ := C42_hover h H st hi hl position path f hf
  rw [hat] at h1
  cases h1
  obtain ⟨_, rfl, rfl⟩ := h2.unique hs.arena hfn rfl
  have hh := h3 (by rw [hs.whole f w hfn]; exact hin)
  have hle : w.range.start.line ≤ w.range.end.line := by
    obtain ⟨a, b⟩ := hin
    rcases a with a | a <;> rcases b with b | b <;> omega
  obtain ⟨file, hd, ht⟩ := C62_text h.U st hs.toSafe disk f w none hfn (hv f w none hfn)
  have hp : file = path := by
    obtain ⟨_, g, hg, hb⟩ := hd
    obtain ⟨gv, hgv, _, hgn⟩ := hs.files file g hg
    have : g = f := by
      cases hb with
      | self => rfl
      | down _ hx =>
        obtain ⟨_, _, e⟩ := hx.unique hs.arena hfn rfl
        exact nomatch e
    subst this
    obtain ⟨_, rfl, _⟩ := hgv.unique hs.arena hfn rfl
    exact hgn.symm.trans hname
  subst hp
  rcases ht with ⟨t, ht, hsh⟩ | ⟨_, hlt, _⟩
  · refine ⟨t, ?_, hsh⟩
    unfold hoverShown
    rw [hh]
    simp only [Out.bind_ok]
    rw [hfn.get? hs.arena]
    simp only [Out.ofOption_some, Out.bind_ok, ht]
    rfl
  · omega

/-! ## Witnesses -/

/-- What hover shows in the file `b.php` of some files, as text; `none` is a crash. -/
private def shownIn (files : List (Text × Text)) (position : Pos) : Option Text :=
  match startAndOpen files c!"b.php" with
  | .ok st =>
    match hoverShown (Dict.get? files) HashOrder.id st position c!"b.php" with
    | .ok (some x) => some x.2
    | .ok none => some []
    | _ => none
  | _ => some []

/-- The files of the next example and theorem. -/
private abbrev calls : List (Text × Text) :=
  [(c!"a.php", c!"<?php\nfunction f() {\n}\n"), (c!"b.php", c!"<?php\nfunction g() {\nf();\n}\nf();\n")]

private theorem plain_calls : ∀ s, Dict.get? calls c!"b.php" = some s → Plain plainHost s := by
  intro s e
  have : s = c!"<?php\nfunction g() {\nf();\n}\nf();\n" := by
    have h : Dict.get? calls c!"b.php" = some c!"<?php\nfunction g() {\nf();\n}\nf();\n" := by decide
    rw [h] at e
    injection e with e
    exact e.symm
  subst this
  exact plain_of_check 30 (by decide +kernel)

/-- The hypotheses of `C62_shown` and of `C62_toplevel` hold behind the start of a workspace: line 4 is outside of all declarations
and a symbol is recorded there. -/
example : ∃ st, startAndOpen calls c!"b.php" = .ok st ∧ Serving plainHost st ∧ RefsLive st ∧
    (∀ n v p, st.arena.Has n v p → Short v) ∧ (∃ n, Recorded st c!"b.php" ⟨4, 0⟩ n) ∧
    ∃ f v, Dict.get? st.files c!"b.php" = some f ∧ st.arena.get? f = some v ∧
      (Pos.Le v.range.start ⟨4, 0⟩ ∧ Pos.Le ⟨4, 0⟩ v.range.end) ∧
      ∀ n w, st.arena.Has n w (some f) → w.Placed → ¬ (Pos.Le w.range.start ⟨4, 0⟩ ∧ Pos.Le ⟨4, 0⟩ w.range.end) := by
  have hb : (match startAndOpen calls c!"b.php" with
      | .ok st => refsLiveB st && recordedB st c!"b.php" ⟨4, 0⟩ ⟨1, 0⟩ &&
          (st.arena.forest.flatUp none).all (fun e => decide (e.2.1.range.end.line < Fs.u32Max)) &&
          decide (Dict.get? st.files c!"b.php" = some ⟨2, 0⟩) &&
          (match st.arena.get? ⟨2, 0⟩ with
          | some v => inRange ⟨4, 0⟩ v.range
          | none => false) &&
          (st.arena.forest.flatUp none).all (fun e => decide (e.2.2 = some ⟨2, 0⟩ → inRange ⟨4, 0⟩ e.2.1.range = false))
      | _ => false) = true := by decide +kernel
  cases e : startAndOpen calls c!"b.php" with
  | ok st =>
    rw [e] at hb
    simp only [Bool.and_eq_true, decide_eq_true_eq, List.all_eq_true] at hb
    obtain ⟨⟨⟨⟨⟨h1, h2⟩, h3⟩, h4⟩, h5⟩, h6⟩ := hb
    cases hv : st.arena.get? ⟨2, 0⟩ with
    | none => rw [hv] at h5; cases h5
    | some v =>
      rw [hv] at h5
      exact ⟨st, rfl, serving_startAndOpen plain_calls e, refsLiveB_sound h1, (fun n v p hn => h3 _ hn), ⟨_, recordedB_sound h2⟩,
        _, v, h4, hv, (C23_in_range_exact _ _).1 h5, (fun n w hn _ hin => by
          have := h6 _ hn rfl
          rw [(C23_in_range_exact _ _).2 hin] at this
          cases this)⟩
  | panic => rw [e] at hb; cases hb
  | deep => rw [e] at hb; cases hb

/-- Hover on the call in `g` shows the function `f`; the same call at the top level shows the whole file. -/
theorem C62_violated_toplevel :
    (shownIn calls ⟨2, 0⟩, shownIn calls ⟨4, 0⟩) =
    (some c!"\n# Documentation\n```php\n<?php\nfunction f() {\n}\n\n```\n",
      some c!"\n# Documentation\n```php\n<?php\n<?php\nfunction g() {\nf();\n}\nf();\n\n```\n") := by decide +kernel

/-- The text in the editor has a line more than the file on the disk: the line behind the declaration is shown. -/
theorem C62_violated_unsaved :
    (match (do
        let st ← startAndOpen [(c!"b.php", c!"<?php\nfunction g() {}\n$x = 1;\n")] c!"b.php"
        let st ← Backend.didChange plainHost c!"b.php" [c!"<?php\n\nfunction g() {}\n$x = 1;\n"] st
        hoverShown (Dict.get? [(c!"b.php", c!"<?php\nfunction g() {}\n$x = 1;\n")]) HashOrder.id st ⟨2, 9⟩ c!"b.php" : Out _) with
      | .ok (some x) => x.2
      | _ => []) = c!"\n# Documentation\n```php\n<?php\n$x = 1;\n\n```\n" := by decide +kernel

/-- The function `f` of `a.php` is not complete, and hover on its call crashes. -/
theorem C62_violated_crash :
    shownIn [(c!"a.php", c!"<?php\n\n\nfunction f() {\n"), (c!"b.php", c!"<?php\nfunction g() {\nf();\n}\n")] ⟨2, 0⟩ = none := by
  decide +kernel

end PhpLs
