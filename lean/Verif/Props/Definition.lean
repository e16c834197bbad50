import Verif.ArenaBelow
import Verif.Props.References
import Verif.Props.Range
import Verif.Props.SymbolAt

/-!
# C42, C44: go-to-definition, hover and highlights

All of them look for a recorded reference that contains the cursor.

* `C42_sound`: go-to-definition leads to the name of a symbol that is recorded at the cursor, in the indexed file this symbol is
  declared in.  `C42_complete`: if a symbol is recorded at the cursor there is an answer; `C42_nothing`: otherwise there is none.
  `C42_deterministic_partial`: the answer does not depend on the order of hash maps, if one symbol is recorded at the cursor.
  `C42_hover`: the same for hover, which looks at the own name of the innermost symbol first.
  `C42_violated_order`: with two symbols at the cursor the answer depends on the order.  `C42_violated_declaration`: on the name of
  a class constant in its declaration there is no answer.
* `C44_exact_partial`: the highlights are exactly the recorded places of the symbol at the cursor.  `C44_violated_twice`: a place may
  be listed twice; `C44_violated_declaration`: the declaration may be missing.
-/

namespace PhpLs

open Out Backend

/-! ## Specification -/

/-- The position is in the range of a name, or directly behind it. -/
def At (position : Pos) (r : NodeRange) : Prop := Pos.Le (getRange r).start position ∧ Pos.Le position (getRange r).end

/-- The symbol `n` is recorded in a file at the position. -/
def Recorded (st : Backend) (path : Text) (position : Pos) (n : NodeId) : Prop :=
  ∃ m ranges r, Dict.get? st.references path = some m ∧ Dict.get? m n = some ranges ∧ r ∈ ranges ∧ At position r

/-- The name of the symbol `n` is at `loc`: in the indexed file that the symbol is declared in.  A `$` at the start of a relative
path gets lost. -/
def NamedAt (st : Backend) (n : NodeId) (loc : Location) : Prop :=
  ∃ v q f path, st.arena.Has n v (some q) ∧ loc.range = v.selectionRange ∧ Dict.get? st.files path = some f ∧ st.arena.Below f n ∧
    (path = loc.path ∨ path = '$' :: loc.path)

/-! ## Lemmas -/

theorem covers_iff {position : Pos} {l : List NodeRange} : covers position l = true ↔ ∃ r ∈ l, At position r := by
  unfold covers
  rw [List.any_eq_true]
  simp only [C23_in_range_exact]
  rfl

theorem recorded_iff {st : Backend} {path : Text} {position : Pos} {m : FileRefs} (hm : Dict.get? st.references path = some m)
    (hok : Dict.Ok m) (n : NodeId) :
    Recorded st path position n ↔ ∃ ranges, (n, ranges) ∈ m ∧ covers position ranges = true := by
  simp only [covers_iff]
  constructor
  · rintro ⟨m', ranges, r, h1, h2, h3, h4⟩
    rw [hm] at h1
    cases h1
    exact ⟨ranges, Dict.get?_mem h2, r, h3, h4⟩
  · rintro ⟨ranges, h1, r, h2, h3⟩
    exact ⟨m, ranges, r, hm, Dict.mem_get? hok h1, h2, h3⟩

theorem mapM_some {α β : Type} (f : α → Option β) : ∀ (l : List α), (∀ x ∈ l, ∃ y, f x = some y) →
    ∃ ys, l.mapM f = some ys ∧ (∀ y ∈ ys, ∃ x ∈ l, f x = some y) ∧ ∀ x ∈ l, ∃ y ∈ ys, f x = some y
  | [], _ => ⟨[], rfl, (fun _ h => nomatch h), (fun _ h => nomatch h)⟩
  | x :: l, h => by
    obtain ⟨y, hy⟩ := h x (List.mem_cons_self ..)
    obtain ⟨ys, h1, h2, h3⟩ := mapM_some f l fun z hz => h z (List.mem_cons_of_mem _ hz)
    refine ⟨y :: ys, by rw [List.mapM_cons, hy, h1]; rfl, fun z hz => ?_, fun z hz => ?_⟩
    · rcases List.mem_cons.1 hz with rfl | hz
      · exact ⟨x, List.mem_cons_self .., hy⟩
      · obtain ⟨w, hw, e⟩ := h2 z hz
        exact ⟨w, List.mem_cons_of_mem _ hw, e⟩
    · rcases List.mem_cons.1 hz with rfl | hz
      · exact ⟨y, List.mem_cons_self .., hy⟩
      · obtain ⟨w, hw, e⟩ := h3 z hz
        exact ⟨w, List.mem_cons_of_mem _ hw, e⟩

theorem plainName_path (v : Symbol) : v.name = v.plainName ∨ v.name = '$' :: v.plainName := by
  unfold Symbol.plainName
  split
  · next h => exact .inr h
  · exact .inl rfl

/-- The location of a symbol that exists. -/
theorem location_spec {U : Unicode} {st : Backend} (hs : Safe U st) {n : NodeId} {v : Symbol} {p : Option NodeId}
    (hn : st.arena.Has n v p) :
    ∃ o, symbolLocation st.arena n = some o ∧ (∀ loc, o = some loc → NamedAt st n loc) ∧ (o.isSome ↔ p ≠ none) := by
  obtain ⟨t, h1, h2, h3, _⟩ := Arena.mem_ancestors hs.arena hn
  have hlive : ∀ j ∈ t, ∃ w q, st.arena.Has j w q := fun j hj =>
    ((h2 j).1 (List.mem_cons_of_mem _ hj)).live hn |>.has
  obtain ⟨syms, h4, h5, h6⟩ := mapM_some st.arena.get? t fun j hj => by
    obtain ⟨w, q, hw⟩ := hlive j hj
    exact ⟨w, hw.get? hs.arena⟩
  refine ⟨_, by unfold symbolLocation; rw [hn.get? hs.arena, h1]; simp only [Option.bind_eq_bind, Option.bind_some, List.tail_cons, h4]; rfl,
    fun loc e => ?_, ?_⟩
  · obtain ⟨w, hw, rfl⟩ := Option.map_eq_some_iff.1 e
    have hk := List.find?_some hw
    obtain ⟨j, hj, hjw⟩ := h5 w (List.mem_of_find?_eq_some hw)
    obtain ⟨w', q, hjh⟩ := hlive j hj
    rw [hjh.get? hs.arena] at hjw
    cases hjw
    have hq := (hs.rooted j w q hjh).1 (of_decide_eq_true hk)
    subst hq
    obtain ⟨q, rfl, _⟩ := (h3 j).1 hj
    exact ⟨v, q, j, w.name, hn, rfl, hs.indexed j w hjh, (h2 j).1 (List.mem_cons_of_mem _ hj), plainName_path w⟩
  · rw [Option.isSome_map, List.find?_isSome]
    constructor
    · rintro ⟨w, hw, _⟩ rfl
      obtain ⟨j, hj, _⟩ := h5 w hw
      obtain ⟨q, e, _⟩ := (h3 j).1 hj
      cases e
    · intro hp
      obtain ⟨q, rfl⟩ := Option.ne_none_iff_exists'.1 hp
      obtain ⟨w, z, hw⟩ := hn.up
      obtain ⟨r, u, hr, hu⟩ := Arena.has_root hs.arena hw
      obtain ⟨y, hy, e⟩ := h6 r ((h3 r).2 ⟨q, rfl, hr⟩)
      rw [hu.get? hs.arena] at e
      cases e
      exact ⟨u, hy, by simp [(hs.rooted r u none hu).2 rfl]⟩

/-- The loop of `goto_definition`. -/
theorem definitionIn_spec {U : Unicode} {st : Backend} (hs : Safe U st) (position : Pos) : ∀ (l : List (NodeId × List NodeRange)),
    (∀ e ∈ l, st.arena.Live e.1) →
    ∃ o, definitionIn st.arena position l = .ok o ∧
      (∀ loc, o = some loc → ∃ e ∈ l, covers position e.2 = true ∧ NamedAt st e.1 loc) ∧
      ∀ e ∈ l, covers position e.2 = true → st.arena.parent? e.1 ≠ some none → o.isSome
  | [], _ => ⟨none, rfl, (fun _ h => nomatch h), (fun _ h => nomatch h)⟩
  | e :: l, hl => by
    obtain ⟨o, h1, h2, h3⟩ := definitionIn_spec hs position l fun x hx => hl x (List.mem_cons_of_mem _ hx)
    unfold definitionIn
    by_cases hc : covers position e.2 = true
    · rw [if_pos hc]
      obtain ⟨v, p, hv⟩ := (hl e (List.mem_cons_self ..)).has
      obtain ⟨q, h4, h5, h6⟩ := location_spec hs hv
      rw [h4]
      cases q with
      | some loc =>
        refine ⟨some loc, rfl, fun loc' e' => ?_, fun _ _ _ _ => rfl⟩
        cases e'
        exact ⟨e, List.mem_cons_self .., hc, h5 loc rfl⟩
      | none =>
        refine ⟨o, h1, fun loc e' => ?_, fun x hx hcx hp => ?_⟩
        · obtain ⟨x, hx, h⟩ := h2 loc e'
          exact ⟨x, List.mem_cons_of_mem _ hx, h⟩
        · rcases List.mem_cons.1 hx with rfl | hx
          · exfalso
            rw [hv.parent? hs.arena] at hp
            have : p ≠ none := fun e => hp (by rw [e])
            exact absurd (h6.2 this) (by simp)
          · exact h3 x hx hcx hp
    · rw [if_neg hc]
      refine ⟨o, h1, fun loc e' => ?_, fun x hx hcx hp => ?_⟩
      · obtain ⟨x, hx, h⟩ := h2 loc e'
        exact ⟨x, List.mem_cons_of_mem _ hx, h⟩
      · rcases List.mem_cons.1 hx with rfl | hx
        · exact absurd hcx hc
        · exact h3 x hx hcx hp

private theorem entries_live {h : Host} {st : Backend} (hs : Clean h.U st) (hl : RefsLive st) {path : Text} {m : FileRefs}
    (hm : Dict.get? st.references path = some m) (H : HashOrder) : ∀ e ∈ H.order m, st.arena.Live e.1 := fun e he =>
  hl path m e.1 e.2 hm (Dict.mem_get? (hs.tidy path m hm) ((H.perm m).mem_iff.1 he))

/-! ## C42: go-to-definition -/

/-- The answer of go-to-definition is the name of a symbol that is recorded at the cursor. -/
theorem C42_sound (h : Host) (H : HashOrder) (st : Backend) (hi : Serving h st) (hl : RefsLive st) (position : Pos) (path : Text)
    (loc : Location) (e : gotoDefinition H st position path = .ok (some loc)) :
    ∃ n, Recorded st path position n ∧ NamedAt st n loc := by
  have hs := hi.clean
  unfold gotoDefinition at e
  split at e
  · cases e
  · next m hm =>
    obtain ⟨o, h1, h2, _⟩ := definitionIn_spec hs.toSafe position (H.order m) (entries_live hs hl hm H)
    rw [h1] at e
    cases e
    obtain ⟨x, hx, hc, hn⟩ := h2 loc rfl
    exact ⟨x.1, (recorded_iff hm (hs.tidy path m hm) x.1).2 ⟨x.2, (H.perm m).mem_iff.1 hx, hc⟩, hn⟩

/-- If a symbol other than a file is recorded at the cursor, go-to-definition has an answer. -/
theorem C42_complete (h : Host) (H : HashOrder) (st : Backend) (hi : Serving h st) (hl : RefsLive st) (position : Pos) (path : Text)
    (n : NodeId) (hn : Recorded st path position n) (hp : st.arena.parent? n ≠ some none) :
    ∃ loc, gotoDefinition H st position path = .ok (some loc) := by
  have hs := hi.clean
  obtain ⟨m, ranges, r, hm, _⟩ := id hn
  unfold gotoDefinition
  rw [hm]
  obtain ⟨o, h1, _, h3⟩ := definitionIn_spec hs.toSafe position (H.order m) (entries_live hs hl hm H)
  obtain ⟨rs, h4, h5⟩ := (recorded_iff hm (hs.tidy path m hm) n).1 hn
  have := h3 (n, rs) ((H.perm m).mem_iff.2 h4) h5 hp
  obtain ⟨loc, rfl⟩ := Option.isSome_iff_exists.1 this
  exact ⟨loc, h1⟩

/-- If nothing is recorded at the cursor, there is no answer, and no panic. -/
theorem C42_nothing (h : Host) (H : HashOrder) (st : Backend) (hi : Serving h st) (position : Pos) (path : Text)
    (hn : ∀ n, ¬ Recorded st path position n) : gotoDefinition H st position path = .ok none := by
  have hs := hi.clean
  unfold gotoDefinition
  split
  · rfl
  · next m hm =>
    have key : ∀ l : List (NodeId × List NodeRange), (∀ e ∈ l, covers position e.2 ≠ true) →
        definitionIn st.arena position l = .ok none := by
      intro l
      induction l with
      | nil => intro _; rfl
      | cons x l ih =>
        intro hc
        unfold definitionIn
        rw [if_neg (hc x (List.mem_cons_self ..))]
        exact ih fun y hy => hc y (List.mem_cons_of_mem _ hy)
    refine key _ fun e he hc => hn e.1 ?_
    exact (recorded_iff hm (hs.tidy path m hm) e.1).2 ⟨e.2, (H.perm m).mem_iff.1 he, hc⟩

/-- The location of a symbol is one place. -/
theorem NamedAt.unique {U : Unicode} {st : Backend} (hs : Safe U st) {n : NodeId} {l l' : Location}
    (hd : ∀ path f, Dict.get? st.files path = some f → path.head? ≠ some '$') (h : NamedAt st n l)
    (h' : NamedAt st n l') : l = l' := by
  obtain ⟨v, p, f, path, h1, h2, h3, h4, h5⟩ := h
  obtain ⟨v', p', f', path', h1', h2', h3', h4', h5'⟩ := h'
  obtain ⟨_, rfl, _⟩ := h1.unique hs.arena h1' rfl
  obtain ⟨w, hw, _, hwn⟩ := hs.files path f h3
  obtain ⟨w', hw', _, hwn'⟩ := hs.files path' f' h3'
  have hff := Arena.root_unique hs.arena hw hw' h4 h4'
  subst hff
  obtain ⟨_, rfl, _⟩ := hw.unique hs.arena hw' rfl
  have hpp : path = path' := by rw [← hwn, ← hwn']
  subst hpp
  have hp : path = l.path := h5.resolve_right fun e => hd path f h3 (by rw [e]; rfl)
  have hp' : path = l'.path := h5'.resolve_right fun e => hd path f h3 (by rw [e]; rfl)
  cases l
  cases l'
  simp_all

/-- If one symbol is recorded at the cursor, the answer does not depend on the order of the hash maps.  Missing: if there are
several the first one wins, see `C42_violated_order`. -/
theorem C42_deterministic_partial (h : Host) (H H' : HashOrder) (st : Backend) (hi : Serving h st) (hl : RefsLive st)
    (hd : ∀ path f, Dict.get? st.files path = some f → path.head? ≠ some '$') (position : Pos)
    (path : Text) (hu : ∀ n n', Recorded st path position n → Recorded st path position n' → n = n') :
    gotoDefinition H st position path = gotoDefinition H' st position path := by
  have hs := hi.clean
  cases hm : Dict.get? st.references path with
  | none => unfold gotoDefinition; rw [hm]
  | some m =>
    obtain ⟨o, h1, h2, h3⟩ := definitionIn_spec hs.toSafe position (H.order m) (entries_live hs hl hm H)
    obtain ⟨o', h1', h2', h3'⟩ := definitionIn_spec hs.toSafe position (H'.order m) (entries_live hs hl hm H')
    have e : gotoDefinition H st position path = .ok o := by unfold gotoDefinition; rw [hm]; exact h1
    have e' : gotoDefinition H' st position path = .ok o' := by unfold gotoDefinition; rw [hm]; exact h1'
    rw [e, e']
    have hrec : ∀ (K : HashOrder) x, x ∈ K.order m → covers position x.2 = true → Recorded st path position x.1 := fun K x hx hc =>
      (recorded_iff hm (hs.tidy path m hm) x.1).2 ⟨x.2, (K.perm m).mem_iff.1 hx, hc⟩
    have cross : ∀ (K K' : HashOrder) (p p' : Option Location),
        (∀ loc, p = some loc → ∃ e ∈ K.order m, covers position e.2 = true ∧ NamedAt st e.1 loc) →
        (∀ loc, p' = some loc → ∃ e ∈ K'.order m, covers position e.2 = true ∧ NamedAt st e.1 loc) →
        (∀ e ∈ K'.order m, covers position e.2 = true → st.arena.parent? e.1 ≠ some none → p'.isSome) →
        ∀ loc, p = some loc → p' = some loc := by
      intro K K' p p' k2 k2' k3' loc hp
      obtain ⟨x, hx, hc, hn⟩ := k2 loc hp
      have hx' : x ∈ K'.order m := (K'.perm m).mem_iff.2 ((K.perm m).mem_iff.1 hx)
      have hpar : st.arena.parent? x.1 ≠ some none := by
        obtain ⟨v, q, f, pa, g1, _⟩ := hn
        rw [g1.parent? hs.arena]
        exact fun e0 => by cases e0
      have := k3' x hx' hc hpar
      obtain ⟨loc', rfl⟩ := Option.isSome_iff_exists.1 this
      obtain ⟨y, hy, hcy, hny⟩ := k2' loc' rfl
      have : x.1 = y.1 := hu _ _ (hrec K x hx hc) (hrec K' y hy hcy)
      rw [← this] at hny
      rw [hn.unique hs.toSafe hd hny]
    cases o with
    | some loc => rw [cross H H' _ _ h2 h2' h3' loc rfl]
    | none =>
      cases o' with
      | none => rfl
      | some loc => exact absurd (cross H' H _ _ h2' h2 h3 loc rfl) (by simp)

/-! ### Non-vacuity -/

namespace Backend

/-- A check of `RefsLive`. -/
def refsLiveB (st : Backend) : Bool := st.references.all fun e => e.2.all fun x => decide (st.arena.Live x.1)

theorem refsLiveB_sound {st : Backend} (h : refsLiveB st = true) : RefsLive st := by
  intro path m n ranges hm hn
  unfold refsLiveB at h
  have h1 := List.all_eq_true.1 h (path, m) (Dict.get?_mem hm)
  have h2 := List.all_eq_true.1 h1 (n, ranges) (Dict.get?_mem hn)
  exact of_decide_eq_true h2

/-- A check of `Recorded`. -/
def recordedB (st : Backend) (path : Text) (position : Pos) (n : NodeId) : Bool :=
  match Dict.get? st.references path with
  | some m =>
    match Dict.get? m n with
    | some ranges => covers position ranges
    | none => false
  | none => false

theorem recordedB_sound {st : Backend} {path : Text} {position : Pos} {n : NodeId} (h : recordedB st path position n = true) :
    Recorded st path position n := by
  unfold recordedB at h
  split at h
  · next m hm =>
    split at h
    · next ranges hr =>
      obtain ⟨r, h1, h2⟩ := covers_iff.1 h
      exact ⟨m, ranges, r, hm, hr, h1, h2⟩
    · cases h
  · cases h

/-- A start of the server followed by the opening of a file is a history. -/
theorem serving_startAndOpen {files : List (Text × Text)} {path : Text} {st : Backend}
    (hp : ∀ s, Dict.get? files path = some s → Plain plainHost s) (e : startAndOpen files path = .ok st) : Serving plainHost st := by
  unfold startAndOpen startWith at e
  obtain ⟨st1, h1, h2⟩ := Out.bind_eq_ok e
  exact .open path _ (.workspace files .start h1) hp h2

end Backend

private abbrev two : List (Text × Text) := [(c!"a.php", c!"<?php class A {}"), (c!"b.php", c!"<?php function f(A $a) { $a; f(); }")]

private theorem plain_two : ∀ s, Dict.get? two c!"b.php" = some s → Plain plainHost s := by
  intro s e
  have : s = c!"<?php function f(A $a) { $a; f(); }" := by
    have h : Dict.get? two c!"b.php" = some c!"<?php function f(A $a) { $a; f(); }" := by decide
    rw [h] at e
    injection e with e
    exact e.symm
  subst this
  exact plain_of_check 30 (by decide +kernel)

/-- Two files, one of them opened: the class, the parameter and the function are recorded where they are mentioned. -/
example : ∃ st, startAndOpen two c!"b.php" = .ok st ∧ Serving plainHost st ∧ RefsLive st ∧
    (∃ n, Recorded st c!"b.php" ⟨0, 18⟩ n ∧ st.arena.parent? n ≠ some none) ∧
    (∃ n, Recorded st c!"b.php" ⟨0, 26⟩ n ∧ st.arena.parent? n ≠ some none) ∧
    gotoDefinition HashOrder.rev st ⟨0, 18⟩ c!"b.php" = .ok (some ⟨c!"a.php", ⟨⟨0, 12⟩, ⟨0, 13⟩⟩⟩) ∧
    gotoDefinition HashOrder.rev st ⟨0, 26⟩ c!"b.php" = .ok (some ⟨c!"b.php", ⟨⟨0, 19⟩, ⟨0, 21⟩⟩⟩) := by
  have hb : (match startAndOpen two c!"b.php" with
      | .ok st => refsLiveB st && recordedB st c!"b.php" ⟨0, 18⟩ ⟨1, 0⟩ && recordedB st c!"b.php" ⟨0, 26⟩ ⟨5, 0⟩ &&
          decide (st.arena.parent? ⟨1, 0⟩ ≠ some none) && decide (st.arena.parent? ⟨5, 0⟩ ≠ some none) &&
          decide (gotoDefinition HashOrder.rev st ⟨0, 18⟩ c!"b.php" = .ok (some ⟨c!"a.php", ⟨⟨0, 12⟩, ⟨0, 13⟩⟩⟩)) &&
          decide (gotoDefinition HashOrder.rev st ⟨0, 26⟩ c!"b.php" = .ok (some ⟨c!"b.php", ⟨⟨0, 19⟩, ⟨0, 21⟩⟩⟩))
      | _ => false) = true := by decide +kernel
  cases e : startAndOpen two c!"b.php" with
  | ok st =>
    rw [e] at hb
    simp only [Bool.and_eq_true, decide_eq_true_eq] at hb
    obtain ⟨⟨⟨⟨⟨⟨h1, h2⟩, h3⟩, h4⟩, h5⟩, h6⟩, h7⟩ := hb
    exact ⟨st, rfl, serving_startAndOpen plain_two e, refsLiveB_sound h1, ⟨_, recordedB_sound h2, h4⟩,
      ⟨_, recordedB_sound h3, h5⟩, h6, h7⟩
  | panic => rw [e] at hb; cases hb
  | deep => rw [e] at hb; cases hb

/-- The parameter `$x` (node 5) and the variable `$x` of the loop (node 6) are both recorded at `$x` of the call: go-to-definition
leads to one of them, depending on the order of the hash map. -/
theorem C42_violated_order :
    (match startAndOpen [(c!"a.php", c!"<?php class A { public function m(): A { } } function f(A $x) { foreach ($x->m() as $x) { } }")]
        c!"a.php" with
      | .ok st => [gotoDefinition HashOrder.id st ⟨0, 73⟩ c!"a.php", gotoDefinition HashOrder.rev st ⟨0, 73⟩ c!"a.php"]
      | _ => []) = [.ok (some ⟨c!"a.php", ⟨⟨0, 84⟩, ⟨0, 86⟩⟩⟩), .ok (some ⟨c!"a.php", ⟨⟨0, 58⟩, ⟨0, 60⟩⟩⟩)] := by decide +kernel

private abbrev withConst : List (Text × Text) := [(c!"a.php", c!"<?php class A { const C = 1; function m() { return self::C; } }")]

/-- The cursor is on `C` in `const C = 1`: no answer, although the use of `C` leads there. -/
theorem C42_violated_declaration :
    (match startAndOpen withConst c!"a.php" with
      | .ok st => [gotoDefinition HashOrder.id st ⟨0, 22⟩ c!"a.php", gotoDefinition HashOrder.id st ⟨0, 57⟩ c!"a.php"]
      | _ => []) = [.ok none, .ok (some ⟨c!"a.php", ⟨⟨0, 22⟩, ⟨0, 27⟩⟩⟩)] := by decide +kernel

/-! ## C42: hover -/

/-- The search for a recorded symbol at the cursor. -/
theorem find_recorded {st : Backend} {path : Text} {position : Pos} {m : FileRefs} (hm : Dict.get? st.references path = some m)
    (hok : Dict.Ok m) (H : HashOrder) :
    ((H.order m).find? (fun e => covers position e.2) = none ∧ ∀ n, ¬ Recorded st path position n) ∨
    ∃ n ranges r, (H.order m).find? (fun e => covers position e.2) = some (n, ranges) ∧ Recorded st path position n ∧
      Dict.get? m n = some ranges ∧ ranges.find? (fun r => inRange position (getRange r)) = some r ∧ r ∈ ranges ∧ At position r := by
  cases hf : (H.order m).find? (fun e => covers position e.2) with
  | none =>
    refine .inl ⟨rfl, fun n hn => ?_⟩
    obtain ⟨ranges, h1, h2⟩ := (recorded_iff hm hok n).1 hn
    exact absurd h2 (by simpa using List.find?_eq_none.1 hf (n, ranges) ((H.perm m).mem_iff.2 h1))
  | some e =>
    have h1 : e ∈ m := (H.perm m).mem_iff.1 (List.mem_of_find?_eq_some hf)
    have h2 : covers position e.2 = true := by simpa using List.find?_some hf
    obtain ⟨r0, h3, h4⟩ := covers_iff.1 h2
    have h5 : (e.2.find? fun r => inRange position (getRange r)).isSome := by
      rw [List.find?_isSome]
      exact ⟨r0, h3, (C23_in_range_exact _ _).2 h4⟩
    obtain ⟨r, h6⟩ := Option.isSome_iff_exists.1 h5
    exact .inr ⟨e.1, e.2, r, rfl, (recorded_iff hm hok e.1).2 ⟨e.2, h1, h2⟩, Dict.mem_get? hok h1, h6,
      List.mem_of_find?_eq_some h6, (C23_in_range_exact _ _).1 (by simpa using List.find?_some h6)⟩

/-- Hover never fails.  If the cursor is on the own name of the innermost symbol at the cursor (`C24_innermost`), it describes this
symbol.  Otherwise it describes a symbol that is recorded at the cursor and marks this place, and only if there is none it has no
answer. -/
theorem C42_hover (h : Host) (H : HashOrder) (st : Backend) (hi : Serving h st) (hl : RefsLive st) (position : Pos) (path : Text)
    (f : NodeId) (hf : Dict.get? st.files path = some f) :
    ∃ own v p, symbolAt position f st.arena = some own ∧ st.arena.Has own v p ∧
      ((Pos.Le v.selectionRange.start position ∧ Pos.Le position v.selectionRange.end →
        hover H st position path = .ok (some (own, v.range))) ∧
      (¬ (Pos.Le v.selectionRange.start position ∧ Pos.Le position v.selectionRange.end) →
        (hover H st position path = .ok none ∧ ∀ n, ¬ Recorded st path position n) ∨
        ∃ n m ranges r, hover H st position path = .ok (some (n, getRange r)) ∧ Dict.get? st.references path = some m ∧
          Dict.get? m n = some ranges ∧ r ∈ ranges ∧ At position r)) := by
  have hs := hi.clean
  obtain ⟨fv, hfv, -⟩ := hs.files path f hf
  obtain ⟨own, l, h1, h2, -⟩ := C24_innermost hs.arena hfv.live position
  have hown : ∃ v p, st.arena.Has own v p := by
    have hb : st.arena.Live own := by
      clear h1 hf
      revert hfv
      generalize none = z
      intro hfv
      induction h2 generalizing fv z with
      | here => exact hfv.live
      | down hch hc _ ih =>
        obtain ⟨kids, hk, hmem⟩ := Arena.has_children hs.arena hfv
        rw [hk] at hch
        cases hch
        exact ih _ _ ((hmem _ _).1 hc)
    exact hb.has
  obtain ⟨v, p, hv⟩ := hown
  refine ⟨own, v, p, h1, hv, ?_⟩
  have hu : hover H st position path = (match (if inRange position v.selectionRange then some (own, v.range) else none) with
      | some x => .ok (some x)
      | none =>
        match Dict.get? st.references path with
        | none => .ok none
        | some refs =>
          match (H.order refs).find? fun e => covers position e.2 with
          | none => .ok none
          | some e => do
            let _ ← .ofOption (st.arena.get? e.1)
            pure ((e.2.find? fun r => inRange position (getRange r)).map fun r => (e.1, getRange r))) := by
    unfold hover symbolUnderCursor
    simp only [hf, h1, Out.ofOption_some, Out.bind_ok, hv.get? hs.arena, Out.pure_eq]
    rfl
  rw [hu, ← C23_in_range_exact]
  constructor
  · intro hr
    rw [if_pos hr]
  · intro hr
    rw [if_neg hr]
    cases hm : Dict.get? st.references path with
    | none =>
      refine .inl ⟨rfl, fun n hn => ?_⟩
      obtain ⟨m, _, _, e, _⟩ := hn
      rw [hm] at e
      cases e
    | some m =>
      rcases find_recorded hm (hs.tidy path m hm) H with ⟨e, hn⟩ | ⟨n, ranges, r, e, hn, h3, h4, h5, h6⟩
      · refine .inl ⟨?_, hn⟩
        dsimp only
        rw [e]
      · refine .inr ⟨n, m, ranges, r, ?_, rfl, h3, h5, h6⟩
        obtain ⟨w, q, hw⟩ := (hl path m n ranges hm h3).has
        dsimp only
        rw [e]
        dsimp only
        rw [hw.get? hs.arena, h4]
        rfl

/-- The name of the method: its own range.  Its use: the place of the use. -/
example : (match startAndOpen [(c!"a.php", c!"<?php class A { function m() { $this->m(); } }")] c!"a.php" with
      | .ok st => [hover HashOrder.id st ⟨0, 25⟩ c!"a.php", hover HashOrder.id st ⟨0, 39⟩ c!"a.php", hover HashOrder.id st ⟨0, 8⟩ c!"a.php"]
      | _ => []) = [.ok (some (⟨3, 0⟩, ⟨⟨0, 16⟩, ⟨0, 44⟩⟩)), .ok (some (⟨3, 0⟩, ⟨⟨0, 38⟩, ⟨0, 39⟩⟩)), .ok none] := by decide +kernel

/-! ## C44 -/

/-- The highlights are all recorded places of a symbol that is recorded at the cursor, in the order in which they were recorded; there
are none iff nothing is recorded.  If there is one such symbol these are its places.  Missing: the declaration may not be
recorded and a place may be recorded twice, see below. -/
theorem C44_exact_partial (h : Host) (H : HashOrder) (st : Backend) (hi : Serving h st) (position : Pos) (path : Text) :
    (documentHighlight H st position path = none ↔ ∀ n, ¬ Recorded st path position n) ∧
    (∀ l, documentHighlight H st position path = some l → ∃ n m ranges, Recorded st path position n ∧
      Dict.get? st.references path = some m ∧ Dict.get? m n = some ranges ∧ l = ranges.map getRange) ∧
    (∀ n m ranges, Recorded st path position n → (∀ n', Recorded st path position n' → n' = n) →
      Dict.get? st.references path = some m → Dict.get? m n = some ranges →
      documentHighlight H st position path = some (ranges.map getRange)) := by
  have hs := hi.clean
  unfold documentHighlight
  cases hm : Dict.get? st.references path with
  | none =>
    refine ⟨⟨fun _ n hn => ?_, fun _ => rfl⟩, (fun _ e => nomatch e), (fun _ _ _ _ _ e => nomatch e)⟩
    obtain ⟨m, _, _, e, _⟩ := hn
    rw [hm] at e
    cases e
  | some m =>
    dsimp only
    rcases find_recorded hm (hs.tidy path m hm) H with ⟨e, hn⟩ | ⟨n, ranges, r, e, hn, h3, _⟩
    · rw [e]
      exact ⟨⟨fun _ => hn, fun _ => rfl⟩, (fun _ e => nomatch e), fun n _ _ h => absurd h (hn n)⟩
    · rw [e]
      refine ⟨⟨(fun e => nomatch e), fun h => absurd hn (h n)⟩, fun l e' => ?_, fun n' m' ranges' _ hu hm' hr' => ?_⟩
      · cases e'
        exact ⟨n, m, ranges, hn, rfl, h3, rfl⟩
      · cases hm'
        rw [hu n hn] at h3
        rw [h3] at hr'
        cases hr'
        rfl

/-- The three places of a parameter. -/
example : (match startAndOpen [(c!"a.php", c!"<?php function f($a) { $a; f($a); }")] c!"a.php" with
      | .ok st => documentHighlight HashOrder.rev st ⟨0, 24⟩ c!"a.php"
      | _ => none) = some [⟨⟨0, 17⟩, ⟨0, 19⟩⟩, ⟨⟨0, 23⟩, ⟨0, 25⟩⟩, ⟨⟨0, 29⟩, ⟨0, 31⟩⟩] := by decide +kernel

/-- The method `m` is mentioned in its declaration and in the head of the loop; the second place is listed twice. -/
theorem C44_violated_twice :
    (match startAndOpen [(c!"a.php", c!"<?php class A { public function m() { foreach ($this->m() as $y) { $y; } } }")] c!"a.php" with
      | .ok st => documentHighlight HashOrder.id st ⟨0, 33⟩ c!"a.php"
      | _ => none) = some [⟨⟨0, 32⟩, ⟨0, 33⟩⟩, ⟨⟨0, 54⟩, ⟨0, 55⟩⟩, ⟨⟨0, 54⟩, ⟨0, 55⟩⟩] := by decide +kernel

/-- The constant `C` is mentioned in its declaration and in the method; the first place is missing. -/
theorem C44_violated_declaration :
    (match startAndOpen withConst c!"a.php" with
      | .ok st => [documentHighlight HashOrder.id st ⟨0, 22⟩ c!"a.php", documentHighlight HashOrder.id st ⟨0, 57⟩ c!"a.php"]
      | _ => []) = [none, some [⟨⟨0, 57⟩, ⟨0, 58⟩⟩]] := by decide +kernel

end PhpLs
