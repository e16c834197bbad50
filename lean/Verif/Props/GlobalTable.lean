import Verif.ResolveLemmas

/-!
# C34, C35, C36: the table of global symbols

`BackendState::global_symbols` maps lower case names to symbols.  `Indexing` are the histories of operations that index files,
`Serving` those of all notifications and requests.

* `C34_clash`: two names have the same place in the table iff they are equal up to case; `C34_parts`: iff the namespaces and the
  short names are.  `C34_violated`: functions of different namespaces have the same place, as they get no namespace.
* `C35_table`: each entry of the table is a symbol that exists, that is declared at the top of a file that is indexed and that has
  this name.  `C35_serving_partial`: the same for all requests, if no comment of the form `/** @var T $x */` is in the files.
* `C36_workspace`: behind the start of the server each global symbol of each file is found by its name.
  `C36_index_partial`: this is kept when a file is indexed, if no name of a symbol at the top of the old file is used by another file.
  `C36_violated`, `C36_violated_variable`: without this condition it is not.
-/

namespace PhpLs

open Out

/-! ## Equality up to case -/

/-- The same letter, or the upper and the lower case form of a letter (ASCII). -/
def SameLetter (c d : Char) : Prop :=
  c = d ∨ ('A' ≤ c ∧ c ≤ 'Z' ∧ d.toNat = c.toNat + 32) ∨ ('A' ≤ d ∧ d ≤ 'Z' ∧ c.toNat = d.toNat + 32)

/-- Equality of texts up to case. -/
inductive CaseEq : Text → Text → Prop where
  | nil : CaseEq [] []
  | cons {c d : Char} {s t : Text} : SameLetter c d → CaseEq s t → CaseEq (c :: s) (d :: t)

/-- ASCII. -/
def Ascii (t : Text) : Prop := ∀ c ∈ t, c.toNat < 128

instance : DecidableRel SameLetter := fun c d => by unfold SameLetter; exact inferInstance

private theorem ascii_ofNat {c : Char} (h : c.toNat < 128) : ∃ n : Fin 128, c = Char.ofNat n.1 :=
  ⟨⟨c.toNat, h⟩, (Char.ofNat_toNat c).symm⟩

private theorem lower_table : ∀ n m : Fin 128, (Char.ofNat n.1).toLower = (Char.ofNat m.1).toLower ↔
    SameLetter (Char.ofNat n.1) (Char.ofNat m.1) := by decide +kernel

private theorem lower_iff {c d : Char} (hc : c.toNat < 128) (hd : d.toNat < 128) :
    c.toLower = d.toLower ↔ SameLetter c d := by
  obtain ⟨n, rfl⟩ := ascii_ofNat hc
  obtain ⟨m, rfl⟩ := ascii_ofNat hd
  exact lower_table n m

theorem lower_caseEq (U : Unicode) : ∀ {s t : Text}, Ascii s → Ascii t → (U.lower s = U.lower t ↔ CaseEq s t) := by
  have key : ∀ s t : Text, Ascii s → Ascii t → (s.map Char.toLower = t.map Char.toLower ↔ CaseEq s t) := by
    intro s
    induction s with
    | nil =>
      intro t _ _
      cases t with
      | nil => exact ⟨fun _ => .nil, fun _ => rfl⟩
      | cons d t => exact ⟨fun h => (by cases h), fun h => (by cases h)⟩
    | cons c s ih =>
      intro t hs ht
      cases t with
      | nil => exact ⟨fun h => (by cases h), fun h => (by cases h)⟩
      | cons d t =>
        rw [List.map_cons, List.map_cons, List.cons.injEq, lower_iff (hs c (by simp)) (ht d (by simp)),
          ih t (fun x hx => hs x (List.mem_cons_of_mem _ hx)) (fun x hx => ht x (List.mem_cons_of_mem _ hx))]
        constructor
        · exact fun h => .cons h.1 h.2
        · intro h
          cases h with
          | cons h1 h2 => exact ⟨h1, h2⟩
  intro s t hs ht
  rw [U.lower_ascii s hs, U.lower_ascii t ht]
  exact key s t hs ht

/-! ## C34 -/

/-- A symbol takes the place of another one in the table iff their full names are equal up to case. -/
theorem C34_clash (U : Unicode) (v w : Symbol) (hv : Ascii v.fqdn) (hw : Ascii w.fqdn) (g : Dict Text NodeId) (n m : NodeId)
    (hne : n ≠ m) :
    Dict.get? (Dict.insert (Dict.insert g (Backend.key U v) n) (Backend.key U w) m) (Backend.key U v) = some m ↔
      CaseEq v.fqdn w.fqdn := by
  rw [Dict.get?_insert, Dict.get?_insert, if_pos rfl, ← lower_caseEq U hv hw]
  constructor
  · intro h
    by_cases e : Backend.key U w = Backend.key U v
    · exact e.symm
    · rw [if_neg e] at h
      injection h with h
      exact absurd h hne
  · intro e
    rw [if_pos]
    exact e.symm

private theorem caseEq_length {s t : Text} (h : CaseEq s t) : s.length = t.length := by
  induction h with
  | nil => rfl
  | cons _ _ ih => simp [ih]

private theorem caseEq_append {s t : Text} (h : CaseEq s t) {s' t' : Text} (h' : CaseEq s' t') : CaseEq (s ++ s') (t ++ t') := by
  induction h with
  | nil => exact h'
  | cons h _ ih => exact .cons h ih

private theorem slash_letter {c d : Char} (h : SameLetter c d) : c = '\\' ↔ d = '\\' := by
  rcases h with rfl | ⟨h1, h2, h3⟩ | ⟨h1, h2, h3⟩
  · exact Iff.rfl
  · constructor
    · rintro rfl; exact absurd h2 (by decide)
    · rintro rfl
      have : c.toNat = 60 := by
        have : ('\\' : Char).toNat = 92 := rfl
        omega
      have e : c = Char.ofNat 60 := by rw [← this, Char.ofNat_toNat]
      rw [e] at h1
      exact absurd h1 (by decide)
  · constructor
    · rintro rfl
      have : d.toNat = 60 := by
        have : ('\\' : Char).toNat = 92 := rfl
        omega
      have e : d = Char.ofNat 60 := by rw [← this, Char.ofNat_toNat]
      rw [e] at h1
      exact absurd h1 (by decide)
    · rintro rfl; exact absurd h2 (by decide)

private theorem caseEq_slash {s t : Text} (h : CaseEq s t) : '\\' ∈ s ↔ '\\' ∈ t := by
  induction h with
  | nil => exact Iff.rfl
  | @cons c d s t hc _ ih =>
    rw [List.mem_cons, List.mem_cons, ih]
    have := slash_letter hc
    constructor
    · rintro (e | e)
      · exact .inl (this.1 e.symm).symm
      · exact .inr e
    · rintro (e | e)
      · exact .inl (this.2 e.symm).symm
      · exact .inr e

/-- The last segment behind a backslash is unique. -/
private theorem caseEq_split {n n' s s' : Text} (hs : '\\' ∉ s) (hs' : '\\' ∉ s')
    (h : CaseEq (n ++ '\\' :: s) (n' ++ '\\' :: s')) : CaseEq n n' ∧ CaseEq s s' := by
  induction n generalizing n' with
  | nil =>
    cases n' with
    | nil =>
      cases h with
      | cons _ h => exact ⟨.nil, h⟩
    | cons d n' =>
      cases h with
      | cons _ h => exact absurd ((caseEq_slash h).2 (by simp)) hs
  | cons c n ih =>
    cases n' with
    | nil =>
      cases h with
      | cons _ h => exact absurd ((caseEq_slash h).1 (by simp)) hs'
    | cons d n' =>
      cases h with
      | cons h1 h2 =>
        obtain ⟨h3, h4⟩ := ih h2
        exact ⟨.cons h1 h3, h4⟩

/-- Two symbols have the same full name up to case iff their namespaces and their names are equal up to case. -/
theorem C34_parts (v w : Symbol) (hv : '\\' ∉ v.plainName) (hw : '\\' ∉ w.plainName) :
    CaseEq v.fqdn w.fqdn ↔ CaseEq v.plainName w.plainName ∧
      (match v.namespace, w.namespace with
       | none, none => True
       | some n, some m => CaseEq n m
       | _, _ => False) := by
  unfold Symbol.fqdn
  cases v.namespace with
  | none =>
    cases w.namespace with
    | none => simp
    | some m =>
      simp only [and_false, iff_false]
      intro h
      exact hv ((caseEq_slash h).2 (by simp))
  | some n =>
    cases w.namespace with
    | none =>
      simp only [and_false, iff_false]
      intro h
      exact hw ((caseEq_slash h).1 (by simp))
    | some m =>
      constructor
      · intro h
        obtain ⟨h1, h2⟩ := caseEq_split hv hw h
        exact ⟨h2, h1⟩
      · rintro ⟨h1, h2⟩
        exact caseEq_append h2 (.cons (.inl rfl) h1)

/-- `App\Foo` and `APP\foo` have the same place. -/
example : CaseEq ({ Symbol.default with name := c!"Foo", «namespace» := some c!"App" } : Symbol).fqdn
    ({ Symbol.default with name := c!"foo", «namespace» := some c!"APP" } : Symbol).fqdn :=
  (lower_caseEq Unicode.ascii (by unfold Ascii; decide) (by unfold Ascii; decide)).1 (by decide)

/-- `App\f` and `Lib\f` are two functions, but there is one place for both: the second one (node 5) is not in the table. -/
theorem C34_violated :
    (match startWith [(c!"a.php", c!"<?php namespace App; function f() {}"), (c!"b.php", c!"<?php namespace Lib; function f() {}")] with
     | .ok st => (st.globals, st.arena.parent? ⟨5, 0⟩, Dict.get? st.files c!"b.php")
     | _ => ([], none, none)) =
      ([(c!"f", ⟨2, 0⟩)], some (some ⟨3, 0⟩), some ⟨3, 0⟩) := by decide +kernel

/-! ## The invariant -/

namespace Backend

/-- The invariant of the tables of files and of global symbols. -/
structure Sound (U : Unicode) (st : Backend) : Prop where
  arena : st.arena.Ok
  files : ∀ path f, Dict.get? st.files path = some f → ∃ v, st.arena.Has f v none ∧ v.kind = .file ∧ v.name = path
  globals : ∀ k n, Dict.get? st.globals k = some n → ∃ v f path, st.arena.Has n v (some f) ∧
    Dict.get? st.files path = some f ∧ v.kind.registerGlobal = true ∧ key U v = k

theorem sound_empty (U : Unicode) : Sound U empty :=
  ⟨Arena.ok_empty, (fun _ _ h => nomatch h), (fun _ _ h => nomatch h)⟩

/-- Different files have different symbols. -/
theorem Sound.inj {U : Unicode} {st : Backend} (h : Sound U st) {p q : Text} {f : NodeId} (hp : Dict.get? st.files p = some f)
    (hq : Dict.get? st.files q = some f) : p = q := by
  obtain ⟨v, h1, _, h2⟩ := h.files p f hp
  obtain ⟨w, h3, _, h4⟩ := h.files q f hq
  obtain ⟨_, rfl, _⟩ := h1.unique h.arena h3 rfl
  rw [← h2, h4]

theorem Sound.root {U : Unicode} {st : Backend} (h : Sound U st) (path : Text) :
    ∀ o, Dict.get? st.files path = some o → ∃ v, st.arena.Has o v none := by
  intro o ho
  obtain ⟨v, hv, _⟩ := h.files path o ho
  exact ⟨v, hv⟩

theorem Sound.collected {U : Unicode} {path : Text} {st st' : Backend} {root : NodeId} {gone : NodeId → Prop} (h : Sound U st)
    (hc : Collected U path st st' root gone) : Sound U st' := by
  have hfile : ∀ p f, p ≠ path → Dict.get? st.files p = some f → ∃ v w, st.arena.Has f v none ∧ ¬ gone f ∧
      st'.arena.Has f w none ∧ Symbol.Same v w := by
    intro p f hp hf
    obtain ⟨v, hv, _⟩ := h.files p f hf
    have hg : ¬ gone f := by
      intro hg
      exact hp (h.inj hf ((hc.goneRoot f v hv).1 hg))
    obtain ⟨w, hw, e⟩ := hc.keep f v none hv hg
    exact ⟨v, w, hv, hg, hw, e⟩
  refine ⟨hc.ok, fun p f hf => ?_, fun k n hn => ?_⟩
  · rw [hc.files, Dict.get?_insert] at hf
    by_cases hp : path = p
    · rw [if_pos hp] at hf
      cases hf
      obtain ⟨v, h1, h2, h3, _⟩ := hc.rootIs
      exact ⟨v, h1, h2, h3.trans hp⟩
    · rw [if_neg hp] at hf
      obtain ⟨v, w, hv, _, hw, e⟩ := hfile p f (fun e => hp e.symm) hf
      obtain ⟨u, hu, h1, h2⟩ := h.files p f hf
      obtain ⟨_, rfl, _⟩ := hv.unique h.arena hu rfl
      exact ⟨w, hw, e.kind.trans h1, e.name.trans h2⟩
  · have hroot : Dict.get? st'.files path = some root := by rw [hc.files, Dict.get?_insert, if_pos rfl]
    by_cases hk : ∃ m v, st'.arena.Has m v (some root) ∧ v.kind.registerGlobal = true ∧ key U v = k
    · obtain ⟨m, v, h1, h2, h3⟩ := hk
      obtain ⟨m', w, h4, h5, h6, h7⟩ := hc.registered m v h1 h2
      rw [h3, hn] at h4
      cases h4
      exact ⟨w, root, path, h5, hroot, h6, h7.trans h3⟩
    · have hk' : ∀ n v, st'.arena.Has n v (some root) → v.kind.registerGlobal = true → key U v ≠ k :=
        fun n v h1 h2 h3 => hk ⟨n, v, h1, h2, h3⟩
      by_cases hd : ∃ o n v, Dict.get? st.files path = some o ∧ st.arena.Has n v (some o) ∧ key U v = k
      · obtain ⟨o, m, v, h1, h2, h3⟩ := hd
        rw [hc.dropped k hk' o m v h1 h2 h3] at hn
        cases hn
      · have hd' : ∀ o n v, Dict.get? st.files path = some o → st.arena.Has n v (some o) → key U v ≠ k :=
          fun o n v h1 h2 h3 => hd ⟨o, n, v, h1, h2, h3⟩
        rw [hc.others k hk' hd'] at hn
        obtain ⟨v, f, p, h1, h2, h3, h4⟩ := h.globals k n hn
        have hp : p ≠ path := by
          rintro rfl
          exact hd' f n v h2 h1 h4
        obtain ⟨_, _, _, hg, _⟩ := hfile p f hp h2
        obtain ⟨w, hw, e⟩ := hc.keep n v _ h1 (fun h => hg ((hc.goneUp n v f h1).1 h))
        refine ⟨w, f, p, hw, ?_, by rw [e.kind]; exact h3, by rw [key, e.fqdn]; exact h4⟩
        rw [hc.files, Dict.get?_insert, if_neg (fun e => hp e.symm)]
        exact h2

/-- Only the arena and the two tables matter. -/
theorem Sound.same {U : Unicode} {st st' : Backend} (h : Sound U st) (ha : st'.arena = st.arena) (hf : st'.files = st.files)
    (hg : st'.globals = st.globals) : Sound U st' :=
  ⟨ha ▸ h.arena, fun p f e => ha ▸ h.files p f (hf ▸ e), fun k n e => by rw [ha, hf]; exact h.globals k n (hg ▸ e)⟩

/-- The fold of `rebuildGlobals`. -/
private theorem rebuild {U : Unicode} {st : Backend} (hs : Sound U st) : ∀ (l : List (Text × NodeId)),
    (∀ x ∈ l, Dict.get? st.files x.1 = some x.2) → ∀ g : Dict Text NodeId,
    (∀ k n, Dict.get? g k = some n → ∃ v f path, st.arena.Has n v (some f) ∧
      Dict.get? st.files path = some f ∧ v.kind.registerGlobal = true ∧ key U v = k) →
    OkThat (fun g' : Dict Text NodeId => (∀ k n, Dict.get? g' k = some n → ∃ v f path, st.arena.Has n v (some f) ∧
        Dict.get? st.files path = some f ∧ v.kind.registerGlobal = true ∧ key U v = k) ∧
        (∀ k, (Dict.get? g k).isSome → (Dict.get? g' k).isSome) ∧
        (∀ x ∈ l, ∀ n v, st.arena.Has n v (some x.2) → v.kind.registerGlobal = true → (Dict.get? g' (key U v)).isSome) ∧
        (Dict.Ok g → Dict.Ok g'))
      (l.foldlM (fun g f => do
        let kids ← .ofOption (st.arena.children? f.2)
        pure (registerAll U kids g)) g)
  | [], _, g, hg => OkThat.ok ⟨hg, fun _ h => h, (fun _ h => nomatch h), fun h => h⟩
  | x :: l, hl, g, hg => by
    rw [List.foldlM_cons]
    obtain ⟨fv, hfv, _⟩ := hs.files x.1 x.2 (hl x (List.mem_cons_self ..))
    obtain ⟨kids, hk, hmem⟩ := Arena.has_children hs.arena hfv
    refine OkThat.bind (Q := fun g' => g' = registerAll U kids g) ?_ fun g' e => ?_
    · refine OkThat.bindOption fun kids' hk' => OkThat.ok ?_
      rw [hk] at hk'
      cases hk'
      rfl
    subst e
    refine (rebuild hs l (fun y hy => hl y (List.mem_cons_of_mem _ hy)) _ fun k n hn => ?_).mono fun g' hg' => ⟨hg'.1, ?_, ?_,
      fun h => hg'.2.2.2 (ok_registerAll U kids h)⟩
    · rcases get?_registerAll U kids g k with ⟨m, v, h1, h2, h3, h4⟩ | ⟨_, h2⟩
      · rw [h4] at hn
        cases hn
        exact ⟨v, x.2, x.1, (hmem _ v).1 h1, hl x (List.mem_cons_self ..), h2, h3⟩
      · rw [h2] at hn
        exact hg k n hn
    · intro k hk'
      apply hg'.2.1
      rcases get?_registerAll U kids g k with ⟨m, v, h1, h2, h3, h4⟩ | ⟨_, h2⟩
      · rw [h4]; rfl
      · rw [h2]; exact hk'
    · intro y hy n v hn hv
      rcases List.mem_cons.1 hy with rfl | hy
      · apply hg'.2.1
        rcases get?_registerAll U kids g (key U v) with ⟨m, w, h1, h2, h3, h4⟩ | ⟨h1, _⟩
        · rw [h4]; rfl
        · exact absurd rfl (h1 n v ((hmem n v).2 hn) hv)
      · exact hg'.2.2.1 y hy n v hn hv

/-- Every global symbol of an indexed file is found by its name. -/
def Complete (U : Unicode) (st : Backend) : Prop :=
  ∀ path f n v, Dict.get? st.files path = some f → st.arena.Has n v (some f) → v.kind.registerGlobal = true →
    (Dict.get? st.globals (key U v)).isSome

/-! ## Histories of indexing -/

/-- The invariant, with different paths in the table of files. -/
structure Safe (U : Unicode) (st : Backend) : Prop extends Sound U st where
  paths : Dict.Ok st.files
  rooted : Rooted st.arena
  indexed : ∀ i v, st.arena.Has i v none → Dict.get? st.files v.name = some i
  table : Dict.Ok st.globals
  whole : ∀ i v, st.arena.Has i v none → v.selectionRange = v.range

theorem safe_empty (U : Unicode) : Safe U empty := ⟨sound_empty U, Dict.ok_nil, (fun _ _ _ h => nomatch h), (fun _ _ h => nomatch h),
  Dict.ok_nil, (fun _ _ h => nomatch h)⟩

theorem Safe.same {U : Unicode} {st st' : Backend} (h : Safe U st) (ha : st'.arena = st.arena) (hf : st'.files = st.files)
    (hg : st'.globals = st.globals) : Safe U st' := ⟨h.toSound.same ha hf hg, hf ▸ h.paths, ha ▸ h.rooted,
  fun i v hi => by rw [hf]; exact h.indexed i v (ha ▸ hi), hg ▸ h.table,
  fun i v hi => h.whole i v (ha ▸ hi)⟩

theorem Safe.collectSymbols {h : Host} {st : Backend} (hs : Safe h.U st) (path : Text) (ast : List Node) (range : LspRange) :
    OkThat (Safe h.U) (collectSymbols h path ast range st) :=
  (collectSymbols_collected h path ast range st hs.arena (hs.root path)).mono fun _ ⟨_, _, hc⟩ =>
    ⟨hs.toSound.collected hc, by rw [hc.files]; exact Dict.ok_insert hs.paths _ _, fun i w p hi => by
      obtain ⟨_, ⟨v, hv, e⟩ | ⟨hl, ⟨rfl, rfl⟩ | ⟨q, rfl, _⟩⟩⟩ := hc.new i w p hi
      · rw [e.kind]
        exact hs.rooted i v p hv
      · obtain ⟨v, h1, h2, _⟩ := hc.rootIs
        obtain ⟨_, rfl, _⟩ := hi.unique hc.ok h1 rfl
        simp [h2]
      · refine ⟨fun e => absurd e (hc.inner i w _ hi hl fun er => ?_), fun e => nomatch e⟩
        obtain ⟨v, h1, _⟩ := hc.rootIs
        obtain ⟨_, _, e2⟩ := hi.unique hc.ok h1 (by rw [er])
        exact (nomatch e2), fun i w hi => by
      rw [hc.files, Dict.get?_insert]
      obtain ⟨hg, ⟨v, hv, e⟩ | ⟨hl, ⟨rfl, _⟩ | ⟨q, e, _⟩⟩⟩ := hc.new i w none hi
      · have := hs.indexed i v hv
        rw [← e.name] at this
        rw [if_neg, this]
        rintro rfl
        exact hg ((hc.goneRoot i v hv).2 this)
      · obtain ⟨v, h1, _, h2, _⟩ := hc.rootIs
        obtain ⟨_, rfl, _⟩ := hi.unique hc.ok h1 rfl
        rw [if_pos h2.symm]
      · exact (nomatch e), hc.table hs.table, fun i w hi => by
      obtain ⟨_, ⟨v, hv, e⟩ | ⟨_, ⟨rfl, _⟩ | ⟨q, e, _⟩⟩⟩ := hc.new i w none hi
      · rw [e.selection, e.range]
        exact hs.whole i v hv
      · obtain ⟨v, h1, _, _, h2⟩ := hc.rootIs
        obtain ⟨_, rfl, _⟩ := hi.unique hc.ok h1 rfl
        exact h2
      · exact (nomatch e)⟩

theorem Safe.indexFiles {h : Host} : ∀ (l : List (Text × Text)) {st : Backend}, Safe h.U st →
    OkThat (Safe h.U) (indexFiles h l st)
  | [], st, hs => OkThat.ok hs
  | (path, content) :: rest, st, hs => by
    unfold Backend.indexFiles
    refine (OkThat.any _).bind fun p _ => ?_
    split
    · exact Safe.indexFiles rest hs
    · refine (hs.collectSymbols _ _ _).bind fun st' h' => OkThat.bindOption fun ds _ => ?_
      exact Safe.indexFiles rest (h'.same rfl rfl rfl)

theorem Safe.didChangeWatched {h : Host} : ∀ (l : List (Text × Option Text)) {st : Backend}, Safe h.U st →
    OkThat (Safe h.U) (didChangeWatched h l st)
  | [], st, hs => OkThat.ok hs
  | (path, disk) :: rest, st, hs => by
    unfold Backend.didChangeWatched
    split
    · exact OkThat.ok hs
    · refine OkThat.bindOption fun content _ => (OkThat.any _).bind fun p _ => ?_
      split
      · exact Safe.didChangeWatched rest hs
      · refine (hs.collectSymbols _ _ _).bind fun st' h' => OkThat.bindOption fun ds _ => ?_
        exact Safe.didChangeWatched rest (h'.same rfl rfl rfl)

theorem Safe.initWorkspace {h : Host} {st : Backend} (hs : Safe h.U st) (files : List (Text × Text)) :
    OkThat (fun st' => Safe h.U st' ∧ Complete h.U st') (initWorkspace h files st) := by
  unfold Backend.initWorkspace
  refine (Safe.indexFiles files hs).bind fun st1 h1 => ?_
  unfold Backend.rebuildGlobals
  have hp := h.H.perm st1.files
  refine (rebuild h1.toSound (h.H.order st1.files) (fun x hx => Dict.mem_get? h1.paths (hp.mem_iff.1 hx)) []
    (fun _ _ h => nomatch h)).bind fun g hg => OkThat.ok ⟨⟨⟨h1.arena, h1.files, hg.1⟩, h1.paths, h1.rooted, h1.indexed,
      hg.2.2.2 Dict.ok_nil, h1.whole⟩, ?_⟩
  intro path f n v hf hn hv
  exact hg.2.2.1 (path, f) (hp.mem_iff.2 (Dict.get?_mem hf)) n v hn hv

/-- The states that operations on the index lead to: files are indexed with any trees (`collect_symbols`), the workspace is read
(`init_workspace`), files change on the disk (`did_change_watched_files`), files are closed. -/
inductive Indexing (h : Host) : Backend → Prop where
  | start : Indexing h empty
  | index {st st' : Backend} (path : Text) (ast : List Node) (range : LspRange) : Indexing h st →
      Backend.collectSymbols h path ast range st = .ok st' → Indexing h st'
  | workspace {st st' : Backend} (files : List (Text × Text)) : Indexing h st →
      Backend.initWorkspace h files st = .ok st' → Indexing h st'
  | watched {st st' : Backend} (events : List (Text × Option Text)) : Indexing h st →
      Backend.didChangeWatched h events st = .ok st' → Indexing h st'
  | close {st : Backend} (path : Text) : Indexing h st → Indexing h (Backend.didClose path st)
  | ready {st : Backend} : Indexing h st → Indexing h (Backend.initialized st)

theorem Indexing.safe {h : Host} {st : Backend} (hi : Indexing h st) : Safe h.U st := by
  induction hi with
  | start => exact safe_empty h.U
  | index path ast range _ e ih => exact ih.collectSymbols path ast range _ e
  | workspace files _ e ih => exact (ih.initWorkspace files _ e).1
  | watched events _ e ih => exact Safe.didChangeWatched events ih _ e
  | close path _ ih => exact ih.same rfl rfl rfl
  | ready _ ih => exact ih.same rfl rfl rfl

end Backend

open Backend in
/-- After any history of indexing operations each entry `k ↦ n` of the global table is a symbol that exists, declared at the top
of a file that is indexed, and `k` is its full name in lower case. -/
theorem C35_table (h : Host) (st : Backend) (hi : Indexing h st) (k : Text) (n : NodeId)
    (hn : Dict.get? st.globals k = some n) :
    st.arena.Live n ∧ ∃ v f path fv, st.arena.get? n = some v ∧ h.U.lower v.fqdn = k ∧ v.kind.registerGlobal = true ∧
      st.arena.parent? n = some (some f) ∧ Dict.get? st.files path = some f ∧ st.arena.get? f = some fv ∧ fv.kind = .file ∧
      fv.name = path := by
  have hs := hi.safe
  obtain ⟨v, f, path, h1, h2, h3, h4⟩ := hs.globals k n hn
  obtain ⟨fv, h5, h6, h7⟩ := hs.files path f h2
  exact ⟨h1.live, v, f, path, fv, h1.get? hs.arena, h4, h3, h1.parent? hs.arena, h2, h5.get? hs.arena, h6, h7⟩

/-- Two files are indexed and one of them is indexed again: the table has the new class and the class of the other file. -/
example : (match (do
      let st ← startWith [(c!"a.php", c!"<?php class A {}"), (c!"b.php", c!"<?php namespace X; class B {} function f() {}")]
      reindex c!"a.php" c!"<?php class C {}" st : Out Backend) with
    | .ok st => st.globals
    | _ => []) = [(c!"c", ⟨9, 0⟩), (c!"f", ⟨7, 0⟩), (c!"x\\b", ⟨5, 0⟩)] := by decide +kernel

/-! ## C36 -/

namespace Backend

/-- No symbol at the top of the file `path` has the name of a global symbol of another file. -/
def Apart (U : Unicode) (path : Text) (st : Backend) : Prop :=
  ∀ o n v p f m w, Dict.get? st.files path = some o → st.arena.Has n v (some o) → Dict.get? st.files p = some f → p ≠ path →
    st.arena.Has m w (some f) → w.kind.registerGlobal = true → key U w ≠ key U v

theorem Complete.collected {U : Unicode} {path : Text} {st st' : Backend} {root : NodeId} {gone : NodeId → Prop}
    (h : Sound U st) (hcomp : Complete U st) (hap : Apart U path st) (hc : Collected U path st st' root gone) : Complete U st' := by
  intro p f n v hf hn hv
  rw [hc.files, Dict.get?_insert] at hf
  by_cases hp : path = p
  · rw [if_pos hp] at hf
    cases hf
    obtain ⟨m, w, h1, _⟩ := hc.registered n v hn hv
    rw [h1]
    rfl
  · rw [if_neg hp] at hf
    have hfl : st.arena.Live f := by
      obtain ⟨u, hu, _⟩ := h.files p f hf
      exact hu.live
    have hfr : f ≠ root := fun e => hc.fresh (e ▸ hfl)
    obtain ⟨_, ⟨u, hu, e⟩ | ⟨_, e | ⟨q, e, e'⟩⟩⟩ := hc.new n v _ hn
    · have hu' : u.kind.registerGlobal = true := by rw [← e.kind]; exact hv
      have hk : key U v = key U u := by rw [key, key, e.fqdn]
      by_cases hr : ∃ m w, st'.arena.Has m w (some root) ∧ w.kind.registerGlobal = true ∧ key U w = key U v
      · obtain ⟨m, w, h1, h2, h3⟩ := hr
        obtain ⟨m', _, h4, _⟩ := hc.registered m w h1 h2
        rw [← h3, h4]
        rfl
      · rw [hc.others (key U v) (fun m w h1 h2 h3 => hr ⟨m, w, h1, h2, h3⟩) (fun o m w h1 h2 h3 =>
          hap o m w p f n u h1 h2 hf (fun e => hp e.symm) hu hu' (by rw [← hk, h3])), hk]
        exact hcomp p f n u hf hu hu'
    · cases e.2
    · cases e
      rcases e' with e' | e'
      · exact absurd e' hfr
      · exact absurd hfl e'

end Backend

open Backend in
/-- Behind the start of the server, from any state of the index, each class, function and constant at the top of an indexed file
is found by its full name. -/
theorem C36_workspace (h : Host) (files : List (Text × Text)) (st st' : Backend) (hi : Indexing h st)
    (e : initWorkspace h files st = .ok st') (path : Text) (f n : NodeId) (v : Symbol)
    (hf : Dict.get? st'.files path = some f) (kids : List (NodeId × Symbol)) (hk : st'.arena.children? f = some kids)
    (hn : (n, v) ∈ kids) (hv : v.kind.registerGlobal = true) :
    ∃ m w, Dict.get? st'.globals (h.U.lower v.fqdn) = some m ∧ st'.arena.get? m = some w ∧
      h.U.lower w.fqdn = h.U.lower v.fqdn := by
  obtain ⟨hs, hc⟩ := hi.safe.initWorkspace files st' e
  obtain ⟨fv, hfv, _⟩ := hs.files path f hf
  obtain ⟨l, hl, hmem⟩ := Arena.has_children hs.arena hfv
  rw [hk] at hl
  cases hl
  have := hc path f n v hf ((hmem n v).1 hn) hv
  obtain ⟨m, hm⟩ := Option.isSome_iff_exists.1 this
  obtain ⟨w, _, _, h1, _, _, h2⟩ := hs.globals _ m hm
  exact ⟨m, w, hm, h1.get? hs.arena, h2⟩

open Backend in
/-- Indexing a file keeps this, if no symbol at the top of its old version has the name of a global symbol of another file.
Missing: without this condition it fails, see `C36_violated`. -/
theorem C36_index_partial (h : Host) (path : Text) (ast : List Node) (range : LspRange) (st st' : Backend) (hi : Indexing h st)
    (hcomp : Complete h.U st) (hap : Apart h.U path st) (e : collectSymbols h path ast range st = .ok st') :
    Complete h.U st' := by
  obtain ⟨root, gone, hc⟩ := collectSymbols_collected h path ast range st hi.safe.arena (hi.safe.root path) st' e
  exact hcomp.collected hi.safe.toSound hap hc

open Backend in
/-- If the names of the global symbols are different, the symbol that is found is the symbol itself. -/
theorem C36_found (h : Host) (st : Backend) (hi : Indexing h st) (hcomp : Complete h.U st) (path : Text) (f n : NodeId) (v : Symbol)
    (hf : Dict.get? st.files path = some f) (hn : st.arena.Has n v (some f)) (hv : v.kind.registerGlobal = true)
    (hu : ∀ p g m w, Dict.get? st.files p = some g → st.arena.Has m w (some g) → w.kind.registerGlobal = true →
      h.U.lower w.fqdn = h.U.lower v.fqdn → m = n) :
    Dict.get? st.globals (h.U.lower v.fqdn) = some n := by
  obtain ⟨m, hm⟩ := Option.isSome_iff_exists.1 (hcomp path f n v hf hn hv)
  obtain ⟨w, g, p, h1, h2, h3, h4⟩ := hi.safe.globals _ m hm
  rw [← hu p g m w h2 h1 h3 h4]
  exact hm

namespace Backend

/-- The symbols at the top of a file. -/
def topsOf (st : Backend) (f : NodeId) : List Symbol := ((st.arena.children? f).getD []).map (·.2)

/-- A check of `Apart`. -/
def apartB (U : Unicode) (path : Text) (st : Backend) : Bool :=
  match Dict.get? st.files path with
  | none => true
  | some o => st.files.all fun e => decide (e.1 = path) || (topsOf st e.2).all fun w => !w.kind.registerGlobal ||
      (topsOf st o).all fun v => decide (key U w ≠ key U v)

theorem apartB_sound {U : Unicode} {path : Text} {st : Backend} (hs : Sound U st) (hb : apartB U path st = true) :
    Apart U path st := by
  intro o n v p f m w ho hn hf hp hm hw
  have htop : ∀ (q : Text) (g i : NodeId) (u : Symbol), Dict.get? st.files q = some g → st.arena.Has i u (some g) → u ∈ topsOf st g := by
    intro q g i u hg hi
    obtain ⟨x, hx⟩ := hs.root q g hg
    obtain ⟨l, hl, hmem⟩ := Arena.has_children hs.arena hx
    unfold topsOf
    rw [hl]
    exact List.mem_map.2 ⟨(i, u), (hmem i u).2 hi, rfl⟩
  unfold apartB at hb
  rw [ho] at hb
  have h1 := List.all_eq_true.1 hb (p, f) (Dict.get?_mem hf)
  simp only [Bool.or_eq_true, decide_eq_true_eq, hp, false_or, List.all_eq_true] at h1
  have h2 := h1 w (htop p f m w hf hm)
  rw [hw] at h2
  simp only [Bool.not_true, Bool.false_eq_true, false_or, List.all_eq_true, decide_eq_true_eq] at h2
  exact h2 v (htop path o n v ho hn)

end Backend

/-- A state that meets the hypotheses of `C36_index_partial`: it is complete by `C36_workspace`. -/
example : (match startWith [(c!"a.php", c!"<?php class A {}"), (c!"b.php", c!"<?php class B {} const X = 1;")] with
    | .ok st => Backend.apartB Unicode.ascii c!"a.php" st && decide (st.globals.length = 3)
    | _ => false) = true := by decide +kernel

/-- The class `A` is in two files.  One of them gets another text: `A` is still in the other file, but it is not found. -/
theorem C36_violated :
    (match (do
        let st ← startWith [(c!"a.php", c!"<?php class A {}"), (c!"b.php", c!"<?php class A {}")]
        reindex c!"a.php" c!"<?php class C {}" st : Out Backend) with
      | .ok st => (st.globals, (Dict.get? st.files c!"b.php").bind fun f => (st.arena.children? f).map fun l =>
          l.map fun c => (c.2.name, decide (c.2.kind = .cls)))
      | _ => ([], none)) = ([(c!"c", ⟨7, 0⟩)], some [(c!"A", true)]) := by decide +kernel

/-- A file with the variable `$f` is opened and changed: the function `f` of another file is not found any more. -/
theorem C36_violated_variable :
    (match (do
        let st ← startAndOpen [(c!"a.php", c!"<?php $f = 1;"), (c!"b.php", c!"<?php function f() {}")] c!"a.php"
        let st' ← Backend.didChange plainHost c!"a.php" [c!"<?php $f = 2;"] st
        pure (st.globals, st'.globals) : Out _) with
      | .ok p => p
      | _ => ([], [])) = ([(c!"f", ⟨2, 0⟩)], []) := by decide +kernel

/-! ## C35 with references -/

namespace Backend

theorem Safe.referenced {U : Unicode} {st st' : Backend} (h : Safe U st) (hr : Referenced st st') : Safe U st' := by
  refine ⟨⟨hr.arena.ok, fun p f hf => ?_, fun k n hn => ?_⟩, hr.files ▸ h.paths, hr.rooted h.rooted, fun i w hi => ?_,
    hr.globals ▸ h.table, fun i w hi => ?_⟩
  · rw [hr.files] at hf
    obtain ⟨v, h1, h2, h3⟩ := h.files p f hf
    obtain ⟨w, hw, e⟩ := hr.arena.keep f v none h1 (by rw [h2]; exact fun e => nomatch e) (fun _ e => nomatch e)
    exact ⟨w, hw, e.kind.trans h2, e.name.trans h3⟩
  · rw [hr.globals] at hn
    obtain ⟨v, f, p, h1, h2, h3, h4⟩ := h.globals k n hn
    obtain ⟨u, h5, h6, _⟩ := h.files p f h2
    obtain ⟨w, hw, e⟩ := hr.arena.keep n v (some f) h1 (by intro e; rw [e] at h3; cases h3)
      (fun q e => by cases e; exact ⟨u, none, h5, by rw [h6]; exact fun e => nomatch e⟩)
    exact ⟨w, f, p, hw, by rw [hr.files]; exact h2, by rw [e.kind]; exact h3, by rw [key, e.fqdn]; exact h4⟩
  · obtain ⟨v, hv, e⟩ := hr.roots h.rooted i w hi
    rw [hr.files, e.name]
    exact h.indexed i v hv
  · obtain ⟨v, hv, e⟩ := hr.roots h.rooted i w hi
    rw [e.selection, e.range]
    exact h.whole i v hv

theorem ok_groupRefs (l : List NameRef) : Dict.Ok (groupRefs l) := by
  have key : ∀ (l : List NameRef) (m : FileRefs), Dict.Ok m → Dict.Ok (l.foldl (fun m r => Dict.push m r.node r.range) m) := by
    intro l
    induction l with
    | nil => exact fun m h => h
    | cons r l ih => exact fun m h => ih _ (Dict.ok_insert h _ _)
  exact key l [] Dict.ok_nil

theorem resolveFile_tidy (h : Host) (path : Text) (ast : List Node) (st : Backend) :
    OkThat (fun p : Option FileRefs × Backend => ∀ m, p.1 = some m → Dict.Ok m) (resolveFile h path ast st) := by
  unfold Backend.resolveFile
  split
  · exact OkThat.ok fun _ e => nomatch e
  · refine (OkThat.any _).bind fun a _ => (OkThat.any _).bind fun w _ => OkThat.ok fun m e => ?_
    cases e
    exact ok_groupRefs _

theorem Safe.resolveFile {h : Host} {st : Backend} (hs : Safe h.U st) (path : Text) (ast : List Node) (hast : ∀ n ∈ ast, NoDocVar n) :
    OkThat (fun p : Option FileRefs × Backend => Safe h.U p.2 ∧ p.2.opened = st.opened ∧ p.2.references = st.references ∧
      ∀ m, p.1 = some m → Dict.Ok m) (resolveFile h path ast st) := by
  intro p e
  have hr := resolveFile_referenced h path ast st hs.arena (fun o ho => by
    obtain ⟨v, hv⟩ := hs.root path o ho
    exact hv.live) hast p e
  exact ⟨hs.referenced hr, hr.opened, hr.references, resolveFile_tidy h path ast st p e⟩

/-- No text that is parsed has a comment that names a variable. -/
def Plain (h : Host) (source : Text) : Prop :=
  ∀ ast range errors, sourceToAst h source = .ok (some (ast, range, errors)) → ∀ n ∈ ast, NoDocVar n

/-- The invariant, no opened file has a comment that names a variable, and the tables of references have different keys. -/
structure Clean (U : Unicode) (st : Backend) : Prop extends Safe U st where
  plain : ∀ x ∈ st.opened, ∀ n ∈ x.2.1, NoDocVar n
  tidy : Tidy st

theorem Clean.collectReferences {h : Host} {st : Backend} (hs : Clean h.U st) (path : Text) (ast : List Node)
    (hast : ∀ n ∈ ast, NoDocVar n) :
    OkThat (fun st' => Clean h.U st' ∧ st'.opened = st.opened) (collectReferences h path ast st) := by
  unfold Backend.collectReferences
  refine (hs.toSafe.resolveFile path ast hast).bind fun p hp => ?_
  split
  · next refs hrefs =>
    refine OkThat.ok ⟨⟨hp.1.same rfl rfl rfl, fun x hx => hs.plain x (hp.2.1 ▸ hx), fun q m hm => ?_⟩, hp.2.1⟩
    have hm' : Dict.get? (Dict.insert p.2.references path refs) q = some m := hm
    rw [Dict.get?_insert] at hm'
    split at hm'
    · cases hm'
      exact hp.2.2.2 refs hrefs
    · exact hs.tidy q m (hp.2.2.1 ▸ hm')
  · exact OkThat.ok ⟨⟨hp.1, fun x hx => hs.plain x (hp.2.1 ▸ hx), fun q m hm => hs.tidy q m (hp.2.2.1 ▸ hm)⟩, hp.2.1⟩

private theorem Clean.all {h : Host} : ∀ (l : List (Text × (List Node × LspRange))) (st : Backend),
    (∀ x ∈ l, ∀ n ∈ x.2.1, NoDocVar n) → Clean h.U st →
    OkThat (Clean h.U) (l.foldlM (fun st e => Backend.collectReferences h e.1 e.2.1 st) st)
  | [], st, _, hs => OkThat.ok hs
  | x :: l, st, hl, hs => by
    rw [List.foldlM_cons]
    refine (hs.collectReferences x.1 x.2.1 (hl x (List.mem_cons_self ..))).bind fun st' h' => ?_
    exact Clean.all l st' (fun y hy => hl y (List.mem_cons_of_mem _ hy)) h'.1

private theorem mem_insert {κ α : Type} [DecidableEq κ] {d : Dict κ α} {k : κ} {v : α} {x : κ × α} (h : x ∈ Dict.insert d k v) :
    x = (k, v) ∨ x ∈ d := by
  rcases List.mem_cons.1 h with e | h
  · exact .inl e
  · exact .inr (List.mem_filter.1 h).1

theorem Clean.opening {U : Unicode} {st : Backend} (hs : Clean U st) (path : Text) (ast : List Node) (range : LspRange)
    (ds : List Diagnostic) (hast : ∀ n ∈ ast, NoDocVar n) :
    Clean U { st with diagnostics := Dict.insert st.diagnostics path ds, opened := Dict.insert st.opened path (ast, range) } := by
  refine ⟨hs.toSafe.same rfl rfl rfl, fun x hx => ?_, hs.tidy⟩
  rcases mem_insert hx with rfl | hx
  · exact hast
  · exact hs.plain x hx

theorem Clean.collectSymbols {h : Host} {st : Backend} (hs : Clean h.U st) (path : Text) (ast : List Node) (range : LspRange) :
    OkThat (Clean h.U) (collectSymbols h path ast range st) := by
  intro st' e
  obtain ⟨_, _, hc⟩ := collectSymbols_collected h path ast range st hs.arena (hs.root path) st' e
  refine ⟨hs.toSafe.collectSymbols path ast range st' e, ?_, hc.tidy hs.tidy⟩
  rw [hc.rest.2.1]
  exact hs.plain

theorem Clean.refreshFile {h : Host} {st : Backend} (hs : Clean h.U st) (path source : Text) (hp : Plain h source) :
    OkThat (Clean h.U) (refreshFile h path source st) := by
  unfold Backend.refreshFile
  refine OkThat.bind (Q := fun p => Backend.sourceToAst h source = .ok p) (fun _ e => e) fun p ep => ?_
  refine OkThat.bind (Q := Clean h.U) ?_ fun st1 h1 => ?_
  · split
    · next ast range errors =>
      refine (hs.collectSymbols path ast range).bind fun st1 h1 => OkThat.bindOption fun ds _ => OkThat.ok ?_
      exact h1.opening path ast range ds (hp ast range errors ep)
    · exact OkThat.ok hs
  · refine Clean.all _ st1 (fun x hx => ?_) h1
    exact h1.plain x ((h.H.perm st1.opened).mem_iff.1 hx)

theorem Clean.didOpen {h : Host} {st : Backend} (hs : Clean h.U st) (path : Text) (disk : Option Text)
    (hp : ∀ s, disk = some s → Plain h s) : OkThat (Clean h.U) (didOpen h path disk st) := by
  unfold Backend.didOpen
  refine OkThat.bindOption fun source hsrc => ?_
  have h0 : Clean h.U { st with latest := Dict.insert st.latest path source } := ⟨hs.toSafe.same rfl rfl rfl, hs.plain, hs.tidy⟩
  dsimp only
  split
  · next ast range ho =>
    exact (h0.collectReferences path ast (hs.plain (path, (ast, range)) (Dict.get?_mem ho))).mono fun _ h => h.1
  · refine OkThat.bind (Q := fun p => Backend.sourceToAst h source = .ok p) (fun _ e => e) fun p ep => ?_
    split
    · exact OkThat.ok h0
    · next ast range errors =>
      refine OkThat.bindOption fun ds _ => ?_
      have h1 := h0.opening path ast range ds (hp source hsrc ast range errors ep)
      exact (h1.collectReferences path ast (hp source hsrc ast range errors ep)).mono fun _ h => h.1

theorem Clean.collectEverywhere {h : Host} {st : Backend} (hs : Clean h.U st) (disk : Text → Option Text) (name : Text)
    (hp : ∀ path s, disk path = some s → Plain h s) :
    OkThat (fun p : Dict Text FileRefs × Backend => Clean h.U p.2) (collectEverywhere h disk name st) := by
  unfold Backend.collectEverywhere
  have key : ∀ (l : List (Text × NodeId)) (acc : Dict Text FileRefs × Backend), Clean h.U acc.2 →
      OkThat (fun p : Dict Text FileRefs × Backend => Clean h.U p.2) (l.foldlM (searchFile h disk name) acc) := by
    intro l
    induction l with
    | nil => exact fun acc ha => OkThat.ok ha
    | cons f l ih =>
      intro acc ha
      rw [List.foldlM_cons]
      refine OkThat.bind (Q := fun p : Dict Text FileRefs × Backend => Clean h.U p.2) ?_ fun acc' ha' => ih acc' ha'
      unfold searchFile
      split
      · exact OkThat.ok ha
      · next content hd =>
        split
        · refine OkThat.bind (Q := fun p => Backend.sourceToAst h content = .ok p) (fun _ e => e) fun p ep => ?_
          split
          · exact OkThat.ok ha
          · next ast range errors =>
            refine (ha.toSafe.resolveFile f.1 ast (hp f.1 content hd ast range errors ep)).bind fun q hq => ?_
            have hq' : Clean h.U q.2 := ⟨hq.1, fun x hx => ha.plain x (hq.2.1 ▸ hx), fun p m hm => ha.tidy p m (hq.2.2.1 ▸ hm)⟩
            split
            · exact OkThat.ok hq'
            · exact OkThat.ok hq'
        · exact OkThat.ok ha
  exact key _ _ hs

/-- The states that notifications and requests lead to, if no text has a comment that names a variable. -/
inductive Serving (h : Host) : Backend → Prop where
  | start : Serving h empty
  | workspace {st st' : Backend} (files : List (Text × Text)) : Serving h st →
      Backend.initWorkspace h files st = .ok st' → Serving h st'
  | ready {st : Backend} : Serving h st → Serving h (Backend.initialized st)
  | «open» {st st' : Backend} (path : Text) (disk : Option Text) : Serving h st → (∀ s, disk = some s → Plain h s) →
      Backend.didOpen h path disk st = .ok st' → Serving h st'
  | change {st st' : Backend} (path : Text) (changes : List Text) : Serving h st → (∀ s ∈ changes, Plain h s) →
      Backend.didChange h path changes st = .ok st' → Serving h st'
  | close {st : Backend} (path : Text) : Serving h st → Serving h (Backend.didClose path st)
  | watched {st st' : Backend} (events : List (Text × Option Text)) : Serving h st →
      Backend.didChangeWatched h events st = .ok st' → Serving h st'
  | references {st : Backend} {r : Option (List Location) × Backend} (disk : Text → Option Text) (position : Pos) (path : Text) :
      Serving h st → (∀ p s, disk p = some s → Plain h s) → Backend.findReferences h disk position path st = .ok r →
      Serving h r.2
  | rename {st : Backend} {r : Option (List (Text × List LspRange)) × Backend} (disk : Text → Option Text) (position : Pos)
      (path : Text) : Serving h st → (∀ p s, disk p = some s → Plain h s) →
      Backend.rename h disk position path st = .ok r → Serving h r.2

private theorem opened_indexFiles {h : Host} : ∀ (l : List (Text × Text)) {st : Backend}, Safe h.U st →
    OkThat (fun st' : Backend => st'.opened = st.opened ∧ (Tidy st → Tidy st')) (indexFiles h l st)
  | [], st, _ => OkThat.ok ⟨rfl, fun h => h⟩
  | (path, content) :: rest, st, hs => by
    unfold Backend.indexFiles
    refine (OkThat.any _).bind fun p _ => ?_
    split
    · exact opened_indexFiles rest hs
    · next ast range errors =>
      refine OkThat.bind (Q := fun st1 : Backend => Safe h.U st1 ∧ st1.opened = st.opened ∧ (Tidy st → Tidy st1)) ?_ fun st' h' =>
        OkThat.bindOption fun ds _ => ?_
      · intro st1 e
        refine ⟨hs.collectSymbols path ast range st1 e, ?_⟩
        obtain ⟨_, _, hc⟩ := collectSymbols_collected h path ast range st hs.arena (hs.root path) st1 e
        exact ⟨hc.rest.2.1, hc.tidy⟩
      · exact (opened_indexFiles rest
          (st := { st' with diagnostics := Dict.insert st'.diagnostics path ds }) (h'.1.same rfl rfl rfl)).mono
          fun _ e => ⟨e.1.trans h'.2.1, fun t => e.2 (h'.2.2 t)⟩

private theorem opened_watched {h : Host} : ∀ (l : List (Text × Option Text)) {st : Backend}, Safe h.U st →
    OkThat (fun st' : Backend => st'.opened = st.opened ∧ (Tidy st → Tidy st')) (Backend.didChangeWatched h l st)
  | [], st, _ => OkThat.ok ⟨rfl, fun h => h⟩
  | (path, disk) :: rest, st, hs => by
    unfold Backend.didChangeWatched
    split
    · exact OkThat.ok ⟨rfl, fun h => h⟩
    · refine OkThat.bindOption fun content _ => (OkThat.any _).bind fun p _ => ?_
      split
      · exact opened_watched rest hs
      · next ast range errors =>
        refine OkThat.bind (Q := fun st1 : Backend => Safe h.U st1 ∧ st1.opened = st.opened ∧ (Tidy st → Tidy st1)) ?_ fun st' h' =>
          OkThat.bindOption fun ds _ => ?_
        · intro st1 e
          refine ⟨hs.collectSymbols path ast range st1 e, ?_⟩
          obtain ⟨_, _, hc⟩ := collectSymbols_collected h path ast range st hs.arena (hs.root path) st1 e
          exact ⟨hc.rest.2.1, hc.tidy⟩
        · exact (opened_watched rest
            (st := { st' with diagnostics := Dict.insert st'.diagnostics path ds }) (h'.1.same rfl rfl rfl)).mono
            fun _ e => ⟨e.1.trans h'.2.1, fun t => e.2 (h'.2.2 t)⟩

theorem Clean.initWorkspace {h : Host} {st : Backend} (ih : Clean h.U st) (files : List (Text × Text)) :
    OkThat (Clean h.U) (Backend.initWorkspace h files st) := by
  intro st' e
  have : OkThat (fun st' : Backend => st'.opened = st.opened ∧ (Tidy st → Tidy st')) (Backend.initWorkspace h files st) := by
    unfold Backend.initWorkspace
    refine (opened_indexFiles files ih.toSafe).bind fun st1 h1 => ?_
    unfold Backend.rebuildGlobals
    exact (OkThat.any _).bind fun g _ => OkThat.ok h1
  refine ⟨(ih.toSafe.initWorkspace files _ e).1, ?_, (this _ e).2 ih.tidy⟩
  rw [(this _ e).1]
  exact ih.plain

theorem Clean.initialized {h : Host} {st : Backend} (ih : Clean h.U st) : Clean h.U (Backend.initialized st) :=
  ⟨ih.toSafe.same rfl rfl rfl, ih.plain, ih.tidy⟩

theorem Clean.didChange {h : Host} {st : Backend} (ih : Clean h.U st) (path : Text) (changes : List Text)
    (hp : ∀ s ∈ changes, Plain h s) : OkThat (Clean h.U) (Backend.didChange h path changes st) := by
  unfold Backend.didChange
  split
  · exact OkThat.ok ih
  · next text rest =>
    have h0 : Clean h.U { st with latest := Dict.insert st.latest path text } := ⟨ih.toSafe.same rfl rfl rfl, ih.plain, ih.tidy⟩
    exact h0.refreshFile path text (hp text (List.mem_cons_self ..))

theorem Clean.didClose {h : Host} {st : Backend} (ih : Clean h.U st) (path : Text) : Clean h.U (Backend.didClose path st) := by
  refine ⟨ih.toSafe.same rfl rfl rfl, fun x hx => ih.plain x (List.mem_filter.1 hx).1, fun p m hm => ?_⟩
  have hm' : Dict.get? (Dict.remove st.references path) p = some m := hm
  rw [Dict.get?_remove] at hm'
  split at hm'
  · cases hm'
  · exact ih.tidy p m hm'

theorem Clean.watched {h : Host} {st : Backend} (ih : Clean h.U st) (events : List (Text × Option Text)) :
    OkThat (Clean h.U) (Backend.didChangeWatched h events st) := by
  intro st' e
  refine ⟨Safe.didChangeWatched events ih.toSafe _ e, ?_, (opened_watched events ih.toSafe _ e).2 ih.tidy⟩
  rw [(opened_watched events ih.toSafe _ e).1]
  exact ih.plain

theorem Serving.clean {h : Host} {st : Backend} (hi : Serving h st) : Clean h.U st := by
  induction hi with
  | start => exact ⟨safe_empty h.U, (fun _ h => nomatch h), (fun _ _ h => nomatch h)⟩
  | workspace files _ e ih => exact ih.initWorkspace files _ e
  | ready _ ih => exact ih.initialized
  | «open» path disk _ hp e ih => exact ih.didOpen path disk hp _ e
  | change path changes _ hp e ih => exact ih.didChange path changes hp _ e
  | close path _ ih => exact ih.didClose path
  | watched events _ e ih => exact ih.watched events _ e
  | @references st r disk position path _ hp e ih =>
    revert e
    suffices OkThat (fun r : Option (List Location) × Backend => Clean h.U r.2) (Backend.findReferences h disk position path st) from
      this r
    unfold Backend.findReferences
    refine (OkThat.any _).bind fun s _ => ?_
    split
    · exact OkThat.ok ih
    · exact (ih.collectEverywhere disk _ hp).bind fun p h1 => OkThat.ok h1
  | @rename st r disk position path _ hp e ih =>
    revert e
    suffices OkThat (fun r : Option (List (Text × List LspRange)) × Backend => Clean h.U r.2)
      (Backend.rename h disk position path st) from this r
    unfold Backend.rename
    split
    · exact OkThat.ok ih
    · split
      · exact OkThat.ok ih
      · refine OkThat.bindOption fun s _ => ?_
        exact (ih.collectEverywhere disk _ hp).bind fun p h1 => OkThat.ok h1

end Backend

open Backend in
/-- The same after any history of notifications and requests, if no text has a comment that names a variable.  Missing: such
comments move symbols of variables. -/
theorem C35_serving_partial (h : Host) (st : Backend) (hi : Serving h st) (k : Text) (n : NodeId)
    (hn : Dict.get? st.globals k = some n) :
    st.arena.Live n ∧ ∃ v f path fv, st.arena.get? n = some v ∧ h.U.lower v.fqdn = k ∧ v.kind.registerGlobal = true ∧
      st.arena.parent? n = some (some f) ∧ Dict.get? st.files path = some f ∧ st.arena.get? f = some fv ∧ fv.kind = .file ∧
      fv.name = path := by
  have hs := hi.clean
  obtain ⟨v, f, path, h1, h2, h3, h4⟩ := hs.globals k n hn
  obtain ⟨fv, h5, h6, h7⟩ := hs.files path f h2
  exact ⟨h1.live, v, f, path, fv, h1.get? hs.arena, h4, h3, h1.parent? hs.arena, h2, h5.get? hs.arena, h6, h7⟩

/-- A check of `NoDocVar`. -/
def noDocVarB : Nat → Node → Bool
  | 0, _ => false
  | fuel + 1, n => !n.isDocVar && n.children.all (noDocVarB fuel)

theorem noDocVarB_sound : ∀ (fuel : Nat) (n : Node), noDocVarB fuel n = true → NoDocVar n
  | 0, _, h => nomatch h
  | fuel + 1, n, h => by
    unfold noDocVarB at h
    simp only [Bool.and_eq_true, Bool.not_eq_true', List.all_eq_true] at h
    exact .mk h.1 fun c hc => noDocVarB_sound fuel c (h.2 c hc)

/-- A check of `Plain`. -/
theorem plain_of_check {h : Host} {source : Text} (fuel : Nat)
    (hc : (match Backend.sourceToAst h source with | .ok (some (ast, _, _)) => ast.all (noDocVarB fuel) | _ => true) = true) :
    Backend.Plain h source := by
  intro ast range errors e n hn
  rw [e] at hc
  exact noDocVarB_sound fuel n (List.all_eq_true.1 hc n hn)

/-- A text that meets the hypothesis of `C35_serving_partial`. -/
example : Backend.Plain plainHost c!"<?php class A { /** @return int */ public function f($a) { $x = $a; return $this->f($x); } }" :=
  plain_of_check 30 (by decide +kernel)

end PhpLs
