import Verif.CollectorLemmas

/-!
# What indexing a file changes

`Collected` describes the state behind `collect_symbols`: the symbols of the file are new, the old symbols of the file are gone,
all others are still there, and the tables follow.
-/

namespace PhpLs

namespace Backend

open Out

/-- The tables of references have different keys. -/
def Tidy (st : Backend) : Prop := ∀ path m, Dict.get? st.references path = some m → Dict.Ok m

/-- The state behind the indexing of the file `path`: `root` is the new symbol of the file, `gone` are the removed symbols. -/
structure Collected (U : Unicode) (path : Text) (st st' : Backend) (root : NodeId) (gone : NodeId → Prop) : Prop where
  ok : st'.arena.Ok
  fresh : ¬ st.arena.Live root
  files : st'.files = Dict.insert st.files path root
  rootIs : ∃ v, st'.arena.Has root v none ∧ v.kind = .file ∧ v.name = path ∧ v.selectionRange = v.range
  keep : ∀ i v p, st.arena.Has i v p → ¬ gone i → ∃ w, st'.arena.Has i w p ∧ Symbol.Same v w
  new : ∀ i w p, st'.arena.Has i w p → ¬ gone i ∧ ((∃ v, st.arena.Has i v p ∧ Symbol.Same v w) ∨
    (¬ st.arena.Live i ∧ (i = root ∧ p = none ∨ ∃ q, p = some q ∧ (q = root ∨ ¬ st.arena.Live q))))
  goneRoot : ∀ i v, st.arena.Has i v none → (gone i ↔ Dict.get? st.files path = some i)
  goneUp : ∀ i v q, st.arena.Has i v (some q) → (gone i ↔ gone q)
  registered : ∀ n v, st'.arena.Has n v (some root) → v.kind.registerGlobal = true →
    ∃ m w, Dict.get? st'.globals (key U v) = some m ∧ st'.arena.Has m w (some root) ∧ w.kind.registerGlobal = true ∧
      key U w = key U v
  dropped : ∀ k, (∀ n v, st'.arena.Has n v (some root) → v.kind.registerGlobal = true → key U v ≠ k) →
    ∀ o n v, Dict.get? st.files path = some o → st.arena.Has n v (some o) → key U v = k → Dict.get? st'.globals k = none
  others : ∀ k, (∀ n v, st'.arena.Has n v (some root) → v.kind.registerGlobal = true → key U v ≠ k) →
    (∀ o n v, Dict.get? st.files path = some o → st.arena.Has n v (some o) → key U v ≠ k) →
    Dict.get? st'.globals k = Dict.get? st.globals k
  refs : ∀ p, Dict.get? st'.references p = none ∧ Dict.get? st.references p = none ∨
    ∃ m m', Dict.get? st'.references p = some m' ∧ Dict.get? st.references p = some m ∧
      (∀ i, gone i → Dict.get? m' i = none) ∧ ∀ i, ¬ gone i → Dict.get? m' i = Dict.get? m i
  rest : st'.diagnostics = st.diagnostics ∧ st'.opened = st.opened ∧ st'.latest = st.latest
  tidy : Tidy st → Tidy st'
  inner : ∀ i w p, st'.arena.Has i w p → ¬ st.arena.Live i → i ≠ root → w.kind ≠ .file
  table : Dict.Ok st.globals → Dict.Ok st'.globals

theorem ok_registerAll (U : Unicode) : ∀ (kids : List (NodeId × Symbol)) {g : Dict Text NodeId}, Dict.Ok g →
    Dict.Ok (registerAll U kids g)
  | [], _, h => h
  | (n, v) :: kids, g, h => by
    have e : registerAll U ((n, v) :: kids) g =
        registerAll U kids (if v.kind.registerGlobal then Dict.insert g (key U v) n else g) := rfl
    rw [e]
    refine ok_registerAll U kids ?_
    split
    · exact Dict.ok_insert h _ _
    · exact h

theorem get?_registerAll (U : Unicode) : ∀ (kids : List (NodeId × Symbol)) (g : Dict Text NodeId) (k : Text),
    (∃ n v, (n, v) ∈ kids ∧ v.kind.registerGlobal = true ∧ key U v = k ∧ Dict.get? (registerAll U kids g) k = some n) ∨
    ((∀ n v, (n, v) ∈ kids → v.kind.registerGlobal = true → key U v ≠ k) ∧
      Dict.get? (registerAll U kids g) k = Dict.get? g k)
  | [], g, k => .inr ⟨(fun _ _ h => nomatch h), rfl⟩
  | (n, v) :: kids, g, k => by
    have e : registerAll U ((n, v) :: kids) g =
        registerAll U kids (if v.kind.registerGlobal then Dict.insert g (key U v) n else g) := rfl
    rw [e]
    rcases get?_registerAll U kids (if v.kind.registerGlobal then Dict.insert g (key U v) n else g) k with
      ⟨m, w, h1, h2, h3, h4⟩ | ⟨h1, h2⟩
    · exact .inl ⟨m, w, List.mem_cons_of_mem _ h1, h2, h3, h4⟩
    · rw [h2]
      by_cases hv : v.kind.registerGlobal = true
      · rw [if_pos hv]
        by_cases hk : key U v = k
        · exact .inl ⟨n, v, List.mem_cons_self .., hv, hk, by rw [Dict.get?_insert, if_pos hk]⟩
        · refine .inr ⟨?_, by rw [Dict.get?_insert, if_neg hk]⟩
          intro m w hm hw
          rcases List.mem_cons.1 hm with e | hm
          · cases e; exact hk
          · exact h1 m w hm hw
      · rw [if_neg hv]
        refine .inr ⟨?_, rfl⟩
        intro m w hm hw
        rcases List.mem_cons.1 hm with e | hm
        · cases e; exact absurd hw hv
        · exact h1 m w hm hw

theorem ok_removeAll {κ α β : Type} [DecidableEq κ] (f : β → κ) : ∀ (l : List β) {d : Dict κ α}, Dict.Ok d →
    Dict.Ok (l.foldl (fun g c => Dict.remove g (f c)) d)
  | [], _, h => h
  | _ :: l, _, h => ok_removeAll f l (Dict.ok_remove h _)

theorem get?_removeAll {κ α β : Type} [DecidableEq κ] (f : β → κ) : ∀ (l : List β) (d : Dict κ α) (k : κ),
    Dict.get? (l.foldl (fun g c => Dict.remove g (f c)) d) k = if k ∈ l.map f then none else Dict.get? d k
  | [], d, k => by simp
  | c :: l, d, k => by
    rw [List.foldl_cons, get?_removeAll f l, Dict.get?_remove]
    simp only [List.map_cons, List.mem_cons]
    by_cases h : k ∈ l.map f
    · rw [if_pos h, if_pos (.inr h)]
    · rw [if_neg h]
      by_cases hk : f c = k
      · rw [if_pos hk, if_pos (.inl hk.symm)]
      · rw [if_neg hk, if_neg]
        rintro (e | e)
        · exact hk e.symm
        · exact h e

theorem get?_mapValues {κ α β : Type} [DecidableEq κ] (f : α → β) : ∀ (d : Dict κ α) (k : κ),
    Dict.get? (d.map fun e => (e.1, f e.2) : Dict κ β) k = (Dict.get? d k).map f
  | [], _ => rfl
  | e :: d, k => by
    simp only [List.map_cons, Dict.get?]
    split
    · rfl
    · exact get?_mapValues f d k

theorem collectSymbols_collected (h : Host) (path : Text) (ast : List Node) (range : LspRange) (st : Backend)
    (ha : st.arena.Ok) (hf : ∀ o, Dict.get? st.files path = some o → ∃ v, st.arena.Has o v none) :
    OkThat (fun st' => ∃ root gone, Collected h.U path st st' root gone) (collectSymbols h path ast range st) := by
  unfold collectSymbols
  generalize hroot : st.arena.addRoot (fileSymbol path range) = root
  have hr1 : root.1 = st.arena.fresh := by rw [← hroot]; rfl
  have hadd : ∀ i w p, root.2.Has i w p ↔ st.arena.Has i w p ∨ (i = root.1 ∧ w = fileSymbol path range ∧ p = none) := by
    intro i w p
    rw [hr1, ← hroot]
    exact Arena.has_addRoot st.arena _ i w p
  have hok : root.2.Ok := by rw [← hroot]; exact Arena.ok_addRoot ha _
  have hfresh : ¬ st.arena.Live root.1 := by
    intro hl
    obtain ⟨v, p, hv⟩ := hl.has
    exact hv.ne_fresh ha (by rw [hr1])
  have hrl : root.2.Has root.1 (fileSymbol path range) none := (hadd _ _ _).2 (.inr ⟨rfl, rfl, rfl⟩)
  refine (Collector.grow_file (a0 := root.2) (r := root.1) h.fuel root.1 ast ⟨none, root.2⟩ (Grow.refl hok)
    ⟨hrl.live, .inl rfl⟩).bind fun c hc => ?_
  have hg := hc.grow
  -- what was there before is there behind the walk
  have hkeep : ∀ i v p, st.arena.Has i v p → ∃ w, c.arena.Has i w p ∧ Symbol.Same v w :=
    fun i v p hi => hg.keep i v p ((hadd i v p).2 (.inl hi))
  have hnew : ∀ i w p, c.arena.Has i w p → ((∃ v, st.arena.Has i v p ∧ Symbol.Same v w) ∨
      (¬ st.arena.Live i ∧ (i = root.1 ∧ p = none ∨ ∃ q, p = some q ∧ (q = root.1 ∨ ¬ st.arena.Live q)))) := by
    intro i w p hi
    have hlive : ∀ q, ¬ root.2.Live q → ¬ st.arena.Live q := by
      intro q hq hl
      obtain ⟨v, z, hv⟩ := hl.has
      exact hq ((hadd q v z).2 (.inl hv)).live
    rcases hg.new i w p hi with ⟨v, hv, e⟩ | ⟨hn, q, rfl, hq⟩
    · rcases (hadd i v p).1 hv with hv | ⟨rfl, _, rfl⟩
      · exact .inl ⟨v, hv, e⟩
      · exact .inr ⟨hfresh, .inl ⟨rfl, rfl⟩⟩
    · refine .inr ⟨hlive i hn, .inr ⟨q, rfl, ?_⟩⟩
      rcases hq with e | hq
      · exact .inl e
      · exact .inr (hlive q hq)
  have hinner : ∀ i w p, c.arena.Has i w p → ¬ st.arena.Live i → i ≠ root.1 → w.kind ≠ .file := by
    intro i w p hi hl hne
    refine hg.inner i w p hi fun hl' => ?_
    obtain ⟨v, z, hv⟩ := hl'.has
    rcases (hadd i v z).1 hv with hv | ⟨e, _⟩
    · exact hl hv.live
    · exact hne e
  obtain ⟨rv, hrv, hrs⟩ := hg.keep _ _ _ hrl
  have hrkind : rv.kind = .file := hrs.kind
  have hrname : rv.name = path := hrs.name
  cases hold : Dict.get? st.files path with
  | none =>
    dsimp only
    refine (OkThat.ok (P := fun s => s = { st with arena := c.arena, files := Dict.insert st.files path root.1 }) rfl).bind
      fun s1 e1 => ?_
    subst e1
    refine OkThat.bindOption fun kids hkids => OkThat.ok ⟨root.1, fun _ => False, ?_⟩
    obtain ⟨l, hl, hmem⟩ := Arena.has_children hg.ok hrv
    have hlk : l = kids := by
      have : some l = some kids := hl.symm.trans hkids
      injection this
    subst hlk
    exact {
      ok := hg.ok
      fresh := hfresh
      files := rfl
      rootIs := ⟨rv, hrv, hrkind, hrname, hrs.selection.trans hrs.range.symm⟩
      keep := fun i v p hi _ => hkeep i v p hi
      new := fun i w p hi => ⟨fun h => h, hnew i w p hi⟩
      goneRoot := fun i v _ => ⟨False.elim, fun e => by rw [hold] at e; cases e⟩
      goneUp := fun _ _ _ _ => Iff.rfl
      registered := by
        intro n v hn hv
        rcases get?_registerAll h.U l st.globals (key h.U v) with ⟨m, w, h1, h2, h3, h4⟩ | ⟨h1, _⟩
        · exact ⟨m, w, h4, (hmem m w).1 h1, h2, h3⟩
        · exact absurd rfl (h1 n v ((hmem n v).2 hn) hv)
      dropped := fun _ _ o _ _ ho => by rw [hold] at ho; cases ho
      others := by
        intro k hk _
        rcases get?_registerAll h.U l st.globals k with ⟨m, w, h1, h2, h3, _⟩ | ⟨_, h2⟩
        · exact absurd h3 (hk m w ((hmem m w).1 h1) h2)
        · exact h2
      refs := by
        intro p
        cases hp : Dict.get? st.references p with
        | none => exact .inl ⟨rfl, rfl⟩
        | some m => exact .inr ⟨m, m, rfl, rfl, fun _ h => h.elim, fun _ _ => rfl⟩
      rest := ⟨rfl, rfl, rfl⟩
      tidy := fun ht => ht
      inner := hinner
      table := fun ht => ok_registerAll h.U l ht }
  | some o =>
    dsimp only
    obtain ⟨ov, hov⟩ := hf o hold
    obtain ⟨ow, how, _⟩ := hkeep o ov none hov
    obtain ⟨okids, hok1, hok2⟩ := Arena.has_children hg.ok how
    obtain ⟨all, hal1, _, hal3, _⟩ := Arena.has_descendants hg.ok how
    have hrem := Arena.has_removeSubtree hg.ok how hal1
    refine OkThat.bind (Q := fun s => s = { st with
        globals := okids.foldl (fun g c => Dict.remove g (key h.U c.2)) st.globals,
        references := st.references.map fun e => (e.1, all.foldl (fun m c => Dict.remove m c.1) e.2),
        arena := c.arena.removeSubtree o,
        files := Dict.insert st.files path root.1 }) ?_ fun s1 e1 => ?_
    · unfold dropFile
      dsimp only
      refine OkThat.bindOption fun x hx => OkThat.bindOption fun y hy => OkThat.ok ?_
      rw [hok1] at hx
      rw [hal1] at hy
      cases hx
      cases hy
      rfl
    subst e1
    have hro : root.1 ≠ o := by
      intro e
      exact hfresh (e ▸ hov.live)
    have hrout : root.1 ∉ all.map (·.1) := by
      intro hm
      rcases (hal3 _ _ _ hrv).1 hm with e | ⟨q, e, _⟩
      · exact hro e
      · cases e
    have hrv' : (c.arena.removeSubtree o).Has root.1 rv none := (hrem _ _ _).2 ⟨hrv, hrout⟩
    have hok' : (c.arena.removeSubtree o).Ok := Arena.ok_removeSubtree hg.ok o
    refine OkThat.bindOption fun kids hkids => OkThat.ok ⟨root.1, fun i => i ∈ all.map (·.1), ?_⟩
    obtain ⟨l, hl, hmem⟩ := Arena.has_children hok' hrv'
    have hlk : l = kids := by
      have : some l = some kids := hl.symm.trans hkids
      injection this
    subst hlk
    have hkeys : ∀ k, k ∈ okids.map (fun c => key h.U c.2) ↔ ∃ n v, st.arena.Has n v (some o) ∧ key h.U v = k := by
      intro k
      constructor
      · intro hk
        obtain ⟨x, hx, rfl⟩ := List.mem_map.1 hk
        rcases hnew _ _ _ ((hok2 x.1 x.2).1 hx) with ⟨v, hv, e⟩ | ⟨_, e | ⟨q, e, e'⟩⟩
        · exact ⟨x.1, v, hv, by rw [key, key, e.fqdn]⟩
        · cases e.2
        · cases e
          rcases e' with e' | e'
          · exact absurd e'.symm hro
          · exact absurd hov.live e'
      · rintro ⟨n, v, hn, rfl⟩
        obtain ⟨w, hw, e⟩ := hkeep n v _ hn
        exact List.mem_map.2 ⟨(n, w), (hok2 n w).2 hw, by rw [key, key, e.fqdn]⟩
    exact {
      ok := hok'
      fresh := hfresh
      files := rfl
      rootIs := ⟨rv, hrv', hrkind, hrname, hrs.selection.trans hrs.range.symm⟩
      keep := by
        intro i v p hi hgone
        obtain ⟨w, hw, e⟩ := hkeep i v p hi
        exact ⟨w, (hrem i w p).2 ⟨hw, hgone⟩, e⟩
      new := by
        intro i w p hi
        obtain ⟨h1, h2⟩ := (hrem i w p).1 hi
        exact ⟨h2, hnew i w p h1⟩
      goneRoot := by
        intro i v hi
        obtain ⟨w, hw, _⟩ := hkeep i v none hi
        rw [hal3 i w none hw, hold]
        constructor
        · rintro (rfl | ⟨q, e, _⟩)
          · rfl
          · cases e
        · intro e
          cases e
          exact .inl rfl
      goneUp := by
        intro i v q hi
        obtain ⟨w, hw, _⟩ := hkeep i v _ hi
        rw [hal3 i w _ hw]
        constructor
        · rintro (rfl | ⟨q', e, hq⟩)
          · cases (hw.unique hg.ok how rfl).2.2
          · cases e
            exact hq
        · intro hq
          exact .inr ⟨q, rfl, hq⟩
      registered := by
        intro n v hn hv
        rcases get?_registerAll h.U l (okids.foldl (fun g c => Dict.remove g (key h.U c.2)) st.globals) (key h.U v) with
          ⟨m, w, h1, h2, h3, h4⟩ | ⟨h1, _⟩
        · exact ⟨m, w, h4, (hmem m w).1 h1, h2, h3⟩
        · exact absurd rfl (h1 n v ((hmem n v).2 hn) hv)
      dropped := by
        intro k hk o' n v ho hn hv
        rw [hold] at ho
        cases ho
        rcases get?_registerAll h.U l (okids.foldl (fun g c => Dict.remove g (key h.U c.2)) st.globals) k with
          ⟨m, w, h1, h2, h3, _⟩ | ⟨_, h2⟩
        · exact absurd h3 (hk m w ((hmem m w).1 h1) h2)
        · show Dict.get? (registerAll h.U l _) k = none
          rw [h2, get?_removeAll (fun c : NodeId × Symbol => key h.U c.2), if_pos ((hkeys k).2 ⟨n, v, hn, hv⟩)]
      others := by
        intro k hk hno
        rcases get?_registerAll h.U l (okids.foldl (fun g c => Dict.remove g (key h.U c.2)) st.globals) k with
          ⟨m, w, h1, h2, h3, _⟩ | ⟨_, h2⟩
        · exact absurd h3 (hk m w ((hmem m w).1 h1) h2)
        · show Dict.get? (registerAll h.U l _) k = _
          rw [h2, get?_removeAll (fun c : NodeId × Symbol => key h.U c.2), if_neg]
          intro hm
          obtain ⟨n, v, hn, e⟩ := (hkeys k).1 hm
          exact hno o n v hold hn e
      refs := by
        intro p
        have hm := get?_mapValues (fun e : FileRefs => all.foldl (fun m c => Dict.remove m c.1) e) st.references p
        cases hp : Dict.get? st.references p with
        | none =>
          rw [hp] at hm
          exact .inl ⟨hm, rfl⟩
        | some m =>
          rw [hp] at hm
          refine .inr ⟨m, _, hm, rfl, fun i hi => ?_, fun i hi => ?_⟩
          · rw [get?_removeAll (fun c : NodeId × Symbol => c.1), if_pos hi]
          · rw [get?_removeAll (fun c : NodeId × Symbol => c.1), if_neg hi]
      rest := ⟨rfl, rfl, rfl⟩
      tidy := by
        intro ht p m' hp
        have hm := get?_mapValues (fun e : FileRefs => all.foldl (fun m c => Dict.remove m c.1) e) st.references p
        have hp' := hm.symm.trans hp
        cases hq : Dict.get? st.references p with
        | none => rw [hq] at hp'; cases hp'
        | some m =>
          rw [hq] at hp'
          cases hp'
          exact ok_removeAll (fun c : NodeId × Symbol => c.1) all (ht p m hq)
      inner := fun i w p hi => hinner i w p ((hrem i w p).1 hi).1
      table := fun ht => ok_registerAll h.U l (ok_removeAll (fun c : NodeId × Symbol => key h.U c.2) okids ht) }

end Backend

end PhpLs
