import Verif.Props.References
import Verif.ResolveLive

/-!
# C37, C35: what resolving the names of a file does to the references

* `C37_resolve`: all references that are found for a file point to symbols that exist, whatever the tree is; of the other
  symbols only variables of the file may go away.
* `C37_collect`: so a reference without symbol in the tables is one of another file, and it points to a variable of this file or
  to nothing already before.  `C37_open`: the same for opening a file.
* `C37_change`: after a change a reference without symbol is one to a variable of another opened file, which was looked at
  later.
* `C37_single`: an editor that has at most one file open never has references to symbols that do not exist.
* `C37_violated_foreign`: with two files it has.
* `C35_violated_docVar`: comments that name a variable can leave names without symbols in the global table.
-/

namespace PhpLs

open Out

namespace Backend

/-- `n` is a variable below the symbol of the file. -/
def VariableOf (st : Backend) (path : Text) (n : NodeId) : Prop :=
  ∃ file all v, Dict.get? st.files path = some file ∧ st.arena.descendants? file = some all ∧ (n, v) ∈ all ∧ v.kind = .variable

/-- The places are recorded as references of a file to a symbol. -/
def Recorded (st : Backend) (path : Text) (n : NodeId) (ranges : List NodeRange) : Prop :=
  ∃ m, Dict.get? st.references path = some m ∧ Dict.get? m n = some ranges

end Backend

open Backend

private theorem purge_keeps {st : Backend} (ha : st.arena.Ok) {path : Text} {file : NodeId}
    (hf : Dict.get? st.files path = some file) (hl : st.arena.Live file) :
    OkThat (fun b : Arena Symbol => b.Ok ∧ ∀ n, st.arena.Live n → ¬ VariableOf st path n → b.Live n) (purge file st.arena) := by
  unfold Backend.purge
  obtain ⟨w, z, hw⟩ := hl.has
  obtain ⟨all, h1, h2, _, _⟩ := Arena.has_descendants ha hw
  refine OkThat.bindOption fun l hl => OkThat.ok ?_
  rw [h1] at hl
  cases hl
  have ht := taken_all (all.filter fun c => decide (c.2.kind = .variable)) st.arena ha fun x hx =>
    .inl (h2 x.1 x.2 (List.mem_filter.1 hx).1)
  refine ⟨ht.ok, fun n hn hv => ?_⟩
  obtain ⟨v, q, hq⟩ := hn.has
  obtain ⟨p, hp, _⟩ := ht.keep n v q hq fun hm => by
    obtain ⟨x, hx, rfl⟩ := List.mem_map.1 hm
    obtain ⟨hx1, hx2⟩ := List.mem_filter.1 hx
    exact hv ⟨file, all, x.2, hf, h1, hx1, of_decide_eq_true hx2⟩
  exact hp.live

private theorem walk_up (h : Host) (file : NodeId) (ast : List Node) {s : Env} (hs : s.Lives) :
    OkThat (Env.Up s) (ast.foldlM (walkTree h file) s) := by
  refine OkThat.foldlM (P := Env.Up s) ?_ ast s hs.up
  intro s' n h'
  exact (Env.up_traverse h.U h.H file h.fuel h.fuel n file s' h'.lives).mono fun _ h2 => h'.trans h2

/-- No variable is in the global table. -/
private theorem global_stays {U : Unicode} {st : Backend} (hs : Safe U st) {path : Text} {e : Text × NodeId} (he : e ∈ st.globals) :
    st.arena.Live e.2 ∧ ¬ VariableOf st path e.2 := by
  obtain ⟨v, f, p, h1, h2, h3, h4⟩ := hs.globals e.1 e.2 (Dict.mem_get? hs.table he)
  refine ⟨h1.live, ?_⟩
  rintro ⟨file, all, w, hf, hall, hm, hk⟩
  obtain ⟨u, hu, _⟩ := hs.files path file hf
  obtain ⟨all', g1, g2, _, _⟩ := Arena.has_descendants hs.arena hu
  rw [hall] at g1
  cases g1
  obtain ⟨q, hq⟩ := g2 e.2 w hm
  obtain ⟨_, rfl, _⟩ := h1.unique hs.arena hq rfl
  rw [hk] at h3
  cases h3

/-- The references found for a file point to symbols that exist, and of all other symbols only variables of this file may go
away. -/
theorem C37_resolve (h : Host) (path : Text) (ast : List Node) (st : Backend) (hs : Safe h.U st)
    (p : Option FileRefs × Backend) (e : resolveFile h path ast st = .ok p) :
    (∀ m n ranges, p.1 = some m → Dict.get? m n = some ranges → p.2.arena.Live n) ∧
      ∀ n, st.arena.Live n → ¬ VariableOf st path n → p.2.arena.Live n := by
  revert p
  suffices OkThat (fun p : Option FileRefs × Backend =>
      (∀ m n ranges, p.1 = some m → Dict.get? m n = some ranges → p.2.arena.Live n) ∧
        ∀ n, st.arena.Live n → ¬ VariableOf st path n → p.2.arena.Live n) (resolveFile h path ast st) from this
  unfold resolveFile
  split
  · exact OkThat.ok ⟨(fun m n r e => nomatch e), fun n hn _ => hn⟩
  · next file hfile =>
    obtain ⟨u, hu, _⟩ := hs.files path file hfile
    refine (purge_keeps hs.arena hfile hu.live).bind fun a ha => ?_
    have h0 : (Env.mk a (Resolver.new st.globals file)).Lives := by
      refine ⟨ha.1, ⟨fun e he => ?_, fun d hd e he => ?_, (fun c hc => nomatch hc), (fun e he => nomatch he),
        (fun e he => nomatch he)⟩⟩
      · have hg := global_stays hs (path := path) he
        exact ha.2 _ hg.1 hg.2
      · have hd' : d = [] := List.mem_singleton.1 hd
        rw [hd'] at he
        cases he
    refine (walk_up h file ast h0).bind fun s hup => OkThat.ok ⟨?_, ?_⟩
    · intro m n ranges hm hn
      cases hm
      rw [C38_grouped] at hn
      split at hn
      · cases hn
      · next hne =>
        cases hl : (((Dict.get? s.resolver.documentReferences file).getD []).filter fun r => decide (r.node = n)) with
        | nil => rw [hl] at hne; exact absurd rfl hne
        | cons x t =>
          have hx := List.mem_filter.1 (by rw [hl]; exact List.mem_cons_self .. : x ∈ _)
          have hxn : x.node = n := of_decide_eq_true hx.2
          cases hg : Dict.get? s.resolver.documentReferences file with
          | none => rw [hg] at hx; cases hx.1
          | some refs =>
            rw [hg] at hx
            have := hup.lives.resolver.refs _ (Dict.get?_mem hg) x hx.1
            rw [hxn] at this
            exact this
    · intro n hn hv
      exact hup.keep n (ha.2 n hn hv)

/-- What finding the references of a file does to all tables: a recorded reference without symbol is one that was recorded before
for another file, and it points to a variable of this file or to a symbol that did not exist before either. -/
theorem C37_collect (h : Host) (path : Text) (ast : List Node) (st st' : Backend) (hs : Safe h.U st)
    (e : collectReferences h path ast st = .ok st') (p : Text) (n : NodeId) (ranges : List NodeRange)
    (hr : Recorded st' p n ranges) (hd : ¬ st'.arena.Live n) :
    Recorded st p n ranges ∧ (¬ st.arena.Live n ∨ p ≠ path ∧ VariableOf st path n) ∧
      ((Dict.get? st.files path).isSome → p ≠ path) := by
  unfold collectReferences at e
  obtain ⟨q, hq, e⟩ := Out.bind_eq_ok e
  have hres := C37_resolve h path ast st hs q hq
  have hrefs : q.2.references = st.references ∧ (q.1 = none → Dict.get? st.files path = none ∧ q.2.arena = st.arena) := by
    revert hq
    suffices OkThat (fun q : Option FileRefs × Backend => q.2.references = st.references ∧
      (q.1 = none → Dict.get? st.files path = none ∧ q.2.arena = st.arena)) (resolveFile h path ast st) from this q
    unfold resolveFile
    split
    · next hn => exact OkThat.ok ⟨rfl, fun _ => ⟨hn, rfl⟩⟩
    · exact (OkThat.any _).bind fun _ _ => (OkThat.any _).bind fun _ _ => OkThat.ok ⟨rfl, fun e => nomatch e⟩
  obtain ⟨m, hm, hn⟩ := hr
  split at e
  · next refs hrefs1 =>
    cases e
    have hm' : Dict.get? (Dict.insert q.2.references path refs) p = some m := hm
    rw [Dict.get?_insert] at hm'
    split at hm'
    · cases hm'
      exact absurd (hres.1 _ n ranges hrefs1 hn) hd
    · next hp =>
      rw [hrefs.1] at hm'
      refine ⟨⟨m, hm', hn⟩, ?_, fun _ e => hp e.symm⟩
      by_cases hl : st.arena.Live n
      · by_cases hv : VariableOf st path n
        · exact .inr ⟨fun e => hp e.symm, hv⟩
        · exact absurd (hres.2 n hl hv) hd
      · exact .inl hl
  · next hnone =>
    cases e
    obtain ⟨h1, h2⟩ := hrefs.2 hnone
    refine ⟨⟨m, hrefs.1 ▸ hm, hn⟩, .inl (h2 ▸ hd), fun hsome => ?_⟩
    rw [h1] at hsome
    cases hsome

/-- The same for opening a file. -/
theorem C37_open (h : Host) (path : Text) (disk : Option Text) (st st' : Backend) (hs : Safe h.U st)
    (e : didOpen h path disk st = .ok st') (p : Text) (n : NodeId) (ranges : List NodeRange)
    (hr : Recorded st' p n ranges) (hd : ¬ st'.arena.Live n) :
    Recorded st p n ranges ∧ (¬ st.arena.Live n ∨ p ≠ path ∧ VariableOf st path n) := by
  unfold didOpen at e
  obtain ⟨source, _, e⟩ := Out.bind_eq_ok e
  dsimp only at e
  split at e
  · next ast range ho =>
    obtain ⟨h1, h2, _⟩ := C37_collect h path ast _ st' (by exact hs.same rfl rfl rfl) e p n ranges hr hd
    exact ⟨h1, h2⟩
  · obtain ⟨q, _, e⟩ := Out.bind_eq_ok e
    split at e
    · cases e
      exact ⟨hr, .inl hd⟩
    · obtain ⟨ds, _, e⟩ := Out.bind_eq_ok e
      obtain ⟨h1, h2, _⟩ := C37_collect h path _ _ st' (by exact hs.same rfl rfl rfl) e p n ranges hr hd
      exact ⟨h1, h2⟩

/-- The references of several files are found one after the other. -/
abbrev collectAll (h : Host) (l : List (Text × (List Node × LspRange))) (st : Backend) : Out Backend :=
  l.foldlM (fun st e => collectReferences h e.1 e.2.1 st) st

/-- Behind the files `l`, a reference without symbol was one before, or points to a variable that went away when the names of
another of the files were resolved. -/
theorem C37_all (h : Host) : ∀ (l : List (Text × (List Node × LspRange))) (st st' : Backend), Clean h.U st →
    (∀ x ∈ l, ∀ n ∈ x.2.1, NoDocVar n) → collectAll h l st = .ok st' → ∀ (p : Text) (n : NodeId) (ranges : List NodeRange),
    Recorded st' p n ranges → ¬ st'.arena.Live n →
    Recorded st p n ranges ∧ ¬ st.arena.Live n ∨
      ∃ l1 q t l2 s, l = l1 ++ (q, t) :: l2 ∧ collectAll h l1 st = .ok s ∧ p ≠ q ∧ Recorded s p n ranges ∧ VariableOf s q n
  | [], st, st', _, _, e, p, n, ranges, hr, hd => by
    cases e
    exact .inl ⟨hr, hd⟩
  | x :: l, st, st', hs, hl, e, p, n, ranges, hr, hd => by
    unfold collectAll at e
    rw [List.foldlM_cons] at e
    obtain ⟨s1, h1, h2⟩ := Out.bind_eq_ok e
    have hc := hs.collectReferences x.1 x.2.1 (hl x (List.mem_cons_self ..)) s1 h1
    rcases C37_all h l s1 st' hc.1 (fun y hy => hl y (List.mem_cons_of_mem _ hy)) h2 p n ranges hr hd with
      ⟨g1, g2⟩ | ⟨l1, q, t, l2, s, e1, e2, e3, e4, e5⟩
    · obtain ⟨k1, k2, _⟩ := C37_collect h x.1 x.2.1 st s1 hs.toSafe h1 p n ranges g1 g2
      rcases k2 with k2 | ⟨k2, k3⟩
      · exact .inl ⟨k1, k2⟩
      · exact .inr ⟨[], x.1, x.2, l, st, rfl, rfl, k2, k1, k3⟩
    · refine .inr ⟨x :: l1, q, t, l2, s, by rw [e1]; rfl, ?_, e3, e4, e5⟩
      unfold collectAll
      rw [List.foldlM_cons, h1]
      exact e2

/-- The state between the two halves of `refresh_file`: the file has its new symbols, the references are still the old ones. -/
def Refreshed (h : Host) (path source : Text) (st st1 : Backend) : Prop :=
  (∃ ast range errors st0 ds, sourceToAst h source = .ok (some (ast, range, errors)) ∧ collectSymbols h path ast range st = .ok st0 ∧
      diagnosticsOf errors = some ds ∧
      st1 = { st0 with diagnostics := Dict.insert st0.diagnostics path ds, opened := Dict.insert st0.opened path (ast, range) }) ∨
    sourceToAst h source = .ok none ∧ st1 = st

theorem refreshFile_split (h : Host) (path source : Text) (st st' : Backend) (e : refreshFile h path source st = .ok st') :
    ∃ st1, Refreshed h path source st st1 ∧ collectAll h (h.H.order st1.opened) st1 = .ok st' := by
  unfold refreshFile at e
  obtain ⟨p, hp, e⟩ := Out.bind_eq_ok e
  obtain ⟨st1, h1, e⟩ := Out.bind_eq_ok e
  refine ⟨st1, ?_, e⟩
  split at h1
  · next ast range errors =>
    obtain ⟨st0, h0, h1⟩ := Out.bind_eq_ok h1
    obtain ⟨ds, hds, h1⟩ := Out.bind_eq_ok h1
    cases h1
    exact .inl ⟨ast, range, errors, st0, ds, hp, h0, Out.ofOption_ok hds, rfl⟩
  · cases h1
    exact .inr ⟨hp, rfl⟩

private theorem Refreshed.clean {h : Host} {path source : Text} {st st1 : Backend} (hr : Refreshed h path source st st1)
    (hs : Clean h.U st) (hp : Plain h source) : Clean h.U st1 := by
  rcases hr with ⟨ast, range, errors, st0, ds, h1, h2, _, rfl⟩ | ⟨_, rfl⟩
  · exact (hs.collectSymbols path ast range st0 h2).opening path ast range ds (hp ast range errors h1)
  · exact hs

private theorem Refreshed.live {h : Host} {path source : Text} {st st1 : Backend} (hr : Refreshed h path source st st1)
    (hs : Clean h.U st) (hl : RefsLive st) : RefsLive st1 := by
  rcases hr with ⟨ast, range, errors, st0, ds, h1, h2, _, rfl⟩ | ⟨_, rfl⟩
  · exact fun p m n r hp hn => C37_index h path ast range st st0 hs.toSafe hl h2 p m n r hp hn
  · exact hl

/-- After a change all recorded references point to symbols that exist, except to variables of another opened file, which went
away when that file's names were resolved. -/
theorem C37_change (h : Host) (path : Text) (text : Text) (more : List Text) (st st' : Backend) (hs : Clean h.U st)
    (hp : Plain h text) (hl : RefsLive st) (e : didChange h path (text :: more) st = .ok st') :
    ∃ st1, Refreshed h path text { st with latest := Dict.insert st.latest path text } st1 ∧
      ∀ (p : Text) (n : NodeId) (ranges : List NodeRange), Recorded st' p n ranges → ¬ st'.arena.Live n →
      ∃ l1 q t l2 s, h.H.order st1.opened = l1 ++ (q, t) :: l2 ∧ collectAll h l1 st1 = .ok s ∧ p ≠ q ∧ Recorded s p n ranges ∧
        VariableOf s q n := by
  unfold didChange at e
  obtain ⟨st1, h1, h2⟩ := refreshFile_split h path text _ st' e
  have h0 : Clean h.U { st with latest := Dict.insert st.latest path text } := ⟨hs.toSafe.same rfl rfl rfl, hs.plain, hs.tidy⟩
  have hc := h1.clean h0 hp
  have hl1 := h1.live h0 hl
  refine ⟨st1, h1, fun p n ranges hr hd => ?_⟩
  rcases C37_all h _ st1 st' hc (fun x hx => hc.plain x ((h.H.perm st1.opened).mem_iff.1 hx)) h2 p n ranges hr hd with
    ⟨⟨m, g1, g2⟩, g3⟩ | g
  · exact absurd (hl1 p m n ranges g1 g2) g3
  · exact g

/-! ## One file -/

/-- The states an editor with at most one open file leads to, which is not asked for references, if no text has a comment that
names a variable. -/
inductive Single (h : Host) : Option Text → Backend → Prop where
  | start : Single h none empty
  | workspace {o : Option Text} {st st' : Backend} (files : List (Text × Text)) : Single h o st →
      Backend.initWorkspace h files st = .ok st' → Single h o st'
  | ready {o : Option Text} {st : Backend} : Single h o st → Single h o (Backend.initialized st)
  | «open» {st st' : Backend} (path : Text) (disk : Option Text) : Single h none st → (∀ s, disk = some s → Plain h s) →
      Backend.didOpen h path disk st = .ok st' → Single h (some path) st'
  | change {st st' : Backend} (path : Text) (changes : List Text) : Single h (some path) st → (∀ s ∈ changes, Plain h s) →
      Backend.didChange h path changes st = .ok st' → Single h (some path) st'
  | close {st : Backend} (path : Text) : Single h (some path) st → Single h none (Backend.didClose path st)
  | watched {o : Option Text} {st st' : Backend} (events : List (Text × Option Text)) : Single h o st →
      Backend.didChangeWatched h events st = .ok st' → Single h o st'

/-- Only this file is open, and only it has references. -/
structure Only (o : Option Text) (st : Backend) : Prop where
  opened : ∀ x ∈ st.opened, o = some x.1
  references : ∀ p m, Dict.get? st.references p = some m → o = some p

private theorem Only.collected {h : Host} {o : Option Text} {st st' : Backend} (hs : Safe h.U st) (ho : Only o st) (path : Text)
    (ast : List Node) (range : LspRange) (e : collectSymbols h path ast range st = .ok st') : Only o st' := by
  obtain ⟨_, _, hc⟩ := collectSymbols_collected h path ast range st hs.arena (hs.root path) st' e
  refine ⟨fun x hx => ho.opened x (hc.rest.2.1 ▸ hx), fun p m hp => ?_⟩
  rcases hc.refs p with ⟨h1, _⟩ | ⟨m0, m', _, h2, _⟩
  · rw [h1] at hp
    cases hp
  · exact ho.references p m0 h2

private theorem single_indexFiles {h : Host} {o : Option Text} : ∀ (l : List (Text × Text)) {st : Backend}, Safe h.U st →
    Only o st → RefsLive st → OkThat (fun st' : Backend => Only o st' ∧ RefsLive st') (indexFiles h l st)
  | [], st, _, ho, hl => OkThat.ok ⟨ho, hl⟩
  | (path, content) :: rest, st, hs, ho, hl => by
    unfold Backend.indexFiles
    refine (OkThat.any _).bind fun p _ => ?_
    split
    · exact single_indexFiles rest hs ho hl
    · next ast range errors =>
      refine OkThat.bind (Q := fun s : Backend => Safe h.U s ∧ Only o s ∧ RefsLive s) ?_ fun s h' => OkThat.bindOption fun ds _ => ?_
      · intro s e
        exact ⟨hs.collectSymbols path ast range s e, ho.collected hs path ast range e, C37_index h path ast range st s hs hl e⟩
      · exact single_indexFiles rest (st := { s with diagnostics := Dict.insert s.diagnostics path ds }) (h'.1.same rfl rfl rfl)
          ⟨h'.2.1.opened, h'.2.1.references⟩ h'.2.2

private theorem single_watched {h : Host} {o : Option Text} : ∀ (l : List (Text × Option Text)) {st : Backend}, Safe h.U st →
    Only o st → OkThat (fun st' : Backend => Only o st') (Backend.didChangeWatched h l st)
  | [], st, _, ho => OkThat.ok ho
  | (path, disk) :: rest, st, hs, ho => by
    unfold Backend.didChangeWatched
    split
    · exact OkThat.ok ho
    · refine OkThat.bindOption fun content _ => (OkThat.any _).bind fun p _ => ?_
      split
      · exact single_watched rest hs ho
      · next ast range errors =>
        refine OkThat.bind (Q := fun s : Backend => Safe h.U s ∧ Only o s) ?_ fun s h' => OkThat.bindOption fun ds _ => ?_
        · intro s e
          exact ⟨hs.collectSymbols path ast range s e, ho.collected hs path ast range e⟩
        · exact single_watched rest (st := { s with diagnostics := Dict.insert s.diagnostics path ds }) (h'.1.same rfl rfl rfl)
            ⟨h'.2.opened, h'.2.references⟩

private theorem Only.collectReferences {h : Host} {path : Text} {ast : List Node} {st st' : Backend}
    (ho : Only (some path) st) (e : collectReferences h path ast st = .ok st') : Only (some path) st' := by
  revert e
  suffices OkThat (fun st' : Backend => Only (some path) st') (Backend.collectReferences h path ast st) from this st'
  unfold Backend.collectReferences
  refine OkThat.bind (Q := fun q : Option FileRefs × Backend => Only (some path) q.2) ?_ fun q hq => ?_
  · unfold resolveFile
    split
    · exact OkThat.ok ho
    · exact (OkThat.any _).bind fun _ _ => (OkThat.any _).bind fun _ _ => OkThat.ok ⟨ho.opened, ho.references⟩
  · split
    · next refs _ =>
      refine OkThat.ok ⟨hq.opened, fun p m hm => ?_⟩
      have hm' : Dict.get? (Dict.insert q.2.references path refs) p = some m := hm
      rw [Dict.get?_insert] at hm'
      split at hm'
      · next hp => rw [hp]
      · exact hq.references p m hm'
    · exact OkThat.ok hq

private theorem Only.collectAll {h : Host} {path : Text} : ∀ (l : List (Text × (List Node × LspRange))) {st st' : Backend},
    (∀ x ∈ l, some path = some x.1) → Only (some path) st → collectAll h l st = .ok st' → Only (some path) st'
  | [], st, st', _, ho, e => by cases e; exact ho
  | x :: l, st, st', hl, ho, e => by
    unfold PhpLs.collectAll at e
    rw [List.foldlM_cons] at e
    obtain ⟨s1, h1, h2⟩ := Out.bind_eq_ok e
    have hx : path = x.1 := Option.some.inj (hl x (List.mem_cons_self ..))
    rw [← hx] at h1
    exact Only.collectAll l (fun y hy => hl y (List.mem_cons_of_mem _ hy)) (ho.collectReferences h1) h2

private theorem Only.opening {o : Option Text} {st : Backend} {path : Text} (ho : Only o st) (hop : o = none ∨ o = some path)
    (ast : List Node) (range : LspRange) (ds : Dict Text (List Diagnostic)) :
    Only (some path) { st with diagnostics := ds, opened := Dict.insert st.opened path (ast, range) } := by
  refine ⟨fun x hx => ?_, fun p m hm => ?_⟩
  · rcases Dict.mem_insert hx with rfl | hx
    · rfl
    · have := ho.opened x hx
      rcases hop with hop | hop
      · rw [hop] at this; cases this
      · rw [← hop]; exact this
  · have := ho.references p m hm
    rcases hop with hop | hop
    · rw [hop] at this; cases this
    · rw [← hop]; exact this

/-- An editor with at most one open file: all references point to symbols that exist. -/
theorem C37_single (h : Host) (o : Option Text) (st : Backend) (hi : Single h o st) : RefsLive st := by
  suffices Clean h.U st ∧ Only o st ∧ RefsLive st from this.2.2
  induction hi with
  | start => exact ⟨⟨safe_empty h.U, (fun _ h => nomatch h), (fun _ _ h => nomatch h)⟩,
      ⟨(fun _ h => nomatch h), (fun _ _ h => nomatch h)⟩, (fun _ _ _ _ h => nomatch h)⟩
  | @workspace o st st' files _ e ih =>
    refine ⟨ih.1.initWorkspace files _ e, ?_⟩
    revert e
    suffices OkThat (fun st' : Backend => Only o st' ∧ RefsLive st') (Backend.initWorkspace h files st) from this st'
    unfold Backend.initWorkspace
    refine (single_indexFiles files ih.1.toSafe ih.2.1 ih.2.2).bind fun st1 h1 => ?_
    unfold Backend.rebuildGlobals
    exact (OkThat.any _).bind fun g _ => OkThat.ok ⟨⟨h1.1.opened, h1.1.references⟩, h1.2⟩
  | ready _ ih => exact ⟨ih.1.initialized, ⟨ih.2.1.opened, ih.2.1.references⟩, ih.2.2⟩
  | @«open» st st' path disk _ hp e ih =>
    have ho : Only (some path) st' := by
      unfold didOpen at e
      obtain ⟨source, _, e⟩ := Out.bind_eq_ok e
      dsimp only at e
      split at e
      · next ast range hop => cases ih.2.1.opened _ (Dict.get?_mem hop)
      · obtain ⟨q, _, e⟩ := Out.bind_eq_ok e
        split at e
        · cases e
          exact ⟨(fun x hx => nomatch ih.2.1.opened x hx), (fun p m hm => nomatch ih.2.1.references p m hm)⟩
        · obtain ⟨ds, _, e⟩ := Out.bind_eq_ok e
          refine Only.collectReferences (Only.opening (o := none) (st := { st with latest := Dict.insert st.latest path source })
            ⟨ih.2.1.opened, ih.2.1.references⟩ (.inl rfl) _ _ _) e
    refine ⟨ih.1.didOpen path disk hp _ e, ho, fun p m n ranges hm hn => ?_⟩
    refine Classical.byContradiction fun hd => ?_
    obtain ⟨⟨m0, h1, _⟩, _⟩ := C37_open h path disk st st' ih.1.toSafe e p n ranges ⟨m, hm, hn⟩ hd
    cases ih.2.1.references p m0 h1
  | @change st st' path changes _ hp e ih =>
    cases changes with
    | nil => cases e; exact ih
    | cons text more =>
      have hpt := hp text (List.mem_cons_self ..)
      obtain ⟨st1, h1, h2⟩ := refreshFile_split h path text _ st' e
      have h0 : Clean h.U { st with latest := Dict.insert st.latest path text } :=
        ⟨ih.1.toSafe.same rfl rfl rfl, ih.1.plain, ih.1.tidy⟩
      have hc1 := h1.clean h0 hpt
      have hl1 := h1.live h0 ih.2.2
      have ho1 : Only (some path) st1 := by
        rcases h1 with ⟨ast, range, errors, s0, ds, k1, k2, _, rfl⟩ | ⟨_, rfl⟩
        · exact Only.opening (Only.collected h0.toSafe ⟨ih.2.1.opened, ih.2.1.references⟩ path ast range k2) (.inr rfl) _ _ _
        · exact ⟨ih.2.1.opened, ih.2.1.references⟩
      have hmem : ∀ x ∈ h.H.order st1.opened, some path = some x.1 := fun x hx =>
        ho1.opened x ((h.H.perm st1.opened).mem_iff.1 hx)
      refine ⟨ih.1.didChange path _ hp _ e, Only.collectAll _ hmem ho1 h2, fun p m n ranges hm hn => ?_⟩
      refine Classical.byContradiction fun hd => ?_
      have hpp : path = p := Option.some.inj ((Only.collectAll _ hmem ho1 h2).references p m hm)
      rcases C37_all h _ st1 st' hc1 (fun x hx => hc1.plain x ((h.H.perm st1.opened).mem_iff.1 hx)) h2 p n ranges ⟨m, hm, hn⟩ hd with
        ⟨⟨m1, g1, g2⟩, g3⟩ | ⟨l1, q, t, l2, s, e1, _, e3, _⟩
      · exact g3 (hl1 p m1 n ranges g1 g2)
      · exact e3 (hpp.symm.trans (Option.some.inj (hmem (q, t) (by rw [e1]; simp))))
  | @close st path _ ih =>
    refine ⟨ih.1.didClose path, ⟨fun x hx => ?_, fun p m hm => ?_⟩, C37_close path st ih.2.2⟩
    · have hx' := List.mem_filter.1 hx
      have := Option.some.inj (ih.2.1.opened x hx'.1)
      exact absurd this.symm (of_decide_eq_true hx'.2)
    · have hm' : Dict.get? (Dict.remove st.references path) p = some m := hm
      rw [Dict.get?_remove] at hm'
      split at hm'
      · cases hm'
      · next hne => exact absurd (Option.some.inj (ih.2.1.references p m hm')) hne
  | @watched o st st' events _ e ih =>
    exact ⟨ih.1.watched events _ e, single_watched events ih.1.toSafe ih.2.1 st' e, C37_watched h events st st' ih.1.toSafe ih.2.2 e⟩

/-! ## Witnesses -/

private abbrev moving : Text := c!"<?php namespace N; class A {} f(function ($A) { }); /** @var int $A */ class C { }"

/-- The global names with their symbols, and whether these exist. -/
private def globalsOf (st : Backend) : List (Text × Nat × Bool) :=
  st.globals.map fun x => (x.1, x.2.idx, decide (st.arena.Live x.2))

/-- C35 does not hold without the condition of `C35_serving_partial`: the argument `$A` is taken for the class `A`, the comment moves
it below the class `C`, and when the text is replaced the name `n\a` stays with a symbol that does not exist (`false`). -/
theorem C35_violated_docVar :
    (match (do
        let st ← startAndOpen [(c!"a.php", moving)] c!"a.php"
        let st' ← didChange plainHost c!"a.php" [c!"<?php "] st
        pure (globalsOf st, globalsOf st') : Out _) with
      | .ok p => p
      | _ => ([], [])) =
      ([(c!"n\\c", 5, true), (c!"n\\a", 2, true)], [(c!"n\\a", 2, false)]) := by decide +kernel

private abbrev pair : List (Text × Text) := [(c!"a.php", c!"<?php function f() { $x = 1; }"), (c!"b.php", c!"<?php f()->x;")]

/-- The references of a file, with the information whether the symbol exists. -/
private def liveIn (path : Text) (st : Backend) : Option (List (NodeId × Bool)) :=
  (Dict.get? st.references path).map fun m => m.map fun e => (e.1, decide (st.arena.Live e.1))

/-- Two files are opened; in the second one `f()->x` is taken for the variable `$x` of the function `f` of the first one.  The
first one is opened again: the reference of the second one is to a variable that does not exist (`false`). -/
theorem C37_violated_foreign :
    (match (do
        let st ← startAndOpen pair c!"a.php"
        let st ← didOpen plainHost c!"b.php" (Dict.get? pair c!"b.php") st
        let st' ← didOpen plainHost c!"a.php" (Dict.get? pair c!"a.php") st
        pure (liveIn c!"b.php" st, liveIn c!"b.php" st') : Out _) with
      | .ok p => p
      | _ => (none, none)) =
      (some [(⟨3, 0⟩, true), (⟨1, 0⟩, true)], some [(⟨3, 0⟩, false), (⟨1, 0⟩, true)]) := by decide +kernel

private abbrev one : List (Text × Text) := [(c!"a.php", c!"<?php function f($a) { $x = $a; }"), (c!"b.php", c!"<?php class B {}")]

private abbrev edited : Text := c!"<?php function f($a) { return new B(); } f($y);"

/-- A history of the kind that `C37_single` is about: a file is opened and changed, and it has references. -/
example : ∃ st, Single plainHost (some c!"a.php") st ∧
    (liveIn c!"a.php" st).map (fun l => l.map (·.2)) = some [true, true, true, true] := by
  have run : (match (do
        let s1 ← startWith one
        let s2 ← didOpen plainHost c!"a.php" (Dict.get? one c!"a.php") s1
        let s3 ← didChange plainHost c!"a.php" [edited] s2
        pure (decide ((liveIn c!"a.php" s3).map (fun l => l.map (·.2)) = some [true, true, true, true])) : Out Bool) with
      | .ok b => b
      | _ => false) = true := by decide +kernel
  have p1 : Plain plainHost c!"<?php function f($a) { $x = $a; }" := plain_of_check 30 (by decide +kernel)
  have p2 : Plain plainHost edited := plain_of_check 30 (by decide +kernel)
  cases e1 : startWith one with
  | panic => rw [e1] at run; cases run
  | deep => rw [e1] at run; cases run
  | ok s1 =>
    rw [e1] at run
    rw [Out.bind_ok] at run
    cases e2 : didOpen plainHost c!"a.php" (Dict.get? one c!"a.php") s1 with
    | panic => rw [e2] at run; cases run
    | deep => rw [e2] at run; cases run
    | ok s2 =>
      rw [e2] at run
      rw [Out.bind_ok] at run
      cases e3 : didChange plainHost c!"a.php" [edited] s2 with
      | panic => rw [e3] at run; cases run
      | deep => rw [e3] at run; cases run
      | ok s3 =>
        rw [e3] at run
        refine ⟨s3, .change c!"a.php" [edited] (.open c!"a.php" _ (.workspace one .start e1) ?_ e2) ?_ e3, of_decide_eq_true run⟩
        · intro s hs
          have : c!"<?php function f($a) { $x = $a; }" = s := Option.some.inj hs
          exact this ▸ p1
        · intro s hs
          rw [List.mem_singleton.1 hs]
          exact p2

end PhpLs
