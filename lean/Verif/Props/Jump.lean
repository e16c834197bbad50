import Verif.Props.ReferencesLooked
import Verif.Props.Definition
import Verif.Props.ReferencesLive

/-!
# C73: from every class name in view there is a way to the class, or it is reported

`C69` follows a name to the tables of the resolver, `C42` goes from the tables of the server to the answer.  Here both are put
together: after the references of a file have been collected, the client either gets an answer when it asks for the definition of
a class name, or the name is among the diagnostics of the file.

* `C73_jump`: this holds for every name in view, unless it is built in or relative, or its place may have been asked for on the
  way (see `Named.Quiet`), or a class around it is not found or declared in another file as well.
* `C73_violated_twin`: a class that two files declare.
-/

namespace PhpLs

open Out

namespace Linked

/-! ## Specification -/

/-- The place `ρ` of the file is recorded as a reference to the symbol `n`. -/
def Place (st : Backend) (path : Text) (ρ : NodeRange) (n : NodeId) : Prop :=
  ∃ m ranges, Dict.get? st.references path = some m ∧ Dict.get? m n = some ranges ∧ ρ ∈ ranges

/-- Go-to-definition has an answer at every position of `ρ`, which is the name of a symbol that is recorded at this position. -/
def Leads (st : Backend) (path : Text) (ρ : NodeRange) : Prop :=
  ∀ (H : HashOrder) (position : Pos), At position ρ → ∃ loc m, Backend.gotoDefinition H st position path = .ok (some loc) ∧
    Recorded st path position m ∧ NamedAt st m loc

/-- There is an error at `ρ` among the diagnostics of the file.  A `$` at the start of a relative path gets lost. -/
def Marked (st : Backend) (path : Text) (ρ : NodeRange) : Prop :=
  ∃ q ds d, (path = q ∨ path = '$' :: q) ∧ Dict.get? st.diagnostics q = some ds ∧ d ∈ ds ∧ d.range = getRange ρ ∧
    d.severity = some .error

/-- The symbol `n` is named at `ρ` (C68). -/
def Suits (w : Named.World) (file : NodeId) (st : Backend) (ρ : NodeRange) (n : NodeId) : Prop :=
  ∃ v, st.arena.get? n = some v ∧ Named.Fits w st.arena file ρ n v.plainName v.fqdn

/-- What the client gets for the name `t` of the file `file`, whose symbol is `o`. -/
inductive Settled (w : Named.World) (file : NodeId) (path : Text) (st : Backend) (t : TypeRef) (o : Option NodeId) : Prop
  | builtin : (t.isBuiltin || t.isEmpty) = true → Settled w file path st t o
  | relative : Resolver.plainRef t = false → Settled w file path st t o
  | quiet (ρ : NodeRange) : t.range = some ρ → Named.Quiet w ρ → Settled w file path st t o
  | linked (ρ : NodeRange) (n : NodeId) : t.range = some ρ → o = some n → Place st path ρ n → Suits w file st ρ n → Leads st path ρ →
      Settled w file path st t o
  | marked (ρ : NodeRange) : t.range = some ρ → o = none → Marked st path ρ → Settled w file path st t o

/-! ## Lemmas -/

/-- What is known at the start of the walk. -/
private structure Ready (st : Backend) (path : Text) (file : NodeId) (s : Env) : Prop where
  lives : s.Lives
  root : ∃ v, s.arena.Has file v none ∧ v.name = path

private theorem ready {U : Unicode} {st : Backend} (hs : Backend.Safe U st) {path : Text} {file : NodeId}
    (hfile : Dict.get? st.files path = some file) :
    OkThat (fun a => Ready st path file (Env.mk a (Resolver.new st.globals file))) (Backend.purge file st.arena) := by
  obtain ⟨u, hu, hk, hn⟩ := hs.files path file hfile
  refine (purge_taken hs.arena hu.live).mono fun a ⟨l, ht, hl, _⟩ => ?_
  have hout : ∀ i v p, st.arena.Has i v p → v.kind ≠ .variable → i ∉ l := by
    intro i v p hi hv hm
    obtain ⟨w, q, hw, e⟩ := hl i hm
    obtain ⟨_, rfl, _⟩ := hi.unique hs.arena hw rfl
    exact hv e
  refine ⟨⟨ht.ok, ⟨fun e he => ?_, fun d hd e he => ?_, (fun c hc => nomatch hc), (fun e he => nomatch he),
    (fun e he => nomatch he)⟩⟩, ?_⟩
  · obtain ⟨v, f, p, h1, h2, h3, h4⟩ := hs.globals e.1 e.2 (Dict.mem_get? hs.table he)
    obtain ⟨p, h5, _⟩ := ht.keep e.2 v _ h1 (hout _ _ _ h1 fun e => by rw [e] at h3; cases h3)
    exact h5.live
  · have hd' : d = [] := List.mem_singleton.1 hd
    rw [hd'] at he
    cases he
  · obtain ⟨p, h5, _, h6⟩ := ht.keep file u _ hu (hout _ _ _ hu fun e => by rw [hk] at e; cases e)
    rw [h6 rfl] at h5
    exact ⟨u, h5, hn⟩

/-- The fate of every name in view, with the file it is recorded in. -/
private theorem fates (h : Host) (path : Text) (ast : List Node) (st : Backend) (hs : Backend.Safe h.U st)
    (hast : ∀ n ∈ ast, NoDocVar n) (file : NodeId) (hfile : Dict.get? st.files path = some file) (a : Arena Symbol)
    (ha : Backend.purge file st.arena = .ok a) (e : Env)
    (he : ast.foldlM (fun s node => traverse Node.children (Env.nameVisitor h.U h.H file h.fuel) h.fuel node file s)
      (Env.mk a (Resolver.new st.globals file)) = .ok e) (n : Node) (cs : List Token) (t : TypeRef) (hn : n ∈ ast)
    (hv : InView n cs t) :
    (∃ o, Fate (worldOf h ast st) false file h.U t o (Env.mk a (Resolver.new st.globals file)) e) ∨
      ∃ c ∈ cs, ∃ o, Fate (worldOf h ast st) false file h.U (.one [c]) o (Env.mk a (Resolver.new st.globals file)) e ∧
        (o = none ∨ ∃ m, o = some m ∧ e.arena.Live m ∧ ¬ e.arena.Below file m) := by
  have hw := named_file h path ast st hs file hfile a ha e he
  have hr := ready hs hfile a ha
  obtain ⟨l1, l2, hl⟩ := List.append_of_mem hn
  have hast' := hast
  rw [hl, List.foldlM_append] at he
  rw [hl] at hast'
  obtain ⟨e1, he1, he⟩ := Out.bind_eq_ok he
  rw [List.foldlM_cons] at he
  obtain ⟨e2, he2, he⟩ := Out.bind_eq_ok he
  have w1 := grown_walks (mv := false) h.H file h.fuel h.fuel file l1 _
    (fun _ m hm => hast' m (List.mem_append_left _ hm)) e1 he1
  have g1 := Grown.ofWalked w1
  have g2 := Grown.ofWalked (grown_walks (mv := false) h.H file h.fuel h.fuel file l2 _
    (fun _ m hm => hast' m (List.mem_append_right _ (List.mem_cons_of_mem _ hm))) e he)
  have hl1 := lives_walks h.H file h.fuel h.fuel file l1 hr.lives e1 he1
  obtain ⟨v, hv1, _⟩ := hr.root
  have hh : HomeAt false file e1.arena file :=
    HomeAt.later (.inr ⟨hr.lives.arena, ⟨v, hv1⟩, hv1.live, .self⟩) g1.arena
  rcases looked_walk (mv := false) (top := file) h.U h.H file h.fuel t h.fuel n cs file e1 e2 hv (fun _ => hast n hn)
    (fun _ => hl1) hh (.inr (w1.container rfl)) he2 with ⟨o, hl⟩ | ⟨c, hc, hl | hl⟩
  · exact .inl ⟨o, C69_linked _ _ _ _ _ _ _ _ hw ((hl.before g1).later g2)⟩
  · exact .inr ⟨c, hc, none, C69_linked _ _ _ _ _ _ _ _ hw ((hl.before g1).later g2), .inl rfl⟩
  · obtain ⟨_, m, h1, h2, h3, h4⟩ := (hl.before g1).later g2
    exact .inr ⟨c, hc, some m, C69_linked _ _ _ _ _ _ _ _ hw h1, .inr ⟨m, rfl, h3, h4⟩⟩

/-- What is recorded for the file is recorded for the client. -/
private theorem place_of {st : Backend} {path : Text} {l : List NameRef}
    (hl : Dict.get? st.references path = some (Backend.groupRefs l)) {ρ : NodeRange} {n : NodeId} (hn : ⟨ρ, n⟩ ∈ l) :
    Place st path ρ n := by
  have hm : (⟨ρ, n⟩ : NameRef) ∈ l.filter fun r => decide (r.node = n) := List.mem_filter.2 ⟨hn, by simp⟩
  refine ⟨_, (l.filter fun r => decide (r.node = n)).map (·.range), hl, ?_, List.mem_map.2 ⟨_, hm, rfl⟩⟩
  rw [C38_grouped, if_neg]
  intro he
  rw [List.isEmpty_iff.1 he] at hm
  cases hm

/-- A place with a symbol that is not a file leads to a definition. -/
private theorem leads_of {U : Unicode} {st : Backend} (hs : Backend.Clean U st) {path : Text} {m : FileRefs}
    (hm : Dict.get? st.references path = some m)
    (hlive : ∀ n ranges, Dict.get? m n = some ranges → st.arena.Live n) {ρ : NodeRange} {n : NodeId} (hn : Place st path ρ n)
    (hp : ∃ v q, st.arena.Has n v (some q)) : Leads st path ρ := by
  intro H position hat
  obtain ⟨m', ranges, h1, h2, h3⟩ := hn
  rw [hm] at h1
  cases h1
  have hok := hs.tidy path m hm
  obtain ⟨o, g1, g2, g3⟩ := definitionIn_spec hs.toSafe position (H.order m) fun e he =>
    hlive e.1 e.2 (Dict.mem_get? hok ((H.perm m).mem_iff.1 he))
  have hpar : st.arena.parent? n ≠ some none := by
    obtain ⟨v, q, hv⟩ := hp
    rw [hv.parent? hs.arena]
    exact fun e => nomatch e
  obtain ⟨rs, h4, h5⟩ := (recorded_iff (position := position) hm hok n).1 ⟨m, ranges, ρ, hm, h2, h3, hat⟩
  obtain ⟨loc, rfl⟩ := Option.isSome_iff_exists.1 (g3 (n, rs) ((H.perm m).mem_iff.2 h4) h5 hpar)
  obtain ⟨x, hx, hc, hx2⟩ := g2 loc rfl
  refine ⟨loc, x.1, ?_, (recorded_iff hm hok x.1).2 ⟨x.2, (H.perm m).mem_iff.1 hx, hc⟩, hx2⟩
  unfold Backend.gotoDefinition
  rw [hm]
  exact g1

private theorem key_range {a : Arena Symbol} {t : TypeRef} {anchor : NodeId} {k : NodeId × NodeRange}
    (h : Resolver.keyOf a t anchor = some k) : t.range = some k.2 := by
  unfold Resolver.keyOf at h
  simp only [Option.bind_eq_bind, Option.bind_eq_some_iff] at h
  obtain ⟨_, _, _, _, ρ, h1, h2⟩ := h
  cases h2
  exact h1

private theorem target_global {U : Unicode} {a : Arena Symbol} {g : Dict Text NodeId} {t : TypeRef} {anchor n : NodeId}
    (h : Resolver.target U a g t anchor = some (some n)) : ∃ k, Dict.get? g k = some n := by
  unfold Resolver.target at h
  simp only [Option.bind_eq_bind, Option.bind_eq_some_iff] at h
  obtain ⟨_, _, _, _, _, _, _, _, name, _, _, _, _, _, _, _, joined, _, h⟩ := h
  unfold Resolver.lookupGlobal at h
  split at h
  · cases h
  · next p q hp =>
    obtain ⟨_, _, h⟩ := Option.map_eq_some_iff.1 h
    cases h
    split at hp
    · next k hk => cases hp; exact ⟨_, hk⟩
    · split at hp
      · next k hk => cases hp; exact ⟨_, hk⟩
      · cases hp

/-! ## The claims -/

/-- **C73**: when the references of a file have been collected, then every name in view is settled; or a class around it is, and
that class is not found or declared in another file. -/
theorem C73_jump (h : Host) (path : Text) (ast : List Node) (st st' : Backend) (hs : Backend.Clean h.U st)
    (hast : ∀ n ∈ ast, NoDocVar n) (file : NodeId) (hfile : Dict.get? st.files path = some file)
    (e : Backend.collectReferences h path ast st = .ok st') (n : Node) (cs : List Token) (t : TypeRef) (hn : n ∈ ast)
    (hv : InView n cs t) :
    (∃ o, Settled (worldOf h ast st) file path st' t o) ∨
      ∃ c ∈ cs, ∃ o, Settled (worldOf h ast st) file path st' (.one [c]) o ∧
        (o = none ∨ ∃ m, o = some m ∧ st'.arena.Live m ∧ ¬ st'.arena.Below file m) := by
  have hc' := (hs.collectReferences path ast hast st' e).1
  have hnamed : ∀ ρ n, Place st' path ρ n → Suits (worldOf h ast st) file st' ρ n := by
    rintro ρ n ⟨m, ranges, h1, h2, h3⟩
    rcases C68_collect h path ast st st' hs.toSafe file hfile e path n ranges ⟨m, h1, h2⟩ with h4 | h4
    · exact absurd rfl h4.1
    · exact h4.2 ρ h3
  unfold Backend.collectReferences at e
  obtain ⟨p, hp, e⟩ := Out.bind_eq_ok e
  have hlive := (C37_resolve h path ast st hs.toSafe p hp).1
  unfold Backend.resolveFile at hp
  rw [hfile] at hp
  obtain ⟨a, ha, hp⟩ := Out.bind_eq_ok hp
  obtain ⟨s', hw, hp⟩ := Out.bind_eq_ok hp
  injection hp with hp
  subst hp
  injection e with e
  have harena : st'.arena = s'.arena := by rw [← e]
  have hglobals : st'.globals = st.globals := by rw [← e]
  have hdiag : st'.diagnostics = s'.resolver.diagnostics.foldl
      (fun d n => Dict.push d n.file (Diagnostic.ofNotification n)) st.diagnostics := by rw [← e]
  have hrefs : Dict.get? st'.references path = some (Backend.groupRefs (s'.resolver.refsOf file)) := by
    rw [← e]
    show Dict.get? (Dict.insert _ _ _) _ = _
    rw [Dict.get?_insert, if_pos rfl]
    rfl
  have hlive : ∀ n ranges, Dict.get? (Backend.groupRefs (s'.resolver.refsOf file)) n = some ranges → st'.arena.Live n := by
    rw [harena]
    exact fun n ranges hn => hlive _ n ranges rfl hn
  clear e
  have hr := ready hs.toSafe hfile a ha
  have hreach := (walk_file h file ast _ s' hast hw).1
  have key : ∀ (t : TypeRef) (o : Option NodeId),
      Fate (worldOf h ast st) false file h.U t o (Env.mk a (Resolver.new st.globals file)) s' →
      Settled (worldOf h ast st) file path st' t o := by
    intro t o hf
    have hlinked : ∀ (ρ : NodeRange) (n : NodeId), t.range = some ρ → o = some n → (∃ k, Dict.get? st.globals k = some n) →
        ⟨ρ, n⟩ ∈ s'.resolver.refsOf file → Settled (worldOf h ast st) file path st' t o := by
      intro ρ n ht ho ⟨k, hk⟩ hin
      have hpl := place_of hrefs hin
      exact .linked ρ n ht ho hpl (hnamed ρ n hpl) (leads_of hc' hrefs hlive hpl (by
        obtain ⟨v, f, q, g1, _⟩ := hc'.globals k n (by rw [hglobals]; exact hk)
        exact ⟨v, f, g1⟩))
    have hmarked : ∀ (ρ : NodeRange) (q m : Text), t.range = some ρ → o = none → (path = q ∨ path = '$' :: q) →
        ⟨q, m, ρ, .error⟩ ∈ s'.resolver.diagnostics → Settled (worldOf h ast st) file path st' t o := by
      intro ρ q m ht ho hq hin
      obtain ⟨ds, h1, h2⟩ := told_all s'.resolver.diagnostics st.diagnostics _ hin
      rw [← hdiag] at h1
      exact .marked ρ ht ho ⟨q, ds, _, hq, h1, h2, rfl, rfl⟩
    cases hf with
    | builtin h1 h2 => exact .builtin h1
    | relative h1 => exact .relative h1
    | quiet ρ h1 h2 => exact .quiet ρ h1 h2
    | recorded a1 anchor f ρ n h1 h2 h3 h4 h5 h6 =>
      obtain rfl : f = file := h3.resolve_left fun e => nomatch e
      exact hlinked ρ n (key_range h2) h5 (target_global h4) h6
    | recordedBefore a1 anchor f ρ n h1 h2 h3 h4 h5 h6 =>
      obtain rfl : f = file := h3.resolve_left fun e => nomatch e
      obtain ⟨k, hk⟩ := h5
      exact hlinked ρ n (key_range h2) h4 ⟨k, Dict.mem_get? hs.table hk⟩ h6
    | reported a1 anchor f ρ v m h1 h2 h3 h4 h5 h6 h7 =>
      obtain rfl : f = file := h3.resolve_left fun e => nomatch e
      obtain ⟨u, hu, hun⟩ := hr.root
      have hx := h1.extended hr.lives.arena
      obtain ⟨w, hw1, hw2⟩ := hx.keep _ _ _ hu
      rw [hw1.get? hx.ok] at h4
      cases h4
      refine hmarked ρ _ m (key_range h2) h6 ?_ h7
      rw [← hun, ← hw2.name]
      exact plainName_path _
    | reportedBefore a1 anchor f ρ q m h1 h2 h3 h4 h5 h6 =>
      obtain rfl : f = file := h3.resolve_left fun e => nomatch e
      obtain ⟨u, hu, hun⟩ := hr.root
      have hx := hreach.extended hr.lives.arena
      obtain ⟨w, hw1, hw2⟩ := hx.keep _ _ _ hu
      obtain ⟨j, c, ⟨v, hv1, hv2⟩, hj, hq⟩ := h4
      obtain ⟨_, rfl⟩ := Forest.flat_unique hx.ok.forest hv1 hw1.flat hj
      refine hmarked ρ q m (key_range h2) h5 ?_ h6
      rw [← hun, ← hq, ← hv2, ← hw2.name]
      exact plainName_path _
  rw [harena]
  rcases fates h path ast st hs.toSafe hast file hfile a ha s' hw n cs t hn hv with ⟨o, hf⟩ | ⟨c, hc, o, hf, ho⟩
  · exact .inl ⟨o, key t o hf⟩
  · exact .inr ⟨c, hc, o, key _ o hf, ho⟩

/-- **C73 for a file that is opened**: whatever happened before, once an indexed file without comments that name a variable is
opened, every name in view of its text on the disk is settled; or a class around it is, and that class is not found or declared in
another file. `st₀` is the state in which the names of the file are resolved: that of before, in which the file is now open. -/
theorem C73_open (h : Host) (path source : Text) (st st' : Backend) (hs : Backend.Serving h st) (hp : Backend.Plain h source)
    (file : NodeId) (hfile : Dict.get? st.files path = some file) (hnew : Dict.get? st.opened path = none)
    (e : Backend.didOpen h path (some source) st = .ok st') (ast : List Node) (range : LspRange) (errors : List Parser.Err)
    (ht : Backend.sourceToAst h source = .ok (some (ast, range, errors))) (n : Node) (cs : List Token) (t : TypeRef) (hn : n ∈ ast)
    (hv : InView n cs t) :
    ∃ st₀ : Backend, st₀.arena = st.arena ∧ st₀.globals = st.globals ∧ st₀.references = st.references ∧
      ((∃ o, Settled (worldOf h ast st₀) file path st' t o) ∨
        ∃ c ∈ cs, ∃ o, Settled (worldOf h ast st₀) file path st' (.one [c]) o ∧
          (o = none ∨ ∃ m, o = some m ∧ st'.arena.Live m ∧ ¬ st'.arena.Below file m)) := by
  unfold Backend.didOpen at e
  obtain ⟨s, hsrc, e⟩ := Out.bind_eq_ok e
  cases hsrc
  dsimp only at e
  rw [hnew] at e
  dsimp only at e
  obtain ⟨parsed, hparsed, e⟩ := Out.bind_eq_ok e
  rw [ht] at hparsed
  cases hparsed
  obtain ⟨ds, _, e⟩ := Out.bind_eq_ok e
  have h0 : Backend.Clean h.U { st with latest := Dict.insert st.latest path source } :=
    ⟨hs.clean.toSafe.same rfl rfl rfl, hs.clean.plain, hs.clean.tidy⟩
  refine ⟨_, ?_, ?_, ?_, C73_jump h path ast _ st' (h0.opening path ast range ds (hp ast range errors ht)) (hp ast range errors ht) file hfile e
    n cs t hn hv⟩ <;> rfl

/-! ## Cases -/

private abbrev jumped : List (Text × Text) :=
  [(c!"a.php", c!"<?php class Q {} class P { function m() { return new Q; } } $y = new R;")]

private abbrev jumpedTree : List Node := treeOf c!"<?php class Q {} class P { function m() { return new Q; } } $y = new R;"

/-- The answers of go-to-definition in the first line of a file that is opened, and the places of its diagnostics. -/
private def ask (files : List (Text × Text)) (path : Text) (cols : List Nat) :
    Option (List (Option (Text × Nat × Nat)) × List (Nat × Nat)) :=
  match startAndOpen files path with
  | .ok st => (cols.mapM fun c => match Backend.gotoDefinition HashOrder.id st ⟨0, c⟩ path with
      | .ok o => some (o.map fun l : Backend.Location => (l.path, l.range.start.character, l.range.end.character))
      | _ => none).map fun l =>
        (l, ((Dict.get? st.diagnostics path).getD []).map fun d : Diagnostic => (d.range.start.character, d.range.end.character))
  | _ => none

/-- The hypotheses of `C73_jump` are met by this file. -/
example : ∃ st st' file, Backend.Clean plainHost.U st ∧ (∀ n ∈ jumpedTree, NoDocVar n) ∧
    Dict.get? st.files c!"a.php" = some file ∧ Backend.collectReferences plainHost c!"a.php" jumpedTree st = .ok st' ∧
    ∃ n ∈ jumpedTree, ∃ cs t, InView n cs t := by
  have hb : (match startWith jumped with
      | .ok st => (Dict.get? st.files c!"a.php").isSome &&
        (match Backend.collectReferences plainHost c!"a.php" jumpedTree st with
          | .ok _ => true
          | _ => false)
      | _ => false) = true := by decide +kernel
  have hd : jumpedTree.all (noDocVarB 50) = true := by decide +kernel
  have hv : jumpedTree.any (fun n => !(namesOf 30 n).isEmpty) = true := by decide +kernel
  obtain ⟨n, hn, hv⟩ := List.any_eq_true.1 hv
  cases e : startWith jumped with
  | panic => rw [e] at hb; cases hb
  | deep => rw [e] at hb; cases hb
  | ok st =>
    rw [e] at hb
    simp only [Bool.and_eq_true] at hb
    obtain ⟨h1, h2⟩ := hb
    obtain ⟨file, hf⟩ := Option.isSome_iff_exists.1 h1
    split at h2
    · next st' he =>
      refine ⟨st, st', file, (Backend.Serving.workspace jumped .start e).clean,
        fun n hn => noDocVarB_sound 50 n (List.all_eq_true.1 hd n hn), hf, he, n, hn, ?_⟩
      cases hx : namesOf 30 n with
      | nil => rw [hx] at hv; cases hv
      | cons x l => exact ⟨x.1, x.2, namesOf_sound 30 n x (by rw [hx]; exact List.mem_cons_self ..)⟩
    · cases h2

/-- Those of `C73_open` are met by it, too. -/
example : ∃ st st' file, Backend.Serving plainHost st ∧ Backend.Plain plainHost jumped.head!.2 ∧
    Dict.get? st.files c!"a.php" = some file ∧ Dict.get? st.opened c!"a.php" = none ∧
    Backend.didOpen plainHost c!"a.php" (some jumped.head!.2) st = .ok st' := by
  have hb : (match startWith jumped with
      | .ok st => (Dict.get? st.files c!"a.php").isSome && (Dict.get? st.opened c!"a.php").isNone &&
        (match Backend.didOpen plainHost c!"a.php" (some jumped.head!.2) st with
          | .ok _ => true
          | _ => false)
      | _ => false) = true := by decide +kernel
  have hd : (match Backend.sourceToAst plainHost jumped.head!.2 with
      | .ok (some (ast, _, _)) => ast.all (noDocVarB 50)
      | _ => true) = true := by decide +kernel
  cases e : startWith jumped with
  | panic => rw [e] at hb; cases hb
  | deep => rw [e] at hb; cases hb
  | ok st =>
    rw [e] at hb
    simp only [Bool.and_eq_true] at hb
    obtain ⟨⟨h1, h2⟩, h3⟩ := hb
    obtain ⟨file, hf⟩ := Option.isSome_iff_exists.1 h1
    split at h3
    · next st' he =>
      refine ⟨st, st', file, .workspace jumped .start e, ?_, hf, Option.isNone_iff_eq_none.1 h2, he⟩
      intro ast range errors ht n hn
      rw [ht] at hd
      exact noDocVarB_sound 50 n (List.all_eq_true.1 hd n hn)
    · cases h3

set_option synthInstance.maxSize 512 in
/-- One of the names in view leads to its class, the other one is reported. -/
example : (jumpedTree.flatMap (namesOf 30)).map (fun x => x.2.range.map (·.startCol)) = [some 53, some 69] ∧
    ask jumped c!"a.php" [53, 69] = some ([some (c!"a.php", 12, 13), none], [(69, 70)]) := by
  decide +kernel

private abbrev twins : List (Text × Text) :=
  [(c!"b.php", c!"<?php class A { function m() { } } class Q {}"),
    (c!"a.php", c!"<?php class A { function m() { return new Q; } } $x = new Q;")]

set_option synthInstance.maxSize 512 in
/-- **C73 fails for a class that two files declare:** the global table has the class `A` of the file `b.php`, and what is found in
the class `A` of `a.php` is recorded for the other file.  There is neither an answer nor an error at `new Q` in the method, but
there is an answer at the one behind the class. -/
theorem C73_violated_twin :
    ask twins c!"a.php" [42, 58] =
      some ([none, some (c!"b.php", 41, 42)], []) := by
  decide +kernel

private abbrev asked : List (Text × Text) :=
  [(c!"a", c!"<?php function f() { (new B)->x; } class B extends C { } class C { public $x; }")]

set_option synthInstance.maxSize 512 in
/-- **C73 fails for names that were asked for on the way:** the parent `C` of the class `B`, whose members were looked for above. -/
theorem C73_violated_quiet :
    ask asked c!"a" [26, 51] =
      some ([some (c!"a", 41, 42), none], []) := by
  decide +kernel

end Linked

end PhpLs
