import Verif.Props.ReferencesLive
import Verif.Props.Completion
import Verif.ResolveNamed
import Verif.Runs

/-!
# C68: a reference is a place where the symbol is named

* `C68_resolve`: for every place that is found as a reference of a file to a symbol there is a reason in the tree of the file:
  a variable of the name, `$this`, the `@param` comment of the parameter, the declaration, an access to a member of the name, a
  name that stands for the full name of the symbol, or a use declaration of it (`Named.Fits`).
* `C68_collect`: the same for what is stored in the tables.
* `C68_violated_written`: a reference need not be the name itself.
* `C68_violated_foreign`: the names in the data types of symbols of other files are one of the reasons, and their places are
  taken as places of this file.
-/

namespace PhpLs

open Out Backend Suggester

private theorem below_child {n m c : Node} (h : Below n m) (hc : c ∈ m.children) : Below n c := by
  induction h with
  | here n => exact .down hc (.here c)
  | down h1 _ ih => exact .down h1 (ih hc)

private theorem below_toks {n m : Node} (h : Below n m) : ∀ k ∈ m.toks, k ∈ n.toks := by
  induction h with
  | here n => exact fun _ h => h
  | @down n c m h1 _ ih => exact fun k hk => Parser.good_children (T := fun k => k ∈ n.toks) (fun _ h => h) h1 k (ih k hk)

/-- A name of a symbol that is there before, a variable, the type of a variable in a comment, or the type of a caught exception:
these are the names that may be looked up without being recorded. -/
inductive AskedFor (ast : List Node) (st : Backend) : TypeRef → Prop
  | head {i : NodeId} {v : Symbol} {t : TypeRef} : (i, v) ∈ st.arena.forest.flat → t ∈ Resolver.heads v → AskedFor ast st t
  | type {i : NodeId} {v : Symbol} {ref : SymRef} : (i, v) ∈ st.arena.forest.flat → ref ∈ v.dataTypes → AskedFor ast st ref.typeRef
  | var {n : Node} {k : Token} : n ∈ ast → Below n (.variable k) → AskedFor ast st (.one [k])
  | doc {n : Node} {k : Token} {ts : Option (List TypeRef)} {d : Text} {t : TypeRef} : n ∈ ast → Below n (.docCommentVar k ts d) →
      t ∈ ts.getD [] → AskedFor ast st t
  | caught {n : Node} {a b v c : Token} {types : List Node} {d : Node} {t : TypeRef} : n ∈ ast →
      Below n (.catchBlock a b types v c d) → t ∈ types.flatMap getTypeRef → AskedFor ast st t

/-- What the names of a file may lead to: the tokens and nodes of the tree of the file, the names in the data types of all symbols
before, and the global table. -/
def worldOf (h : Host) (ast : List Node) (st : Backend) : Named.World where
  U := h.U
  toks := fun k => ∃ n ∈ ast, k ∈ n.toks
  nodes := fun m => ∃ n ∈ ast, Below n m
  old := fun kind => ∃ i v, (i, v) ∈ st.arena.forest.flat ∧ ∃ ref ∈ v.dataTypes, ref.typeRef.kind = kind
  globals := st.globals
  asked := AskedFor ast st
  sub := fun _ ⟨n, hn, hb⟩ _ hc => ⟨n, hn, below_child hb hc⟩
  toksOf := fun _ ⟨n, hn, hb⟩ k hk => ⟨n, hn, below_toks hb k hk⟩
  vars := fun _ ⟨_, hn, hb⟩ => .var hn hb
  docs := fun _ _ _ ⟨_, hn, hb⟩ _ ht => .doc hn hb ht
  caught := fun _ _ _ _ _ _ ⟨_, hn, hb⟩ _ ht => .caught hn hb ht

private theorem purge_same {st : Backend} (ha : st.arena.Ok) {path : Text} {file : NodeId}
    (hf : Dict.get? st.files path = some file) (hl : st.arena.Live file) :
    OkThat (fun b : Arena Symbol => b.Ok ∧
      (∀ n v, (n, v) ∈ st.arena.forest.flat → ¬ VariableOf st path n → (n, v) ∈ b.forest.flat) ∧
      ∀ n v, (n, v) ∈ b.forest.flat → (n, v) ∈ st.arena.forest.flat) (purge file st.arena) := by
  unfold Backend.purge
  obtain ⟨w, z, hw⟩ := hl.has
  obtain ⟨all, h1, h2, _, _⟩ := Arena.has_descendants ha hw
  refine OkThat.bindOption fun l hl => OkThat.ok ?_
  rw [h1] at hl
  cases hl
  have ht := taken_all (all.filter fun c => decide (c.2.kind = .variable)) st.arena ha fun x hx =>
    .inl (h2 x.1 x.2 (List.mem_filter.1 hx).1)
  have hasOf : ∀ {a : Arena Symbol} {n : NodeId} {v : Symbol}, a.Ok → (n, v) ∈ a.forest.flat → ∃ p, a.Has n v p := by
    intro a n v ha hm
    obtain ⟨v', p, hp⟩ := Arena.Live.has (Forest.mem_ids.2 ⟨v, hm⟩)
    obtain ⟨_, rfl⟩ := Forest.flat_unique ha.forest hm hp.flat rfl
    exact ⟨p, hp⟩
  refine ⟨ht.ok, fun n v hn hv => ?_, fun n v hn => ?_⟩
  · obtain ⟨q, hq⟩ := hasOf ha hn
    obtain ⟨p, hp, _⟩ := ht.keep n v q hq fun hm => by
      obtain ⟨x, hx, rfl⟩ := List.mem_map.1 hm
      obtain ⟨hx1, hx2⟩ := List.mem_filter.1 hx
      exact hv ⟨file, all, x.2, hf, h1, hx1, of_decide_eq_true hx2⟩
    exact hp.flat
  · obtain ⟨p, hp⟩ := hasOf ht.ok hn
    obtain ⟨_, q, hq⟩ := ht.old n v p hp
    exact hq.flat

private theorem walk_named (h : Host) (file : NodeId) {w : Named.World} (hU : w.U = h.U) (ast : List Node) (hast : ∀ n ∈ ast, w.nodes n) {s : Env}
    (hs : Named.Inv w s) : OkThat (Named.Up w s) (ast.foldlM (walkTree h file) s) := by
  refine Resolver.foldlM_mem (P := Named.Up w s) ast s ?_ hs.up
  intro s' n hn h'
  have := Named.up_traverse (w := w) h.H file h.fuel h.fuel n file s' (hast n hn) h'.inv
  rw [hU] at this
  exact this.mono fun _ h2 => h'.trans h2

/-- No variable is in the global table. -/
private theorem global_stays {U : Unicode} {st : Backend} (hs : Safe U st) {path : Text} {k : Text} {n : NodeId}
    (he : (k, n) ∈ st.globals) : ∃ v, (n, v) ∈ st.arena.forest.flat ∧ U.lower v.fqdn = k ∧ ¬ VariableOf st path n := by
  obtain ⟨v, f, p, h1, h2, h3, h4⟩ := hs.globals k n (Dict.mem_get? hs.table he)
  refine ⟨v, h1.flat, h4, ?_⟩
  rintro ⟨file, all, w, hf, hall, hm, hk⟩
  obtain ⟨u, hu, _⟩ := hs.files path file hf
  obtain ⟨all', g1, g2, _, _⟩ := Arena.has_descendants hs.arena hu
  rw [hall] at g1
  cases g1
  obtain ⟨q, hq⟩ := g2 n w hm
  obtain ⟨_, rfl, _⟩ := h1.unique hs.arena hq rfl
  rw [hk] at h3
  cases h3

/-- What is known when the names of a file have been resolved. -/
theorem named_file (h : Host) (path : Text) (ast : List Node) (st : Backend) (hs : Safe h.U st) (file : NodeId)
    (hfile : Dict.get? st.files path = some file) (a : Arena Symbol) (hp : purge file st.arena = .ok a) :
    OkThat (Named.Inv (worldOf h ast st)) (ast.foldlM (walkTree h file) (Env.mk a (Resolver.new st.globals file))) := by
  obtain ⟨u, hu, _⟩ := hs.files path file hfile
  have ha := purge_same hs.arena hfile hu.live a hp
  have h0 : Named.Inv (worldOf h ast st) (Env.mk a (Resolver.new st.globals file)) := by
    refine ⟨ha.1, ⟨fun e he => he, fun d hd e he => ?_, (fun c hc => nomatch hc), (fun e he => nomatch he),
      (fun e he => nomatch he), (fun e he => nomatch he)⟩, fun n v hv ref href => ?_, fun n v hv t ht => ?_, fun k n hk => ?_⟩
    · have hd' : d = [] := List.mem_singleton.1 hd
      rw [hd'] at he
      cases he
    · exact ⟨Or.inr ⟨n, v, ha.2.2 n v hv, ref, href, rfl⟩, Named.exempt (AskedFor.type (ha.2.2 n v hv) href)⟩
    · exact .head (ha.2.2 n v hv) ht
    · obtain ⟨v, h1, h2, h3⟩ := global_stays hs (path := path) hk
      exact ⟨_, Named.at_of_mem (ha.2.1 n v h1 h3), h2⟩
  exact (walk_named h file (w := worldOf h ast st) rfl ast (fun n hn => ⟨n, hn, .here n⟩) h0).mono fun _ h => h.inv

/-- The references that are found for a file are places where the symbol is named. -/
theorem C68_resolve (h : Host) (path : Text) (ast : List Node) (st : Backend) (hs : Safe h.U st) (file : NodeId)
    (hfile : Dict.get? st.files path = some file) (m : FileRefs) (st' : Backend)
    (e : resolveFile h path ast st = .ok (some m, st')) (n : NodeId) (ranges : List NodeRange)
    (hn : Dict.get? m n = some ranges) (ρ : NodeRange) (hρ : ρ ∈ ranges) :
    ∃ v, st'.arena.get? n = some v ∧ Named.Fits (worldOf h ast st) st'.arena file ρ n v.plainName v.fqdn := by
  suffices OkThat (fun p : Option FileRefs × Backend => ∀ m, p.1 = some m → Dict.get? m n = some ranges →
      ∃ v, p.2.arena.get? n = some v ∧ Named.Fits (worldOf h ast st) p.2.arena file ρ n v.plainName v.fqdn)
      (resolveFile h path ast st) from this _ e m rfl hn
  unfold resolveFile
  rw [hfile]
  refine OkThat.bind (Q := fun a => purge file st.arena = .ok a) (fun a e => e) fun a ha => ?_
  refine (named_file h path ast st hs file hfile a ha).bind fun s hup => OkThat.ok ?_
  intro m hm hn
  cases hm
  rw [C38_grouped] at hn
  split at hn
  · cases hn
  · cases hn
    obtain ⟨x, hx, rfl⟩ := List.mem_map.1 hρ
    obtain ⟨hx1, hx2⟩ := List.mem_filter.1 hx
    have hxn : x.node = n := of_decide_eq_true hx2
    cases hg : Dict.get? s.resolver.documentReferences file with
    | none => rw [hg] at hx1; cases hx1
    | some refs =>
      rw [hg] at hx1
      obtain ⟨c, ⟨v, h1, h2⟩, h3⟩ := hup.known.refs _ (Dict.get?_mem hg) x hx1
      subst h2
      rw [hxn] at h1 h3
      refine ⟨v, ?_, h3⟩
      obtain ⟨v', h4, h5⟩ := Arena.live_get? hup.arena (Forest.mem_ids.2 ⟨v, h1⟩)
      rw [h4, (Forest.flat_unique hup.arena.forest h5 h1 rfl).2]

/-- The same for the tables: what is recorded for another file was so before. -/
theorem C68_collect (h : Host) (path : Text) (ast : List Node) (st st' : Backend) (hs : Safe h.U st) (file : NodeId)
    (hfile : Dict.get? st.files path = some file) (e : collectReferences h path ast st = .ok st') (path' : Text) (n : NodeId)
    (ranges : List NodeRange) (hr : Recorded st' path' n ranges) :
    (path' ≠ path ∧ Recorded st path' n ranges) ∨ path' = path ∧ ∀ ρ ∈ ranges, ∃ v, st'.arena.get? n = some v ∧
      Named.Fits (worldOf h ast st) st'.arena file ρ n v.plainName v.fqdn := by
  unfold collectReferences at e
  obtain ⟨p, hp, e⟩ := Out.bind_eq_ok e
  obtain ⟨o, st1⟩ := p
  have hrefs : st1.references = st.references := by
    unfold resolveFile at hp
    rw [hfile] at hp
    obtain ⟨a, _, hp⟩ := Out.bind_eq_ok hp
    obtain ⟨x, _, hp⟩ := Out.bind_eq_ok hp
    cases hp
    rfl
  cases o with
  | none =>
    unfold resolveFile at hp
    rw [hfile] at hp
    obtain ⟨a, _, hp⟩ := Out.bind_eq_ok hp
    obtain ⟨x, _, hp⟩ := Out.bind_eq_ok hp
    cases hp
  | some m =>
    cases e
    obtain ⟨m', h1, h2⟩ := hr
    by_cases hpp : path' = path
    · subst hpp
      rw [show Dict.get? (Dict.insert st1.references path' m) path' = some m by rw [Dict.get?_insert, if_pos rfl]] at h1
      cases h1
      exact Or.inr ⟨rfl, fun ρ hρ => C68_resolve h path' ast st hs file hfile m st1 hp n ranges h2 ρ hρ⟩
    · refine Or.inl ⟨hpp, m', ?_, h2⟩
      rw [← h1]
      show _ = Dict.get? (Dict.insert st1.references path m) path'
      rw [Dict.get?_insert, if_neg (fun e => hpp e.symm), hrefs]

/-! ## Cases -/

/-- The names of the symbols that are referenced in a file, with the columns. -/
def referencedIn (path : Text) : Out Backend → List (Text × List (Nat × Nat))
  | .ok st => ((Dict.get? st.references path).getD []).map fun e =>
      (((st.arena.get? e.1).map (·.plainName)).getD [], e.2.map fun r => (r.startCol, r.endCol))
  | _ => []

private abbrev small : List (Text × Text) :=
  [(c!"a", c!"<?php namespace App; use Lib\\Foo as Bar; class A { public $p; function m(Bar $x): A { $x; $this->M()->p; } }"),
    (c!"b", c!"<?php namespace Lib; class Foo {}")]

private abbrev namedSmall : List (Text × List (Nat × Nat)) :=
  [(c!"p", [(58, 60), (102, 103)]), (c!"m", [(71, 72), (97, 98)]), (c!"A", [(47, 48), (82, 83), (90, 95)]),
    (c!"x", [(77, 79), (86, 88)]), (c!"Foo", [(21, 39), (73, 76)])]

/-- A case of `C68_resolve`: a workspace of two files is started and the references of one are looked for.  A use declaration,
parameters, types, the current class, methods in another case and properties are found. -/
example : ∃ st file m st', Safe plainHost.U st ∧ Dict.get? st.files c!"a" = some file ∧
    resolveFile plainHost c!"a" (treeOf c!"<?php namespace App; use Lib\\Foo as Bar; class A { public $p; function m(Bar $x): A { $x; $this->M()->p; } }") st =
      .ok (some m, st') ∧
    (m.map fun e => (((st'.arena.get? e.1).map (·.plainName)).getD [], e.2.map fun r => (r.startCol, r.endCol))) = namedSmall := by
  have hb : (match startWith small with
      | .ok st => (Dict.get? st.files c!"a").isSome && (match resolveFile plainHost c!"a" (treeOf
            c!"<?php namespace App; use Lib\\Foo as Bar; class A { public $p; function m(Bar $x): A { $x; $this->M()->p; } }") st with
        | .ok (some m, st') => decide ((m.map fun e =>
            (((st'.arena.get? e.1).map (·.plainName)).getD [], e.2.map fun r => (r.startCol, r.endCol))) = namedSmall)
        | _ => false)
      | _ => false) = true := by decide +kernel
  cases e : startWith small with
  | panic => rw [e] at hb; cases hb
  | deep => rw [e] at hb; cases hb
  | ok st =>
    rw [e] at hb
    simp only [Bool.and_eq_true] at hb
    obtain ⟨h1, h2⟩ := hb
    obtain ⟨file, hf⟩ := Option.isSome_iff_exists.1 h1
    split at h2
    · next m st' he =>
      exact ⟨st, file, m, st', (Serving.workspace small .start e).clean.toSafe, hf, he, of_decide_eq_true h2⟩
    · cases h2

private abbrev apart : List (Text × Text) :=
  [(c!"a", c!"<?php class Foo { public function bar() {} } class P { public function m(): Foo {} }"),
    (c!"b", c!"<?php // a Foo is made by m\nclass C extends P {}\n$c = new C();\n$c->m()->bar();")]

/-- **C68 fails for the types of members of other files:** the place of the return type of `P::m` in the file `a` is taken as a place of
the file `b`, whose first line has 27 characters.  When the class `Foo` is renamed, this place of `b` is replaced. -/
theorem C68_violated_foreign :
    (match startAndOpen apart c!"a" with
      | .ok st => (match rename plainHost (fun p => Dict.get? apart p) ⟨0, 13⟩ c!"a" st with
        | .ok p => p.1
        | _ => none)
      | _ => none) = some [(c!"a", [⟨⟨0, 12⟩, ⟨0, 15⟩⟩, ⟨⟨0, 76⟩, ⟨0, 79⟩⟩]), (c!"b", [⟨⟨0, 76⟩, ⟨0, 79⟩⟩])] := by
  decide +kernel

/-- **C68 does not mean that the name is written there:** a reference to `Lib\Foo` is the whole `use Lib\Foo as Bar` and each `Bar`,
one to the class `A` is `$this`, and one to the method `m` is its other name `n`.  All of them are replaced when the symbol is
renamed. -/
theorem C68_violated_written :
    referencedIn c!"a" (startAndOpen [(c!"a", c!"<?php namespace App; use Lib\\Foo as Bar; function f(Bar $x) {}"),
        (c!"b", c!"<?php namespace Lib; class Foo {}")] c!"a") =
      [(c!"x", [(56, 58)]), (c!"Foo", [(21, 39), (52, 55)]), (c!"f", [(50, 51)])] ∧
    referencedIn c!"a" (startAndOpen [(c!"a", c!"<?php class A { use T { m as n; } function k() { $this->n(); } }"),
        (c!"b", c!"<?php trait T { function m() {} }")] c!"a") =
      [(c!"m", [(56, 57)]), (c!"A", [(12, 13), (49, 54)]), (c!"k", [(43, 44)])] := by
  decide +kernel

end PhpLs
