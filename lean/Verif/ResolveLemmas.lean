import Verif.BackendLemmas
import Verif.Props.Scopes

/-!
# What resolving the names of a file changes

The variables of the file are taken away and added again; everything else keeps its place, its kind and its name, if no node is
moved.
-/

namespace PhpLs

open Out

/-- The arena `b` comes from `a` by taking away the nodes of a list. -/
structure Taken (l : List NodeId) (a b : Arena Symbol) : Prop where
  ok : b.Ok
  keep : ∀ i v q, a.Has i v q → i ∉ l → ∃ p, b.Has i v p ∧ (∀ t, q = some t → t ∉ l → p = q) ∧ (q = none → p = none)
  old : ∀ i v p, b.Has i v p → i ∉ l ∧ ∃ q, a.Has i v q

theorem taken_all : ∀ (l : List (NodeId × Symbol)) (a : Arena Symbol), a.Ok →
    (∀ x ∈ l, (∃ p, a.Has x.1 x.2 p) ∨ x.1.idx ∉ a.forest.idxs) →
    Taken (l.map (·.1)) a (l.foldl (fun a c => a.remove c.1) a)
  | [], a, ha, _ => ⟨ha, fun i v q h _ => ⟨q, h, fun _ _ _ => rfl, fun e => e⟩, fun i v p h => ⟨(fun h => nomatch h), p, h⟩⟩
  | x :: l, a, ha, hl => by
    rw [List.foldl_cons]
    rcases hl x (List.mem_cons_self ..) with ⟨z, hx⟩ | hx
    · have hr := Arena.has_remove ha hx
      have ih := taken_all l (a.remove x.1) (Arena.ok_remove ha x.1) fun y hy => ?_
      · refine ⟨ih.ok, fun i v q hi hni => ?_, fun i v p hi => ?_⟩
        · rw [List.map_cons, List.mem_cons, not_or] at hni
          obtain ⟨p, h1, h2, h3⟩ := ih.keep i v _ ((hr i v _).2 ⟨hni.1, q, hi, rfl⟩) hni.2
          refine ⟨p, h1, fun t e ht => ?_, fun e => ?_⟩
          · rw [List.map_cons, List.mem_cons, not_or] at ht
            have : (if q = some x.1 then z else q) = some t := by
              rw [if_neg, e]
              rw [e]
              intro e'
              injection e' with e'
              exact ht.1 e'
            rw [h2 t this ht.2, this, e]
          · apply h3
            rw [if_neg, e]
            rw [e]
            exact fun e => nomatch e
        · obtain ⟨h1, q, hq⟩ := ih.old i v p hi
          obtain ⟨h2, q', hq', _⟩ := (hr i v q).1 hq
          rw [List.map_cons, List.mem_cons, not_or]
          exact ⟨⟨h2, h1⟩, q', hq'⟩
      · by_cases hyx : y.1.idx = x.1.idx
        · refine .inr fun hm => ?_
          obtain ⟨j, w, hj, e⟩ := Forest.mem_idxs.1 hm
          have hjl : (a.remove x.1).Live j := Forest.mem_ids.2 ⟨w, hj⟩
          obtain ⟨w', q, hw⟩ := hjl.has
          obtain ⟨h2, q', hq', _⟩ := (hr j w' q).1 hw
          exact h2 (hq'.unique ha hx (e.trans hyx)).1
        · rcases hl y (List.mem_cons_of_mem _ hy) with ⟨p, hp⟩ | hp
          · exact .inl ⟨_, (hr y.1 y.2 _).2 ⟨fun e => hyx (by rw [e]), p, hp, rfl⟩⟩
          · refine .inr fun hm => hp ?_
            obtain ⟨j, w, hj, e⟩ := Forest.mem_idxs.1 hm
            have hjl : (a.remove x.1).Live j := Forest.mem_ids.2 ⟨w, hj⟩
            obtain ⟨w', q, hw⟩ := hjl.has
            obtain ⟨_, q', hq', _⟩ := (hr j w' q).1 hw
            exact Forest.mem_idxs.2 ⟨j, w', hq'.flat, e⟩
    · have e : a.remove x.1 = a := by
        unfold Arena.remove
        rw [Forest.node?_none.2 hx]
      rw [e]
      have ih := taken_all l a ha fun y hy => hl y (List.mem_cons_of_mem _ hy)
      have hne : ∀ i v p, a.Has i v p → i ≠ x.1 := by
        intro i v p hi e
        exact hx (Forest.mem_idxs.2 ⟨i, v, hi.flat, by rw [e]⟩)
      refine ⟨ih.ok, fun i v q hi hni => ?_, fun i v p hi => ?_⟩
      · rw [List.map_cons, List.mem_cons, not_or] at hni
        obtain ⟨p, h1, h2, h3⟩ := ih.keep i v q hi hni.2
        refine ⟨p, h1, fun t e ht => ?_, h3⟩
        rw [List.map_cons, List.mem_cons, not_or] at ht
        exact h2 t e ht.2
      · obtain ⟨h1, q, hq⟩ := ih.old i v p hi
        rw [List.map_cons, List.mem_cons, not_or]
        exact ⟨⟨hne i v q hq, h1⟩, q, hq⟩

theorem rooted_all : ∀ (l : List (NodeId × Symbol)) (a : Arena Symbol), a.Ok → Rooted a →
    (∀ x ∈ l, (∃ w p, a.Has x.1 w p ∧ w.kind = .variable) ∨ x.1.idx ∉ a.forest.idxs) →
    Rooted (l.foldl (fun a c => a.remove c.1) a)
  | [], a, _, h, _ => h
  | x :: l, a, ha, h, hl => by
    rw [List.foldl_cons]
    rcases hl x (List.mem_cons_self ..) with ⟨w, z, hx, hk⟩ | hx
    · have hr := Arena.has_remove ha hx
      have hz : z ≠ none := fun e => by
        rw [(h _ _ _ hx).2 e] at hk
        cases hk
      refine rooted_all l (a.remove x.1) (Arena.ok_remove ha x.1) (fun i v p hi => ?_) fun y hy => ?_
      · obtain ⟨_, q, hq, e⟩ := (hr i v p).1 hi
        rw [h i v q hq]
        split at e
        · next hq' =>
          subst e
          rw [hq']
          simp [hz]
        · rw [e]
      · by_cases hyx : y.1.idx = x.1.idx
        · refine .inr fun hm => ?_
          obtain ⟨j, w, hj, e⟩ := Forest.mem_idxs.1 hm
          have hjl : (a.remove x.1).Live j := Forest.mem_ids.2 ⟨w, hj⟩
          obtain ⟨w', q, hw⟩ := hjl.has
          obtain ⟨h2, q', hq', _⟩ := (hr j w' q).1 hw
          exact h2 (hq'.unique ha hx (e.trans hyx)).1
        · rcases hl y (List.mem_cons_of_mem _ hy) with ⟨w', p, hp, hk'⟩ | hp
          · exact .inl ⟨w', _, (hr y.1 w' _).2 ⟨fun e => hyx (by rw [e]), p, hp, rfl⟩, hk'⟩
          · refine .inr fun hm => hp ?_
            obtain ⟨j, w, hj, e⟩ := Forest.mem_idxs.1 hm
            have hjl : (a.remove x.1).Live j := Forest.mem_ids.2 ⟨w, hj⟩
            obtain ⟨w', q, hw⟩ := hjl.has
            obtain ⟨_, q', hq', _⟩ := (hr j w' q).1 hw
            exact Forest.mem_idxs.2 ⟨j, w', hq'.flat, e⟩
    · have e : a.remove x.1 = a := by
        unfold Arena.remove
        rw [Forest.node?_none.2 hx]
      rw [e]
      exact rooted_all l a ha h fun y hy => hl y (List.mem_cons_of_mem _ hy)

/-- The variables of a file are taken away, and nothing else. -/
theorem purge_taken {a : Arena Symbol} (ha : a.Ok) {file : NodeId} (hf : a.Live file) :
    OkThat (fun b => ∃ l : List NodeId, Taken l a b ∧ (∀ i ∈ l, ∃ v p, a.Has i v p ∧ v.kind = .variable) ∧
      (Rooted a → Rooted b)) (Backend.purge file a) := by
  unfold Backend.purge
  obtain ⟨w, z, hw⟩ := hf.has
  obtain ⟨all, h1, h2, _, _⟩ := Arena.has_descendants ha hw
  refine OkThat.bindOption fun l hl => OkThat.ok ?_
  rw [h1] at hl
  cases hl
  refine ⟨_, taken_all _ a ha fun x hx => ?_, fun i hi => ?_, fun h => rooted_all _ a ha h fun x hx => ?_⟩
  · exact .inl (h2 x.1 x.2 (List.mem_filter.1 hx).1)
  · obtain ⟨x, hx, rfl⟩ := List.mem_map.1 hi
    obtain ⟨hx1, hx2⟩ := List.mem_filter.1 hx
    obtain ⟨p, hp⟩ := h2 x.1 x.2 hx1
    exact ⟨x.2, p, hp, of_decide_eq_true hx2⟩
  · obtain ⟨hx1, hx2⟩ := List.mem_filter.1 hx
    obtain ⟨p, hp⟩ := h2 x.1 x.2 hx1
    exact .inl ⟨x.2, p, hp, of_decide_eq_true hx2⟩

/-- The arena `b` comes from `a` by adding variables and changing data types. -/
structure Extended (a b : Arena Symbol) : Prop where
  ok : b.Ok
  keep : ∀ i v p, a.Has i v p → ∃ w, b.Has i w p ∧ Symbol.Same v w
  new : ∀ i w p, b.Has i w p → (∃ v, a.Has i v p ∧ Symbol.Same v w) ∨
    (¬ a.Live i ∧ w.kind.registerGlobal = false ∧ w.kind ≠ .file ∧ p ≠ none)

theorem Extended.live {a b : Arena Symbol} (h : Extended a b) {i : NodeId} (hi : a.Live i) : b.Live i := by
  obtain ⟨v, p, hv⟩ := hi.has
  obtain ⟨w, hw, _⟩ := h.keep i v p hv
  exact hw.live

theorem Symbol.ofToken_kind {k : Token} {v : Symbol} (h : Symbol.ofToken k = some v) :
    v.kind.registerGlobal = false ∧ v.kind ≠ .file := by
  unfold Symbol.ofToken at h
  cases hr : k.range with
  | none => rw [hr] at h; cases h
  | some r =>
    cases hd : k.display with
    | none => rw [hr, hd] at h; cases h
    | some d =>
      rw [hr, hd] at h
      cases h
      dsimp only
      split <;> exact ⟨rfl, fun e => nomatch e⟩

/-- Without moves the visitor that resolves names only adds variables. -/
theorem Reach.extended {a b : Arena Symbol} (h : Reach false a b) (ha : a.Ok) : Extended a b := by
  induction h with
  | refl => exact ⟨ha, fun i v p h => ⟨v, h, .refl v⟩, fun i w p h => .inl ⟨w, h, .refl w⟩⟩
  | @add c p k v ts _ hp hk ih =>
    obtain ⟨u, hu⟩ := Option.isSome_iff_exists.1 hp
    obtain ⟨j, q, hj, hju⟩ := Arena.has_of_get? hu
    have hc := Arena.has_addChild ih.ok hju hj { v with dataTypes := ts }
    refine ⟨Arena.ok_addChild ih.ok (Forest.mem_idxs.2 ⟨j, u, hju.flat, hj⟩) _, fun i x z hx => ?_, fun i x z hx => ?_⟩
    · obtain ⟨w, hw, e⟩ := ih.keep i x z hx
      exact ⟨w, (hc i w z).2 (.inl hw), e⟩
    · rcases (hc i x z).1 hx with hx | ⟨rfl, rfl, e⟩
      · exact ih.new i x z hx
      · refine .inr ⟨fun hl => ?_, (Symbol.ofToken_kind hk).1, (Symbol.ofToken_kind hk).2, by rw [e]; exact fun e => nomatch e⟩
        obtain ⟨y, r, hy⟩ := (ih.live hl).has
        exact hy.ne_fresh ih.ok rfl
  | @types c i f _ ih =>
    have hm := Arena.has_modify ih.ok i fun v => { v with dataTypes := f v }
    have hs : ∀ (j : NodeId) (w : Symbol), Symbol.Same w (if j.idx = i.idx then { w with dataTypes := f w } else w) := by
      intro j w
      split
      · exact ⟨rfl, rfl, rfl, rfl, rfl⟩
      · exact .refl w
    refine ⟨Arena.ok_modify ih.ok i _, fun j x z hx => ?_, fun j x z hx => ?_⟩
    · obtain ⟨w, hw, e⟩ := ih.keep j x z hx
      exact ⟨_, (hm j _ z).2 ⟨w, hw, rfl⟩, e.trans (hs j w)⟩
    · obtain ⟨w, hw, rfl⟩ := (hm j x z).1 hx
      rcases ih.new j w z hw with ⟨y, hy, e⟩ | ⟨h1, h2⟩
      · exact .inl ⟨y, hy, e.trans (hs j w)⟩
      · refine .inr ⟨h1, ?_⟩
        rw [(hs j w).kind]
        exact h2
  | move h => cases h

/-- What is kept by the resolution of the names of a file: each symbol that is not a variable and not below a variable. -/
structure Resolved (a b : Arena Symbol) : Prop where
  ok : b.Ok
  keep : ∀ i v p, a.Has i v p → v.kind ≠ .variable → (∀ q, p = some q → ∃ u r, a.Has q u r ∧ u.kind ≠ .variable) →
    ∃ w, b.Has i w p ∧ Symbol.Same v w
  live : ∀ i v p, a.Has i v p → v.kind ≠ .variable → b.Live i

namespace Resolved

theorem refl {a : Arena Symbol} (h : a.Ok) : Resolved a a :=
  ⟨h, fun _ v _ hi _ _ => ⟨v, hi, .refl v⟩, fun _ _ _ hi _ => hi.live⟩

end Resolved

/-- The walk over all trees of a file. -/
theorem walk_file (h : Host) (file : NodeId) (ast : List Node) (s s' : Env) (hast : ∀ n ∈ ast, NoDocVar n)
    (hw : ast.foldlM (walkTree h file) s = .ok s') :
    Reach false s.arena s'.arena ∧ (∀ f, s.resolver.refsOf f <+: s'.resolver.refsOf f) := by
  induction ast generalizing s with
  | nil => cases hw; exact ⟨.refl _, fun _ => List.prefix_rfl⟩
  | cons n r ih =>
    rw [List.foldlM_cons] at hw
    obtain ⟨s1, h1, h2⟩ := Out.bind_eq_ok hw
    have w := walked (mv := false) h.U h.H file h.fuel false h.fuel false n file s (fun e => nomatch e) (fun e => nomatch e)
      (fun _ => hast n (List.mem_cons_self ..)) s1 h1
    obtain ⟨h3, h4⟩ := ih s1 (fun m hm => hast m (List.mem_cons_of_mem _ hm)) h2
    exact ⟨w.arena.trans h3, fun f => (w.refs f).trans (h4 f)⟩

/-- What `collect_references` changes. -/
structure Referenced (st st' : Backend) : Prop where
  arena : Resolved st.arena st'.arena
  files : st'.files = st.files
  globals : st'.globals = st.globals
  opened : st'.opened = st.opened
  latest : st'.latest = st.latest
  references : st'.references = st.references
  rooted : Rooted st.arena → Rooted st'.arena
  roots : Rooted st.arena → ∀ i w, st'.arena.Has i w none → ∃ v, st.arena.Has i v none ∧ Symbol.Same v w

theorem resolveFile_referenced (h : Host) (path : Text) (ast : List Node) (st : Backend) (ha : st.arena.Ok)
    (hf : ∀ o, Dict.get? st.files path = some o → st.arena.Live o) (hast : ∀ n ∈ ast, NoDocVar n) :
    OkThat (fun p : Option FileRefs × Backend => Referenced st p.2) (Backend.resolveFile h path ast st) := by
  unfold Backend.resolveFile
  split
  · exact OkThat.ok ⟨Resolved.refl ha, rfl, rfl, rfl, rfl, rfl, fun h => h, fun _ i w hw => ⟨w, hw, .refl w⟩⟩
  · next file hfile =>
    refine (purge_taken ha (hf file hfile)).bind fun a hl => ?_
    obtain ⟨l, ht, hlk, hroot⟩ := hl
    refine OkThat.bind (Q := fun e : Env => Reach false a e.arena) ?_ fun e he => OkThat.ok ?_
    · intro e he
      exact (walk_file h file ast _ e hast he).1
    · have hx := he.extended ht.ok
      have hout : ∀ i v p, st.arena.Has i v p → v.kind ≠ .variable → i ∉ l := by
        intro i v p hi hv hm
        obtain ⟨w, q, hw, e⟩ := hlk i hm
        obtain ⟨_, rfl, _⟩ := hi.unique ha hw rfl
        exact hv e
      refine ⟨⟨hx.ok, fun i v p hi hv hp => ?_, fun i v p hi hv => ?_⟩, rfl, rfl, rfl, rfl, rfl, fun hr i w p hw => ?_, fun hr i w hw => ?_⟩
      · obtain ⟨q, h1, h2, h3⟩ := ht.keep i v p hi (hout i v p hi hv)
        obtain ⟨w, hw, e⟩ := hx.keep i v q h1
        refine ⟨w, ?_, e⟩
        cases p with
        | none => rw [← h3 rfl]; exact hw
        | some t =>
          obtain ⟨u, r, hu, huk⟩ := hp t rfl
          rw [← h2 t rfl (hout t u r hu huk)]
          exact hw
      · obtain ⟨q, h1, _, _⟩ := ht.keep i v p hi (hout i v p hi hv)
        exact hx.live h1.live
      · rcases hx.new i w p hw with ⟨v, hv, e⟩ | ⟨_, _, e1, e2⟩
        · rw [e.kind]
          exact hroot hr i v p hv
        · exact ⟨fun e => absurd e e1, fun e => absurd e e2⟩
      · rcases hx.new i w none hw with ⟨v, hv, e⟩ | ⟨_, _, _, e⟩
        · obtain ⟨_, q, hq⟩ := ht.old i v none hv
          have hf := (hroot hr i v none hv).2 rfl
          rw [(hr i v q hq).1 hf] at hq
          exact ⟨v, hq, e⟩
        · exact absurd rfl e

end PhpLs
