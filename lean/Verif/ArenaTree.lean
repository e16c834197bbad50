import Verif.ArenaLemmas

/-!
# Nodes of the arena with their parents

`a.Has i v p`: the node `i` is in the arena, its payload is `v` and its parent is `p` (`none` for a root).  The operations of the
arena are described by what they do to this relation; the order of the children is left out.
-/

namespace PhpLs

namespace Forest

variable {α : Type}

/-- All nodes with their payloads and parents; `p` is the parent of the top level. -/
def flatUp (p : Option NodeId) : Forest α → List (NodeId × α × Option NodeId)
  | nil => []
  | cons i v k r => (i, v, p) :: (k.flatUp (some i) ++ r.flatUp p)

@[simp] theorem flatUp_nil (p : Option NodeId) : (nil : Forest α).flatUp p = [] := rfl

@[simp] theorem flatUp_cons (p : Option NodeId) (i : NodeId) (v : α) (k r : Forest α) :
    (cons i v k r).flatUp p = (i, v, p) :: (k.flatUp (some i) ++ r.flatUp p) := rfl

@[simp] theorem flatUp_append (p : Option NodeId) (f g : Forest α) : (f.append g).flatUp p = f.flatUp p ++ g.flatUp p := by
  induction f with
  | nil => rfl
  | cons i v k r _ ihr => simp [append, ihr]

theorem flatUp_flat (p : Option NodeId) (f : Forest α) : (f.flatUp p).map (fun x => (x.1, x.2.1)) = f.flat := by
  induction f generalizing p with
  | nil => rfl
  | cons i v k r ihk ihr => simp [ihk, ihr]

theorem flatUp_idxs (p : Option NodeId) (f : Forest α) : (f.flatUp p).map (·.1.idx) = f.idxs := by
  have := congrArg (List.map (fun x : NodeId × α => x.1.idx)) (flatUp_flat p f)
  simpa [idxs, Function.comp_def] using this

theorem flatUp_ids (p : Option NodeId) (f : Forest α) : (f.flatUp p).map (·.1) = f.ids := by
  have := congrArg (List.map (fun x : NodeId × α => x.1)) (flatUp_flat p f)
  simpa [ids, Function.comp_def] using this

/-- The parents are nodes of the forest, or the parent of the top level. -/
theorem flatUp_parent {p : Option NodeId} {f : Forest α} {x : NodeId × α × Option NodeId} (h : x ∈ f.flatUp p) :
    x.2.2 = p ∨ ∃ q ∈ f.ids, x.2.2 = some q := by
  induction f generalizing p with
  | nil => simp at h
  | cons i v k r ihk ihr =>
    simp only [flatUp_cons, List.mem_cons, List.mem_append] at h
    simp only [ids_cons, List.mem_cons, List.mem_append]
    rcases h with rfl | h | h
    · exact .inl rfl
    · rcases ihk h with e | ⟨q, hq, e⟩
      · exact .inr ⟨i, .inl rfl, e⟩
      · exact .inr ⟨q, .inr (.inl hq), e⟩
    · rcases ihr h with e | ⟨q, hq, e⟩
      · exact .inl e
      · exact .inr ⟨q, .inr (.inr hq), e⟩

/-- The nodes on the top level are the ones with the parent of the top level. -/
theorem mem_tops {p : Option NodeId} {f : Forest α} (hp : ∀ q, p = some q → q ∉ f.ids) {c : NodeId} {v : α} :
    (c, v) ∈ f.tops ↔ (c, v, p) ∈ f.flatUp p := by
  induction f with
  | nil => simp [tops]
  | cons i w k r ihk ihr =>
    have h1 : ∀ q, p = some q → q ∉ r.ids := fun q e h => hp q e (by simp [h])
    have h2 : (c, v, p) ∉ k.flatUp (some i) := by
      intro h
      rcases flatUp_parent h with e | ⟨q, hq, e⟩
      · exact hp i e (by simp)
      · exact hp q e (by simp [hq])
    simp only [tops, List.mem_cons, flatUp_cons, List.mem_append, ihr h1, h2, false_or, Prod.mk.injEq, and_true]

/-- The block of a node with what is below it, and what the operations do to it. -/
theorem focus {f : Forest α} (hn : f.idxs.Nodup) {n : Nat} {i : NodeId} {v : α} {k : Forest α}
    (h : f.node? n = some (i, v, k)) (p : Option NodeId) (hp : ∀ q, p = some q → q ∉ f.ids) :
    ∃ (a b : List (NodeId × α × Option NodeId)) (q : Option NodeId),
      f.flatUp p = a ++ (i, v, q) :: (k.flatUp (some i) ++ b) ∧
      (∀ x ∈ a ++ b, ∀ y, x.2.2 = some y → y ≠ i ∧ y ∉ k.ids) ∧
      (∀ y, q = some y → y ≠ i ∧ y ∉ k.ids) ∧
      (∀ g : Forest α → Forest α, (f.replace n g).flatUp p = a ++ ((g k).flatUp q ++ b)) ∧
      ∀ u : α → Forest α → α × Forest α,
        (f.update n u).flatUp p = a ++ (i, (u v k).1, q) :: ((u v k).2.flatUp (some i) ++ b) := by
  induction f generalizing p with
  | nil => simp [node?] at h
  | cons i' v' k' r ihk ihr =>
    simp only [idxs_cons, List.nodup_cons, List.nodup_append, List.mem_append, not_or] at hn
    obtain ⟨⟨h1, h2⟩, hk, hr, hd⟩ := hn
    have idx_of : ∀ {g : Forest α} {j : NodeId}, j ∈ g.ids → j.idx ∈ g.idxs := by
      intro g j hj
      obtain ⟨w, hw⟩ := mem_ids.1 hj
      exact mem_idxs.2 ⟨_, _, hw, rfl⟩
    simp only [node?] at h
    split at h
    · rename_i hi
      injection h with h
      simp only [Prod.mk.injEq] at h
      obtain ⟨rfl, rfl, rfl⟩ := h
      refine ⟨[], r.flatUp p, p, by simp, ?_, ?_, by simp [replace, hi], by simp [update, hi]⟩
      · intro x hx y hy
        simp only [List.nil_append] at hx
        rcases flatUp_parent hx with e | ⟨q, hq, e⟩
        · have := hp y (by rw [← e, hy])
          simp only [ids_cons, List.mem_cons, List.mem_append, not_or] at this
          exact ⟨this.1, this.2.1⟩
        · rw [hy] at e; injection e with e; subst e
          refine ⟨fun e => h2 (e ▸ idx_of hq), fun e => hd _ (idx_of e) _ (idx_of hq) rfl⟩
      · intro y hy
        have := hp y hy
        simp only [ids_cons, List.mem_cons, List.mem_append, not_or] at this
        exact ⟨this.1, this.2.1⟩
    · rename_i hi
      split at h
      · rename_i x hx
        injection h with h; subst h
        have hp' : ∀ q, some i' = some q → q ∉ k'.ids := by
          intro q e hq
          injection e with e; subst e
          exact h1 (idx_of hq)
        obtain ⟨a, b, q, e1, e2, e3, e4, e5⟩ := ihk hk hx (some i') hp'
        have hin : n ∈ k'.idxs := by
          obtain ⟨h1, h2, _⟩ := node?_some hx; exact mem_idxs.2 ⟨_, _, h2, h1⟩
        have hnr : n ∉ r.idxs := fun e => hd _ hin _ e rfl
        have hsub : ∀ j, j = i ∨ j ∈ k.ids → j ∈ k'.ids := by
          intro j hj
          rw [← flatUp_ids (some i') k', e1]
          rcases hj with rfl | hj
          · simp
          · rw [← flatUp_ids (some i) k] at hj
            simp only [List.map_append, List.map_cons, List.mem_append, List.mem_cons]
            exact .inr (.inr (.inl hj))
        refine ⟨(i', v', p) :: a, b ++ r.flatUp p, q, by simp [e1], ?_, e3, ?_, ?_⟩
        · intro x hx y hy
          simp only [List.cons_append, List.mem_cons, List.mem_append] at hx
          have hout : y ∉ k'.ids → y ≠ i ∧ y ∉ k.ids := fun h => ⟨fun e => h (hsub _ (.inl e)), fun e => h (hsub _ (.inr e))⟩
          rcases hx with rfl | hx | hx | hx
          · exact hout fun e => hp y hy (by simp [e])
          · exact e2 x (by simp [hx]) y hy
          · exact e2 x (by simp [hx]) y hy
          · rcases flatUp_parent hx with e | ⟨q', hq', e⟩
            · exact hout fun h => hp y (by rw [← e, hy]) (by simp [h])
            · rw [hy] at e; injection e with e; subst e
              exact hout fun h => hd _ (idx_of h) _ (idx_of hq') rfl
        · intro g
          simp [replace, hi, e4, replace_notMem hnr]
        · intro u
          simp [update, hi, e5, update_notMem hnr]
      · rename_i hx
        have hnk : n ∉ k'.idxs := node?_none.1 hx
        have hp' : ∀ q, p = some q → q ∉ r.ids := fun q e h => hp q e (by simp [h])
        obtain ⟨a, b, q, e1, e2, e3, e4, e5⟩ := ihr hr h p hp'
        have hsub : ∀ j, j = i ∨ j ∈ k.ids → j ∈ r.ids := by
          intro j hj
          rw [← flatUp_ids p r, e1]
          rcases hj with rfl | hj
          · simp
          · rw [← flatUp_ids (some i) k] at hj
            simp only [List.map_append, List.map_cons, List.mem_append, List.mem_cons]
            exact .inr (.inr (.inl hj))
        refine ⟨(i', v', p) :: (k'.flatUp (some i') ++ a), b, q, by simp [e1], ?_, e3, ?_, ?_⟩
        · intro x hx y hy
          simp only [List.cons_append, List.mem_cons, List.mem_append] at hx
          have hout : y ∉ r.ids → y ≠ i ∧ y ∉ k.ids := fun h => ⟨fun e => h (hsub _ (.inl e)), fun e => h (hsub _ (.inr e))⟩
          rcases hx with rfl | (hx | hx) | hx
          · exact hout fun e => hp y hy (by simp [e])
          · rcases flatUp_parent hx with e | ⟨q', hq', e⟩
            · rw [hy] at e; injection e with e; subst e
              exact hout fun h => h2 (idx_of h)
            · rw [hy] at e; injection e with e; subst e
              exact hout fun h => hd _ (idx_of hq') _ (idx_of h) rfl
          · exact e2 x (by simp [hx]) y hy
          · exact e2 x (by simp [hx]) y hy
        · intro g
          simp [replace, hi, e4, replace_notMem hnk]
        · intro u
          simp [update, hi, e5, update_notMem hnk]

end Forest

namespace Arena

variable {α : Type}

/-- The node `i` is in the arena, with payload `v` and parent `p`. -/
def Has (a : Arena α) (i : NodeId) (v : α) (p : Option NodeId) : Prop := (i, v, p) ∈ a.forest.flatUp none

theorem Has.flat {a : Arena α} {i : NodeId} {v : α} {p : Option NodeId} (h : a.Has i v p) : (i, v) ∈ a.forest.flat := by
  rw [← Forest.flatUp_flat none]
  exact List.mem_map.2 ⟨_, h, rfl⟩

theorem Has.live {a : Arena α} {i : NodeId} {v : α} {p : Option NodeId} (h : a.Has i v p) : a.Live i :=
  Forest.mem_ids.2 ⟨v, h.flat⟩

theorem Live.has {a : Arena α} {i : NodeId} (h : a.Live i) : ∃ v p, a.Has i v p := by
  unfold Live at h
  rw [← Forest.flatUp_ids none] at h
  obtain ⟨⟨j, v, p⟩, hm, rfl⟩ := List.mem_map.1 h
  exact ⟨v, p, hm⟩

theorem nodup_map_inj {β γ : Type} {f : β → γ} {l : List β} (hn : (l.map f).Nodup) {x y : β} (hx : x ∈ l) (hy : y ∈ l)
    (he : f x = f y) : x = y := by
  induction l with
  | nil => cases hx
  | cons z l ih =>
    rw [List.map_cons, List.nodup_cons] at hn
    rcases List.mem_cons.1 hx with rfl | hx' <;> rcases List.mem_cons.1 hy with rfl | hy'
    · rfl
    · exact absurd (List.mem_map.2 ⟨_, hy', he.symm⟩) hn.1
    · exact absurd (List.mem_map.2 ⟨_, hx', he⟩) hn.1
    · exact ih hn.2 hx' hy'

/-- A slot holds one node. -/
theorem Has.unique {a : Arena α} (ha : a.Ok) {i j : NodeId} {v w : α} {p q : Option NodeId} (h : a.Has i v p) (h' : a.Has j w q)
    (e : i.idx = j.idx) : i = j ∧ v = w ∧ p = q := by
  have hn : ((a.forest.flatUp none).map (·.1.idx)).Nodup := by rw [Forest.flatUp_idxs]; exact ha.forest
  have := nodup_map_inj hn h h' e
  simpa using this

theorem Has.get? {a : Arena α} (ha : a.Ok) {i : NodeId} {v : α} {p : Option NodeId} (h : a.Has i v p) : a.get? i = some v := by
  obtain ⟨k, hk⟩ := Forest.node?_mem ha.forest h.flat
  simp [Arena.get?, hk]

theorem Has.node? {a : Arena α} (ha : a.Ok) {i : NodeId} {v : α} {p : Option NodeId} (h : a.Has i v p) :
    ∃ k, a.forest.node? i.idx = some (i, v, k) := Forest.node?_mem ha.forest h.flat

theorem has_of_node? {a : Arena α} {n : Nat} {i : NodeId} {v : α} {k : Forest α} (h : a.forest.node? n = some (i, v, k)) :
    i.idx = n ∧ ∃ p, a.Has i v p := by
  obtain ⟨h1, h2, _⟩ := Forest.node?_some h
  rw [← Forest.flatUp_flat none] at h2
  obtain ⟨⟨j, v', q⟩, hm, he⟩ := List.mem_map.1 h2
  simp only [Prod.mk.injEq] at he
  obtain ⟨rfl, rfl⟩ := he
  exact ⟨h1, q, hm⟩

theorem has_of_get? {a : Arena α} {i : NodeId} {v : α} (h : a.get? i = some v) : ∃ j p, j.idx = i.idx ∧ a.Has j v p := by
  unfold Arena.get? at h
  obtain ⟨⟨j, w, k⟩, hx, rfl⟩ := Option.map_eq_some_iff.1 h
  obtain ⟨e, p, hp⟩ := has_of_node? hx
  exact ⟨j, p, e, hp⟩

private theorem top_out (f : Forest α) : ∀ q, (none : Option NodeId) = some q → q ∉ f.ids := fun _ e => nomatch e

theorem forest_took (a : Arena α) (f : Forest α) : (a.took f).forest = f := by
  unfold took
  split <;> rfl

theorem has_addRoot (a : Arena α) (v : α) (i : NodeId) (w : α) (p : Option NodeId) :
    (a.addRoot v).2.Has i w p ↔ a.Has i w p ∨ (i = a.fresh ∧ w = v ∧ p = none) := by
  simp [Has, addRoot, forest_took, Forest.snoc]

theorem has_addChild {a : Arena α} (ha : a.Ok) {p p' : NodeId} {w : α} {q : Option NodeId} (hp : a.Has p' w q)
    (e : p'.idx = p.idx) (v : α) (i : NodeId) (u : α) (r : Option NodeId) :
    (a.addChild p v).2.Has i u r ↔ a.Has i u r ∨ (i = a.fresh ∧ u = v ∧ r = some p') := by
  obtain ⟨k, hk⟩ := hp.node? ha
  rw [e] at hk
  obtain ⟨x, y, z, e1, _, _, _, e5⟩ := Forest.focus ha.forest hk none (top_out _)
  simp only [Has, addChild, forest_took, e5, e1, Forest.snoc, Forest.flatUp_append, Forest.flatUp_cons, Forest.flatUp_nil,
    List.append_nil, List.mem_append, List.mem_cons, Prod.mk.injEq, List.not_mem_nil, or_false]
  constructor
  · rintro (h | h | (h | h) | h)
    · exact .inl (.inl h)
    · exact .inl (.inr (.inl h))
    · exact .inl (.inr (.inr (.inl h)))
    · exact .inr h
    · exact .inl (.inr (.inr (.inr h)))
  · rintro ((h | h | h | h) | h)
    · exact .inl h
    · exact .inr (.inl h)
    · exact .inr (.inr (.inl (.inl h)))
    · exact .inr (.inr (.inr h))
    · exact .inr (.inr (.inl (.inr h)))

/-- The block of a node, the nodes before it and the nodes behind it are different. -/
theorem block_out {a : Arena α} (ha : a.Ok) {i : NodeId} {v : α} {q : Option NodeId} {k : Forest α}
    {x y : List (NodeId × α × Option NodeId)} (e : a.forest.flatUp none = x ++ (i, v, q) :: (k.flatUp (some i) ++ y)) :
    (∀ n, n ∈ x ∨ n ∈ k.flatUp (some i) ∨ n ∈ y → n.1.idx ≠ i.idx) ∧
      ∀ n m, n ∈ x ∨ n ∈ y → m ∈ k.flatUp (some i) → n.1.idx ≠ m.1.idx := by
  have hn : ((a.forest.flatUp none).map (·.1.idx)).Nodup := by rw [Forest.flatUp_idxs]; exact ha.forest
  rw [e, List.map_append, List.map_cons, List.map_append, List.nodup_append, List.nodup_cons, List.nodup_append] at hn
  obtain ⟨_, ⟨h2, _, _, h5⟩, h6⟩ := hn
  have mem : ∀ {n : NodeId × α × Option NodeId} {l : List (NodeId × α × Option NodeId)}, n ∈ l → n.1.idx ∈ l.map (·.1.idx) :=
    fun h => List.mem_map.2 ⟨_, h, rfl⟩
  constructor
  · rintro n (h | h | h) e
    · exact h6 _ (mem h) i.idx (by simp) e
    · exact h2 (List.mem_append.2 (.inl (e ▸ mem h)))
    · exact h2 (List.mem_append.2 (.inr (e ▸ mem h)))
  · rintro n m (h | h) hm e
    · exact h6 _ (mem h) m.1.idx (List.mem_cons_of_mem _ (List.mem_append.2 (.inl (mem hm)))) e
    · exact h5 _ (mem hm) _ (mem h) e.symm

theorem has_modify {a : Arena α} (ha : a.Ok) (t : NodeId) (f : α → α) (i : NodeId) (v : α) (p : Option NodeId) :
    (a.modify t f).Has i v p ↔ ∃ w, a.Has i w p ∧ v = if i.idx = t.idx then f w else w := by
  cases hk : a.forest.node? t.idx with
  | none =>
    have hm : (a.modify t f).forest = a.forest := by
      simp [modify, Forest.update_notMem (Forest.node?_none.1 hk)]
    have hne : ∀ {w}, a.Has i w p → i.idx ≠ t.idx := by
      intro w h e
      have : i.idx ∈ a.forest.idxs := by
        rw [← Forest.flatUp_idxs none]
        exact List.mem_map.2 ⟨_, h, rfl⟩
      exact Forest.node?_none.1 hk (e ▸ this)
    constructor
    · intro h
      have h : a.Has i v p := by simpa only [Has, hm] using h
      exact ⟨v, h, by rw [if_neg (hne h)]⟩
    · rintro ⟨w, h, rfl⟩
      rw [if_neg (hne h)]
      simpa only [Has, hm] using h
  | some x =>
    obtain ⟨j, w, k⟩ := x
    obtain ⟨he, _⟩ := has_of_node? hk
    obtain ⟨x, y, z, e1, _, _, _, e5⟩ := Forest.focus ha.forest hk none (top_out _)
    have hout := (block_out ha e1).1
    rw [he] at hout
    simp only [Has, modify, e5, e1, List.mem_append, List.mem_cons, Prod.mk.injEq]
    constructor
    · rintro (h | ⟨rfl, rfl, rfl⟩ | h | h)
      · exact ⟨v, .inl h, by rw [if_neg (hout _ (.inl h))]⟩
      · exact ⟨w, .inr (.inl ⟨rfl, rfl, rfl⟩), by rw [if_pos he]⟩
      · exact ⟨v, .inr (.inr (.inl h)), by rw [if_neg (hout _ (.inr (.inl h)))]⟩
      · exact ⟨v, .inr (.inr (.inr h)), by rw [if_neg (hout _ (.inr (.inr h)))]⟩
    · rintro ⟨w', h | ⟨rfl, rfl, rfl⟩ | h | h, rfl⟩
      · rw [if_neg (hout _ (.inl h))]; exact .inl h
      · rw [if_pos he]; exact .inr (.inl ⟨rfl, rfl, rfl⟩)
      · rw [if_neg (hout _ (.inr (.inl h)))]; exact .inr (.inr (.inl h))
      · rw [if_neg (hout _ (.inr (.inr h)))]; exact .inr (.inr (.inr h))

/-- The children of a node. -/
theorem has_children {a : Arena α} (ha : a.Ok) {f : NodeId} {w : α} {q : Option NodeId} (hf : a.Has f w q) :
    ∃ l, a.children? f = some l ∧ ∀ c v, (c, v) ∈ l ↔ a.Has c v (some f) := by
  obtain ⟨k, hk⟩ := hf.node? ha
  obtain ⟨x, y, z, e1, e2, e3, _, _⟩ := Forest.focus ha.forest hk none (top_out _)
  refine ⟨k.tops, by simp [children?, hk], fun c v => ?_⟩
  have hp : ∀ q, some f = some q → q ∉ k.ids := by
    rintro q e hq
    injection e with e; subst e
    rw [← Forest.flatUp_ids (some f)] at hq
    obtain ⟨n, hn, e⟩ := List.mem_map.1 hq
    exact (block_out ha e1).1 n (.inr (.inl hn)) (by rw [e])
  rw [Forest.mem_tops hp, Has, e1]
  simp only [List.mem_append, List.mem_cons, Prod.mk.injEq]
  constructor
  · intro h
    exact .inr (.inr (.inl h))
  · rintro (h | ⟨_, _, h⟩ | h | h)
    · exact absurd rfl (e2 _ (List.mem_append.2 (.inl h)) f rfl).1
    · exact absurd rfl (e3 f h.symm).1
    · exact h
    · exact absurd rfl (e2 _ (List.mem_append.2 (.inr h)) f rfl).1

/-- The nodes below a node, with it. -/
theorem has_descendants {a : Arena α} (ha : a.Ok) {r : NodeId} {w : α} {z : Option NodeId} (hr : a.Has r w z) :
    ∃ l, a.descendants? r = some l ∧ (∀ i v, (i, v) ∈ l → ∃ p, a.Has i v p) ∧
      (∀ i v p, a.Has i v p → (i ∈ l.map (·.1) ↔ (i = r ∨ ∃ q, p = some q ∧ q ∈ l.map (·.1)))) ∧
      ∀ i v p, a.Has i v p → i ∈ l.map (·.1) → (i, v) ∈ l := by
  obtain ⟨k, hk⟩ := hr.node? ha
  obtain ⟨x, y, q, e1, e2, e3, _, _⟩ := Forest.focus ha.forest hk none (top_out _)
  have hl : ∀ i, i ∈ ((r, w) :: k.flat).map (·.1) ↔ i = r ∨ i ∈ k.ids := by
    intro i
    simp [Forest.ids]
  refine ⟨(r, w) :: k.flat, by simp [descendants?, hk], ?_, ?_, ?_⟩
  · intro i v h
    rcases List.mem_cons.1 h with h | h
    · simp only [Prod.mk.injEq] at h
      obtain ⟨rfl, rfl⟩ := h
      exact ⟨_, hr⟩
    · rw [← Forest.flatUp_flat (some r)] at h
      obtain ⟨⟨i', v', p⟩, hn, e⟩ := List.mem_map.1 h
      simp only [Prod.mk.injEq] at e
      obtain ⟨rfl, rfl⟩ := e
      refine ⟨p, ?_⟩
      rw [Has, e1]
      simp [hn]
  · intro i v p h
    rw [hl]
    constructor
    · rintro (h' | h')
      · exact .inl h'
      · right
        rw [← Forest.flatUp_ids (some r)] at h'
        obtain ⟨⟨i', v', p'⟩, hn, e⟩ := List.mem_map.1 h'
        simp only at e; subst e
        have : a.Has i' v' p' := by rw [Has, e1]; simp [hn]
        obtain ⟨_, rfl, rfl⟩ := h.unique ha this rfl
        rcases Forest.flatUp_parent hn with e | ⟨q, hq, e⟩
        · exact ⟨r, e, (hl r).2 (.inl rfl)⟩
        · exact ⟨q, e, (hl q).2 (.inr hq)⟩
    · rintro (h' | ⟨q', rfl, hq⟩)
      · exact .inl h'
      · rw [hl] at hq
        rw [Has, e1] at h
        simp only [List.mem_append, List.mem_cons, Prod.mk.injEq] at h
        have bad : ∀ {n : NodeId}, n ≠ r ∧ n ∉ k.ids → n = r ∨ n ∈ k.ids → False :=
          fun hn h => h.elim hn.1 hn.2
        rcases h with h | ⟨_, _, h⟩ | h | h
        · exact (bad (e2 _ (List.mem_append.2 (.inl h)) q' rfl) hq).elim
        · exact (bad (e3 q' h.symm) hq).elim
        · right
          rw [← Forest.flatUp_ids (some r)]
          exact List.mem_map.2 ⟨_, h, rfl⟩
        · exact (bad (e2 _ (List.mem_append.2 (.inr h)) q' rfl) hq).elim
  · intro i v p h hi
    rw [hl] at hi
    rcases hi with rfl | hi
    · obtain ⟨_, rfl, _⟩ := h.unique ha hr rfl
      simp
    · obtain ⟨v', hv⟩ := Forest.mem_ids.1 hi
      have : ∃ p', a.Has i v' p' := by
        rw [← Forest.flatUp_flat (some r)] at hv
        obtain ⟨⟨i', v'', p⟩, hn, e⟩ := List.mem_map.1 hv
        simp only [Prod.mk.injEq] at e
        obtain ⟨rfl, rfl⟩ := e
        refine ⟨p, ?_⟩
        rw [Has, e1]
        simp [hn]
      obtain ⟨p', hp'⟩ := this
      obtain ⟨_, rfl, _⟩ := h.unique ha hp' rfl
      simp [hv]

theorem has_removeSubtree {a : Arena α} (ha : a.Ok) {r : NodeId} {w : α} {z : Option NodeId} (hr : a.Has r w z)
    {l : List (NodeId × α)} (hl : a.descendants? r = some l) (i : NodeId) (v : α) (p : Option NodeId) :
    (a.removeSubtree r).Has i v p ↔ a.Has i v p ∧ i ∉ l.map (·.1) := by
  obtain ⟨k, hk⟩ := hr.node? ha
  have hl' : l = (r, w) :: k.flat := by
    simp [descendants?, hk] at hl
    exact hl.symm
  subst hl'
  obtain ⟨x, y, q, e1, e2, e3, e4, _⟩ := Forest.focus ha.forest hk none (top_out _)
  obtain ⟨o1, o2⟩ := block_out ha e1
  have hf : (a.removeSubtree r).forest.flatUp none = x ++ y := by
    simp [removeSubtree, hk, e4]
  rw [Has, Has, hf, e1]
  have hm : ∀ i, i ∈ ((r, w) :: k.flat).map (·.1) ↔ i = r ∨ i ∈ (k.flatUp (some r)).map (·.1) := by
    intro i
    simp [Forest.flatUp_ids, Forest.ids]
  rw [hm]
  simp only [List.mem_append, List.mem_cons, Prod.mk.injEq]
  constructor
  · intro h
    refine ⟨h.elim .inl (fun h => .inr (.inr (.inr h))), ?_⟩
    rintro (rfl | h')
    · exact h.elim (fun h => o1 _ (.inl h) rfl) (fun h => o1 _ (.inr (.inr h)) rfl)
    · obtain ⟨m, hm, e⟩ := List.mem_map.1 h'
      exact o2 _ m h hm (by rw [e])
  · rintro ⟨h | ⟨rfl, _⟩ | h | h, h'⟩
    · exact .inl h
    · exact absurd (.inl rfl) h'
    · exact absurd (.inr (List.mem_map.2 ⟨_, h, rfl⟩)) h'
    · exact .inr h

/-- The children of a node that is taken out get its parent. -/
theorem flatUp_reparent {f : Forest α} {t : NodeId} (ht : t ∉ f.ids) (p : Option NodeId) :
    f.flatUp p = (f.flatUp (some t)).map fun x => if x.2.2 = some t then (x.1, x.2.1, p) else x := by
  induction f with
  | nil => rfl
  | cons i v k r ihk ihr =>
    simp only [Forest.ids_cons, List.mem_cons, List.mem_append, not_or] at ht
    have hk : (k.flatUp (some i)).map (fun x => if x.2.2 = some t then (x.1, x.2.1, p) else x) = k.flatUp (some i) := by
      conv => rhs; rw [← List.map_id (k.flatUp (some i))]
      apply List.map_congr_left
      intro x hx
      rw [if_neg]
      · rfl
      intro e
      rcases Forest.flatUp_parent hx with e' | ⟨q, hq, e'⟩
      · rw [e] at e'; injection e' with e'; exact ht.1 e'
      · rw [e] at e'; injection e' with e'; exact ht.2.1 (e' ▸ hq)
    simp [hk, ihr ht.2.2]

theorem has_remove {a : Arena α} (ha : a.Ok) {t : NodeId} {w : α} {z : Option NodeId} (ht : a.Has t w z) (i : NodeId) (v : α)
    (p : Option NodeId) :
    (a.remove t).Has i v p ↔ i ≠ t ∧ ∃ q, a.Has i v q ∧ p = if q = some t then z else q := by
  obtain ⟨k, hk⟩ := ht.node? ha
  obtain ⟨x, y, z', e1, e2, e3, e4, _⟩ := Forest.focus ha.forest hk none (top_out _)
  have hz : z = z' := (ht.unique ha (by rw [Has, e1]; simp : a.Has t w z') rfl).2.2
  subst hz
  obtain ⟨o1, o2⟩ := block_out ha e1
  have hf : (a.remove t).forest.flatUp none = x ++ (k.flatUp z ++ y) := by
    simp [remove, hk, e4]
  have htk : t ∉ k.ids := by
    intro h
    rw [← Forest.flatUp_ids (some t)] at h
    obtain ⟨m, hm, e⟩ := List.mem_map.1 h
    exact o1 m (.inr (.inl hm)) (by rw [e])
  have hne : ∀ {n : NodeId × α × Option NodeId}, n ∈ x ∨ n ∈ k.flatUp (some t) ∨ n ∈ y → n.1 ≠ t :=
    fun hn e => o1 _ hn (by rw [e])
  rw [Has, hf, flatUp_reparent htk z]
  simp only [Has, e1, List.mem_append, List.mem_cons, List.mem_map, Prod.mk.injEq]
  constructor
  · rintro (h | ⟨n, hn, e⟩ | h)
    · exact ⟨hne (.inl h), p, .inl h, by rw [if_neg fun e => (e2 _ (List.mem_append.2 (.inl h)) t e).1 rfl]⟩
    · by_cases hp : n.2.2 = some t
      · rw [if_pos hp] at e
        simp only [Prod.mk.injEq] at e
        obtain ⟨rfl, rfl, rfl⟩ := e
        exact ⟨hne (.inr (.inl hn)), some t, .inr (.inr (.inl (by
          have e : n = (n.1, n.2.1, some t) := by rw [← hp]
          rw [← e]; exact hn))), by simp⟩
      · rw [if_neg hp] at e
        subst e
        exact ⟨hne (.inr (.inl hn)), p, .inr (.inr (.inl hn)), by rw [if_neg hp]⟩
    · exact ⟨hne (.inr (.inr h)), p, .inr (.inr (.inr h)),
        by rw [if_neg fun e => (e2 _ (List.mem_append.2 (.inr h)) t e).1 rfl]⟩
  · rintro ⟨hi, q, h | ⟨rfl, _⟩ | h | h, rfl⟩
    · rw [if_neg fun e => (e2 _ (List.mem_append.2 (.inl h)) t e).1 rfl]
      exact .inl h
    · exact absurd rfl hi
    · refine .inr (.inl ⟨_, h, ?_⟩)
      by_cases hq : q = some t
      · simp [hq]
      · simp [hq]
    · rw [if_neg fun e => (e2 _ (List.mem_append.2 (.inr h)) t e).1 rfl]
      exact .inr (.inr h)

/-- The parent of a node is the second one on the way to the root. -/
theorem path_parent {f : Forest α} {n : Nat} {l : List NodeId} (h : f.path? n = some l) (p : Option NodeId) :
    ∃ i v t, l = i :: t ∧ i.idx = n ∧ (i, v, t.head?.or p) ∈ f.flatUp p := by
  induction f generalizing p l with
  | nil => simp [Forest.path?] at h
  | cons j v k r ihk ihr =>
    simp only [Forest.path?] at h
    split at h
    · next hi =>
      injection h with h; subst h
      exact ⟨j, v, [], rfl, hi, by simp⟩
    · split at h
      · next l' hk =>
        injection h with h; subst h
        obtain ⟨i, w, t, rfl, hi, hm⟩ := ihk hk (some j)
        refine ⟨i, w, t ++ [j], rfl, hi, ?_⟩
        have : (t ++ [j]).head?.or p = t.head?.or (some j) := by cases t <;> rfl
        rw [this]
        exact List.mem_cons_of_mem _ (List.mem_append.2 (.inl hm))
      · obtain ⟨i, w, t, rfl, hi, hm⟩ := ihr h p
        exact ⟨i, w, t, rfl, hi, by simp [hm]⟩

theorem Has.parent? {a : Arena α} (ha : a.Ok) {i : NodeId} {v : α} {p : Option NodeId} (h : a.Has i v p) :
    a.parent? i = some p := by
  have hs : (a.forest.path? i.idx).isSome := by
    rw [Forest.path?_isSome, ← Forest.flatUp_idxs none]
    exact List.mem_map.2 ⟨_, h, rfl⟩
  obtain ⟨l, hl⟩ := Option.isSome_iff_exists.1 hs
  obtain ⟨j, w, t, rfl, hi, hm⟩ := path_parent hl none
  have := (Has.unique ha h (show a.Has j w _ from hm) hi.symm).2.2
  simp only [Arena.parent?, ancestors?, hl, Option.map_some, List.tail_cons]
  rw [this]
  simp

/-- The slot of a new node is not in use. -/
theorem Has.ne_fresh {a : Arena α} (ha : a.Ok) {i : NodeId} {v : α} {p : Option NodeId} (h : a.Has i v p) :
    i.idx ≠ a.fresh.idx := by
  intro e
  refine fresh_notMem ha ?_
  rw [← e, ← Forest.flatUp_idxs none]
  exact List.mem_map.2 ⟨_, h, rfl⟩

/-- A parent is in the arena. -/
theorem Has.up {a : Arena α} {i p : NodeId} {v : α} (h : a.Has i v (some p)) : ∃ w q, a.Has p w q := by
  rcases Forest.flatUp_parent h with e | ⟨q, hq, e⟩
  · exact nomatch e
  · injection e with e
    subst e
    exact Live.has hq

end Arena

end PhpLs
