import Verif.ArenaTree

/-!
# Above and below in the arena

`Below a r n`: from `r` one gets to `n` by going down.  What `descendants` and `ancestors` list is described with it.
-/

namespace PhpLs

namespace Arena

variable {α : Type}

/-- `n` is `r` or a child of a node below `r`. -/
inductive Below (a : Arena α) (r : NodeId) : NodeId → Prop where
  | self : Below a r r
  | down {q n : NodeId} {v : α} : Below a r q → a.Has n v (some q) → Below a r n

theorem Below.trans {a : Arena α} {r q n : NodeId} (h : Below a r q) (h' : Below a q n) : Below a r n := by
  induction h' with
  | self => exact h
  | down _ hn ih => exact .down ih hn

theorem below_forest {a : Arena α} (f : Forest α) (r : NodeId) (h : ∀ x ∈ f.flatUp (some r), x ∈ a.forest.flatUp none) :
    ∀ n ∈ f.ids, Below a r n := by
  induction f generalizing r with
  | nil => intro n hn; cases hn
  | cons i v k rest ihk ihr =>
    intro n hn
    have hi : Below a r i := .down .self (show a.Has i v (some r) from h _ (by simp))
    rw [Forest.ids_cons, List.mem_cons, List.mem_append] at hn
    rcases hn with rfl | hn | hn
    · exact hi
    · exact hi.trans (ihk i (fun x hx => h x (by simp [hx])) n hn)
    · exact ihr r (fun x hx => h x (by simp [hx])) n hn

theorem mem_descendants {a : Arena α} (ha : a.Ok) {r : NodeId} {w : α} {z : Option NodeId} (hr : a.Has r w z)
    {l : List (NodeId × α)} (hl : a.descendants? r = some l) (n : NodeId) (v : α) :
    (n, v) ∈ l ↔ Below a r n ∧ ∃ p, a.Has n v p := by
  obtain ⟨l', h1, h2, h3, h4⟩ := has_descendants ha hr
  rw [hl] at h1
  cases h1
  constructor
  · intro hn
    refine ⟨?_, h2 n v hn⟩
    obtain ⟨k, hk⟩ := hr.node? ha
    obtain ⟨x, y, q, e1, _⟩ := Forest.focus ha.forest hk none (fun _ e => nomatch e)
    have e : l = (r, w) :: k.flat := by
      have := hl
      simp only [descendants?, hk, Option.map_some, Option.some.injEq] at this
      exact this.symm
    rw [e, List.mem_cons] at hn
    rcases hn with hn | hn
    · cases hn
      exact .self
    · exact below_forest k r (fun x hx => by rw [e1]; simp [hx]) n (Forest.mem_ids.2 ⟨v, hn⟩)
  · rintro ⟨hb, p, hn⟩
    refine h4 n v p hn ?_
    clear hn
    induction hb with
    | self => exact (h3 r w z hr).2 (.inl rfl)
    | down _ hm ih => exact (h3 _ _ _ hm).2 (.inr ⟨_, rfl, ih⟩)

/-- Each node of the list is the parent of the one before it; the last one has the parent `p`. -/
def Climb (a : Arena α) : List NodeId → Prop
  | [] => True
  | [i] => ∃ v, a.Has i v none
  | i :: j :: t => (∃ v, a.Has i v (some j)) ∧ Climb a (j :: t)

private theorem climb_path {a : Arena α} {n : Nat} : ∀ (f : Forest α) (p : Option NodeId) (l t : List NodeId),
    f.path? n = some l → (∀ x ∈ f.flatUp p, x ∈ a.forest.flatUp none) → t.head? = p → Climb a t → Climb a (l ++ t) := by
  intro f
  induction f with
  | nil => intro p l t h; simp [Forest.path?] at h
  | cons i v k r ihk ihr =>
    intro p l t h hs ht hc
    have hi : Climb a (i :: t) := by
      have : a.Has i v p := hs _ (by simp)
      cases t with
      | nil => cases ht; exact ⟨v, this⟩
      | cons j t => cases ht; exact ⟨⟨v, this⟩, hc⟩
    simp only [Forest.path?] at h
    split at h
    · injection h with h
      subst h
      exact hi
    · split at h
      · next q hk =>
        injection h with h
        subst h
        rw [List.append_assoc]
        exact ihk (some i) q (i :: t) hk (fun x hx => hs x (by simp [hx])) rfl hi
      · exact ihr p l t h (fun x hx => hs x (by simp [hx])) ht hc

theorem climb_ancestors {a : Arena α} {n : NodeId} {l : List NodeId} (h : a.ancestors? n = some l) : Climb a l := by
  have := climb_path (a := a) a.forest none l [] h (fun _ hx => hx) rfl trivial
  rwa [List.append_nil] at this

theorem mem_climb {a : Arena α} (ha : a.Ok) : ∀ (l : List NodeId) (n : NodeId), Climb a (n :: l) → ∀ j,
    j ∈ n :: l ↔ Below a j n := by
  intro l
  induction l with
  | nil =>
    rintro n ⟨v, hn⟩ j
    rw [List.mem_singleton]
    constructor
    · rintro rfl
      exact .self
    · intro h
      cases h with
      | self => rfl
      | down _ h' => exact nomatch (hn.unique ha h' rfl).2.2
  | cons m t ih =>
    rintro n ⟨⟨v, hn⟩, hc⟩ j
    rw [List.mem_cons, ih m hc j]
    constructor
    · rintro (rfl | h)
      · exact .self
      · exact h.down hn
    · intro h
      cases h with
      | self => exact .inl rfl
      | down hq h' =>
        cases (hn.unique ha h' rfl).2.2
        exact .inr hq

/-- The ancestors of a node: the nodes that it is below of; the first one is the node. -/
theorem mem_ancestors {a : Arena α} (ha : a.Ok) {n : NodeId} {v : α} {p : Option NodeId} (hn : a.Has n v p) :
    ∃ t, a.ancestors? n = some (n :: t) ∧ (∀ j, j ∈ n :: t ↔ Below a j n) ∧ (∀ j, j ∈ t ↔ ∃ q, p = some q ∧ Below a j q) ∧
      Climb a (n :: t) := by
  have hs : (a.forest.path? n.idx).isSome := by
    rw [Forest.path?_isSome, ← Forest.flatUp_idxs none]
    exact List.mem_map.2 ⟨_, hn, rfl⟩
  obtain ⟨l, hl⟩ := Option.isSome_iff_exists.1 hs
  have hc := climb_ancestors (a := a) (n := n) hl
  obtain ⟨j, w, t, rfl, hi, hm⟩ := path_parent hl none
  obtain ⟨rfl, _, _⟩ := hn.unique ha (show a.Has j w _ from hm) hi.symm
  refine ⟨t, hl, mem_climb ha t n hc, fun j => ?_, hc⟩
  cases t with
  | nil =>
    obtain ⟨u, hu⟩ := hc
    obtain ⟨_, _, rfl⟩ := hn.unique ha hu rfl
    simp
  | cons m t =>
    obtain ⟨⟨u, hu⟩, hc⟩ := hc
    obtain ⟨_, _, rfl⟩ := hn.unique ha hu rfl
    rw [mem_climb ha t m hc j]
    simp

/-- Every node has a root. -/
theorem climb_root {a : Arena α} : ∀ (l : List NodeId) (n : NodeId), Climb a (n :: l) → ∃ r v, Below a r n ∧ a.Has r v none := by
  intro l
  induction l with
  | nil =>
    rintro n ⟨v, hn⟩
    exact ⟨n, v, .self, hn⟩
  | cons m t ih =>
    rintro n ⟨⟨v, hn⟩, hc⟩
    obtain ⟨r, w, h1, h2⟩ := ih m hc
    exact ⟨r, w, h1.down hn, h2⟩

theorem has_root {a : Arena α} (ha : a.Ok) {n : NodeId} {v : α} {p : Option NodeId} (hn : a.Has n v p) :
    ∃ r w, Below a r n ∧ a.Has r w none := by
  obtain ⟨t, _, _, _, hc⟩ := mem_ancestors ha hn
  exact climb_root t n hc

theorem Below.live {a : Arena α} {r n : NodeId} {v : α} {p : Option NodeId} (h : Below a r n) (hn : a.Has n v p) : a.Live r := by
  induction h generalizing v p with
  | self => exact hn.live
  | down _ h' ih =>
    obtain ⟨w, q, hw⟩ := h'.up
    exact ih hw

/-- There is one root above a node. -/
theorem root_unique {a : Arena α} (ha : a.Ok) {r r' n : NodeId} {v w : α} (hr : a.Has r v none) (hr' : a.Has r' w none)
    (h : Below a r n) (h' : Below a r' n) : r = r' := by
  induction h with
  | self =>
    cases h' with
    | self => rfl
    | down _ hn => cases (hr.unique ha hn rfl).2.2
  | down _ hn ih =>
    cases h' with
    | self => cases (hr'.unique ha hn rfl).2.2
    | down hq' hn' =>
      obtain ⟨_, _, e⟩ := hn.unique ha hn' rfl
      cases e
      exact ih hq'

end Arena

end PhpLs
