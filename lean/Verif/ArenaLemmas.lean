import Verif.Arena

/-!
# Facts about the arena
-/

namespace PhpLs

namespace Forest

variable {α : Type}

@[simp] theorem flat_nil : (nil : Forest α).flat = [] := rfl

@[simp] theorem flat_cons (i : NodeId) (v : α) (k r : Forest α) : (cons i v k r).flat = (i, v) :: (k.flat ++ r.flat) := rfl

@[simp] theorem tops_append (f g : Forest α) : (f.append g).tops = f.tops ++ g.tops := by
  induction f with
  | nil => rfl
  | cons i v k r _ ihr => simp [append, tops, ihr]

@[simp] theorem flat_append (f g : Forest α) : (f.append g).flat = f.flat ++ g.flat := by
  induction f with
  | nil => rfl
  | cons i v k r _ ihr => simp [append, ihr]

@[simp] theorem flat_snoc (f : Forest α) (i : NodeId) (v : α) (k : Forest α) :
    (f.snoc i v k).flat = f.flat ++ (i, v) :: k.flat := by simp [snoc]

@[simp] theorem tops_snoc (f : Forest α) (i : NodeId) (v : α) (k : Forest α) :
    (f.snoc i v k).tops = f.tops ++ [(i, v)] := by simp [snoc, tops]

theorem mem_idxs {f : Forest α} {n : Nat} : n ∈ f.idxs ↔ ∃ i v, (i, v) ∈ f.flat ∧ i.idx = n := by
  simp only [idxs, List.mem_map]
  constructor
  · rintro ⟨⟨i, v⟩, h, rfl⟩; exact ⟨i, v, h, rfl⟩
  · rintro ⟨i, v, h, rfl⟩; exact ⟨_, h, rfl⟩

theorem mem_ids {f : Forest α} {i : NodeId} : i ∈ f.ids ↔ ∃ v, (i, v) ∈ f.flat := by
  simp [ids, List.mem_map]

@[simp] theorem ids_cons (i : NodeId) (v : α) (k r : Forest α) : (cons i v k r).ids = i :: (k.ids ++ r.ids) := by
  simp [ids]

@[simp] theorem idxs_cons (i : NodeId) (v : α) (k r : Forest α) : (cons i v k r).idxs = i.idx :: (k.idxs ++ r.idxs) := by
  simp [idxs]

@[simp] theorem idxs_nil : (nil : Forest α).idxs = [] := rfl

@[simp] theorem ids_nil : (nil : Forest α).ids = [] := rfl

theorem tops_flat {f : Forest α} {x : NodeId × α} (h : x ∈ f.tops) : x ∈ f.flat := by
  induction f with
  | nil => simp [tops] at h
  | cons i v k r _ ihr =>
    simp only [tops, List.mem_cons] at h
    simp only [flat_cons, List.mem_cons, List.mem_append]
    rcases h with h | h
    · exact .inl h
    · exact .inr (.inr (ihr h))

/-! ## Lookup -/

theorem node?_none {f : Forest α} {n : Nat} : f.node? n = none ↔ n ∉ f.idxs := by
  induction f with
  | nil => simp [node?]
  | cons i v k r ihk ihr =>
    simp only [node?, idxs_cons, List.mem_cons, List.mem_append, not_or]
    by_cases h : i.idx = n
    · simp [h]
    · simp only [h, if_false]
      cases hk : k.node? n with
      | some x => simp [← ihk, hk]
      | none =>
        simp only [← ihk, hk, ← ihr, true_and]
        constructor
        · exact fun e => ⟨fun e' => h e'.symm, e⟩
        · exact fun e => e.2

theorem node?_some {f : Forest α} {n : Nat} {i : NodeId} {v : α} {k : Forest α} (h : f.node? n = some (i, v, k)) :
    i.idx = n ∧ (i, v) ∈ f.flat ∧ ∀ x ∈ k.flat, x ∈ f.flat := by
  induction f with
  | nil => simp [node?] at h
  | cons i' v' k' r ihk ihr =>
    simp only [node?] at h
    split at h
    · rename_i hi
      injection h with h
      simp only [Prod.mk.injEq] at h
      obtain ⟨rfl, rfl, rfl⟩ := h
      exact ⟨hi, by simp, fun x hx => by simp [hx]⟩
    · split at h
      · rename_i x hk
        injection h with h; subst h
        have := ihk hk
        exact ⟨this.1, by simp [this.2.1], fun x hx => by simp [this.2.2 x hx]⟩
      · have := ihr h
        exact ⟨this.1, by simp [this.2.1], fun x hx => by simp [this.2.2 x hx]⟩

/-- With distinct slots, looking up the slot of a node of the forest finds this node. -/
theorem node?_mem {f : Forest α} (hn : f.idxs.Nodup) {i : NodeId} {v : α} (h : (i, v) ∈ f.flat) :
    ∃ k, f.node? i.idx = some (i, v, k) := by
  induction f with
  | nil => simp at h
  | cons i' v' k' r ihk ihr =>
    simp only [idxs_cons, List.nodup_cons, List.nodup_append, List.mem_append, not_or] at hn
    obtain ⟨⟨h1, h2⟩, hk, hr, hd⟩ := hn
    simp only [flat_cons, List.mem_cons, List.mem_append, Prod.mk.injEq] at h
    simp only [node?]
    rcases h with ⟨rfl, rfl⟩ | h | h
    · exact ⟨k', by simp⟩
    · have hin : i.idx ∈ k'.idxs := mem_idxs.2 ⟨i, v, h, rfl⟩
      have hne : i'.idx ≠ i.idx := fun e => h1 (e ▸ hin)
      obtain ⟨k, hk⟩ := ihk hk h
      exact ⟨k, by simp [hne, hk]⟩
    · have hin : i.idx ∈ r.idxs := mem_idxs.2 ⟨i, v, h, rfl⟩
      have hne : i'.idx ≠ i.idx := fun e => h2 (e ▸ hin)
      have hnk : k'.node? i.idx = none := node?_none.2 fun e => hd _ e _ hin rfl
      obtain ⟨k, hk⟩ := ihr hr h
      exact ⟨k, by simp [hne, hnk, hk]⟩

/-- Two nodes in the same slot are the same node. -/
theorem flat_unique {f : Forest α} (hn : f.idxs.Nodup) {i j : NodeId} {v w : α} (hi : (i, v) ∈ f.flat)
    (hj : (j, w) ∈ f.flat) (e : i.idx = j.idx) : i = j ∧ v = w := by
  obtain ⟨k, h1⟩ := node?_mem hn hi
  obtain ⟨k', h2⟩ := node?_mem hn hj
  rw [e, h2] at h1
  injection h1 with h1
  simp only [Prod.mk.injEq] at h1
  exact ⟨h1.1.symm, h1.2.1.symm⟩

theorem path?_isSome {f : Forest α} {n : Nat} : (f.path? n).isSome ↔ n ∈ f.idxs := by
  induction f with
  | nil => simp [path?]
  | cons i v k r ihk ihr =>
    simp only [path?, idxs_cons, List.mem_cons, List.mem_append]
    by_cases h : i.idx = n
    · simp [h]
    · simp only [h, if_false]
      cases hk : k.path? n with
      | some x => simp [← ihk, hk]
      | none =>
        simp only [← ihr, ← ihk, hk]
        constructor
        · exact fun e => .inr (.inr e)
        · rintro (e | e | e)
          · exact absurd e.symm h
          · simp at e
          · exact e

/-- The path of a slot starts with its node, ends with a root, and consists of nodes of the forest. -/
theorem path?_some {f : Forest α} {n : Nat} {p : List NodeId} (h : f.path? n = some p) :
    (∃ i t, p = i :: t ∧ i.idx = n) ∧ (∃ t j, p = t ++ [j] ∧ j ∈ f.tops.map (·.1)) ∧ ∀ i ∈ p, i ∈ f.ids := by
  induction f generalizing p with
  | nil => simp [path?] at h
  | cons i v k r ihk ihr =>
    simp only [path?] at h
    split at h
    · rename_i hi
      injection h with h; subst h
      exact ⟨⟨i, [], rfl, hi⟩, ⟨[], i, rfl, by simp [tops]⟩, by simp⟩
    · split at h
      · rename_i q hk
        injection h with h; subst h
        obtain ⟨⟨a, t, rfl, ha⟩, _, h3⟩ := ihk hk
        refine ⟨⟨a, t ++ [i], rfl, ha⟩, ⟨a :: t, i, rfl, by simp [tops]⟩, ?_⟩
        intro x hx
        simp only [List.mem_append, List.mem_singleton] at hx
        rcases hx with hx | hx
        · simp [h3 x hx]
        · simp [hx]
      · obtain ⟨h1, ⟨t, j, rfl, hj⟩, h3⟩ := ihr h
        refine ⟨h1, ⟨t, j, rfl, by simp only [tops, List.map_cons, List.mem_cons]; exact .inr hj⟩, ?_⟩
        intro x hx
        simp [h3 x hx]

/-- The trees on the top level: node, payload and children. -/
def trees : Forest α → List (NodeId × α × Forest α)
  | nil => []
  | cons i v k r => (i, v, k) :: r.trees

theorem tops_eq_trees (f : Forest α) : f.tops = f.trees.map fun x => (x.1, x.2.1) := by
  induction f with
  | nil => rfl
  | cons i v k r _ ihr => simp [tops, trees, ihr]

theorem node?_trees {f : Forest α} (hn : f.idxs.Nodup) {c : NodeId} {s : α} {k : Forest α} (h : (c, s, k) ∈ f.trees) :
    f.node? c.idx = some (c, s, k) := by
  induction f with
  | nil => simp [trees] at h
  | cons i v k' r ihk ihr =>
    simp only [trees, List.mem_cons, Prod.mk.injEq] at h
    rcases h with ⟨rfl, rfl, rfl⟩ | h
    · simp [node?]
    · simp only [idxs_cons, List.nodup_cons, List.nodup_append, List.mem_append, not_or] at hn
      obtain ⟨⟨h1, h2⟩, hk, hr, hd⟩ := hn
      have e := ihr hr h
      obtain ⟨_, hm, _⟩ := node?_some e
      have hin : c.idx ∈ r.idxs := mem_idxs.2 ⟨_, _, hm, rfl⟩
      simp only [node?]
      rw [if_neg (fun e : i.idx = c.idx => h2 (e ▸ hin)), node?_none.2 fun e => hd _ e _ hin rfl]
      exact e

/-- What is found in the children of a node of the forest is found in the forest. -/
theorem node?_trans {f : Forest α} (hn : f.idxs.Nodup) {n m : Nat} {i : NodeId} {v : α} {k : Forest α}
    (h : f.node? n = some (i, v, k)) {x : NodeId × α × Forest α} (hx : k.node? m = some x) : f.node? m = some x := by
  induction f with
  | nil => simp [node?] at h
  | cons i' v' k' r ihk ihr =>
    obtain ⟨j, w, l⟩ := x
    obtain ⟨hj, hjm, _⟩ := node?_some hx
    obtain ⟨_, _, hsub⟩ := node?_some h
    have hin : m ∈ k.idxs := mem_idxs.2 ⟨_, _, hjm, hj⟩
    simp only [idxs_cons, List.nodup_cons, List.nodup_append, List.mem_append, not_or] at hn
    obtain ⟨⟨h1, h2⟩, hk, hr, hd⟩ := hn
    simp only [node?] at h ⊢
    split at h
    · rename_i hi
      injection h with h
      simp only [Prod.mk.injEq] at h
      obtain ⟨rfl, rfl, rfl⟩ := h
      rw [if_neg (fun e : i'.idx = m => h1 (e ▸ hin)), hx]
    · split at h
      · rename_i y hy
        injection h with h; subst h
        have hin' : m ∈ k'.idxs := by
          obtain ⟨_, _, hs⟩ := node?_some hy
          exact mem_idxs.2 ⟨_, _, hs _ hjm, hj⟩
        rw [if_neg (fun e : i'.idx = m => h1 (e ▸ hin')), ihk hk hy]
      · rename_i hy
        have hin' : m ∈ r.idxs := by
          obtain ⟨_, _, hs⟩ := node?_some h
          exact mem_idxs.2 ⟨_, _, hs _ hjm, hj⟩
        rw [if_neg (fun e : i'.idx = m => h2 (e ▸ hin')), node?_none.2 fun e => hd _ e _ hin' rfl]
        exact ihr hr h

/-- The children of a node have distinct slots. -/
theorem node?_nodup {f : Forest α} (hn : f.idxs.Nodup) {n : Nat} {i : NodeId} {v : α} {k : Forest α}
    (h : f.node? n = some (i, v, k)) : k.idxs.Nodup := by
  induction f with
  | nil => simp [node?] at h
  | cons i' v' k' r ihk ihr =>
    simp only [idxs_cons, List.nodup_cons, List.nodup_append, List.mem_append, not_or] at hn
    obtain ⟨_, hk, hr, _⟩ := hn
    simp only [node?] at h
    split at h
    · injection h with h
      simp only [Prod.mk.injEq] at h
      obtain ⟨rfl, rfl, rfl⟩ := h
      exact hk
    · split at h
      · rename_i y hy
        injection h with h; subst h
        exact ihk hk hy
      · exact ihr hr h

/-! ## Updates -/

theorem update_notMem {f : Forest α} {n : Nat} (h : n ∉ f.idxs) (u : α → Forest α → α × Forest α) : f.update n u = f := by
  induction f with
  | nil => rfl
  | cons i v k r ihk ihr =>
    simp only [idxs_cons, List.mem_cons, List.mem_append, not_or] at h
    simp only [update, if_neg (fun e => h.1 (Eq.symm e)), ihk h.2.1, ihr h.2.2]

/-- An update touches one node; the others keep their place. -/
theorem flat_update {f : Forest α} (hn : f.idxs.Nodup) {n : Nat} {i : NodeId} {v : α} {k : Forest α}
    (h : f.node? n = some (i, v, k)) (u : α → Forest α → α × Forest α) :
    ∃ a b, f.flat = a ++ (i, v) :: k.flat ++ b ∧ (f.update n u).flat = a ++ (i, (u v k).1) :: (u v k).2.flat ++ b := by
  induction f with
  | nil => simp [node?] at h
  | cons i' v' k' r ihk ihr =>
    simp only [idxs_cons, List.nodup_cons, List.nodup_append, List.mem_append, not_or] at hn
    obtain ⟨⟨h1, h2⟩, hk, hr, hd⟩ := hn
    simp only [node?] at h
    split at h
    · rename_i hi
      injection h with h
      simp only [Prod.mk.injEq] at h
      obtain ⟨rfl, rfl, rfl⟩ := h
      exact ⟨[], r.flat, by simp, by simp [update, hi]⟩
    · rename_i hi
      split at h
      · rename_i x hx
        injection h with h; subst h
        obtain ⟨a, b, e1, e2⟩ := ihk hk hx
        have hin : n ∈ k'.idxs := by
          obtain ⟨h1, h2, _⟩ := node?_some hx; exact mem_idxs.2 ⟨_, _, h2, h1⟩
        have : r.update n u = r := update_notMem (fun e => hd _ hin _ e rfl) u
        exact ⟨(i', v') :: a, b ++ r.flat, by simp [e1], by simp [update, hi, e2, this]⟩
      · rename_i hx
        obtain ⟨a, b, e1, e2⟩ := ihr hr h
        have : k'.update n u = k' := update_notMem (node?_none.1 hx) u
        exact ⟨(i', v') :: (k'.flat ++ a), b, by simp [e1], by simp [update, hi, e2, this]⟩

theorem tops_update_ids {f : Forest α} {n : Nat} (u : α → Forest α → α × Forest α) :
    (f.update n u).tops.map (·.1) = f.tops.map (·.1) := by
  induction f with
  | nil => rfl
  | cons i v k r _ ihr =>
    simp only [update]
    split
    · simp [tops]
    · simp [tops, ihr]

theorem replace_notMem {f : Forest α} {n : Nat} (h : n ∉ f.idxs) (g : Forest α → Forest α) : f.replace n g = f := by
  induction f with
  | nil => rfl
  | cons i v k r ihk ihr =>
    simp only [idxs_cons, List.mem_cons, List.mem_append, not_or] at h
    simp only [replace, if_neg (fun e => h.1 (Eq.symm e)), ihk h.2.1, ihr h.2.2]

/-- A replacement takes one node out; the others keep their place. -/
theorem flat_replace {f : Forest α} (hn : f.idxs.Nodup) {n : Nat} {i : NodeId} {v : α} {k : Forest α}
    (h : f.node? n = some (i, v, k)) (g : Forest α → Forest α) :
    ∃ a b, f.flat = a ++ (i, v) :: k.flat ++ b ∧ (f.replace n g).flat = a ++ (g k).flat ++ b := by
  induction f with
  | nil => simp [node?] at h
  | cons i' v' k' r ihk ihr =>
    simp only [idxs_cons, List.nodup_cons, List.nodup_append, List.mem_append, not_or] at hn
    obtain ⟨⟨h1, h2⟩, hk, hr, hd⟩ := hn
    simp only [node?] at h
    split at h
    · rename_i hi
      injection h with h
      simp only [Prod.mk.injEq] at h
      obtain ⟨rfl, rfl, rfl⟩ := h
      exact ⟨[], r.flat, by simp, by simp [replace, hi]⟩
    · rename_i hi
      split at h
      · rename_i x hx
        injection h with h; subst h
        obtain ⟨a, b, e1, e2⟩ := ihk hk hx
        have hin : n ∈ k'.idxs := by
          obtain ⟨h1, h2, _⟩ := node?_some hx; exact mem_idxs.2 ⟨_, _, h2, h1⟩
        have : r.replace n g = r := replace_notMem (fun e => hd _ hin _ e rfl) g
        exact ⟨(i', v') :: a, b ++ r.flat, by simp [e1], by simp [replace, hi, e2, this]⟩
      · rename_i hx
        obtain ⟨a, b, e1, e2⟩ := ihr hr h
        have : k'.replace n g = k' := replace_notMem (node?_none.1 hx) g
        exact ⟨(i', v') :: (k'.flat ++ a), b, by simp [e1], by simp [replace, hi, e2, this]⟩

end Forest

namespace Arena

variable {α : Type}

theorem Ok.forest {a : Arena α} (h : a.Ok) : a.forest.idxs.Nodup := (List.nodup_append.1 h.nodup).1

theorem ok_empty : (empty : Arena α).Ok := ⟨by simp [empty], by simp [empty]⟩

/-- The id handed out is not in use. -/
theorem fresh_notMem {a : Arena α} (h : a.Ok) : a.fresh.idx ∉ a.forest.idxs := by
  unfold fresh
  split
  · intro e
    have := h.bound _ (List.mem_append_left _ e)
    simp at this
  · rename_i i r hf
    intro e
    have := (List.nodup_append.1 h.nodup).2.2 _ e i.idx (by simp [hf])
    exact this rfl

theorem live_get? {a : Arena α} (h : a.Ok) {i : NodeId} (hl : a.Live i) : ∃ v, a.get? i = some v ∧ (i, v) ∈ a.forest.flat := by
  obtain ⟨v, hv⟩ := Forest.mem_ids.1 hl
  obtain ⟨k, hk⟩ := Forest.node?_mem h.forest hv
  exact ⟨v, by simp [get?, hk], hv⟩

/-- `took` keeps the arena well-formed if exactly the handed-out slot comes in. -/
theorem ok_took {a : Arena α} (h : a.Ok) {f : Forest α} (hp : f.idxs.Perm (a.fresh.idx :: a.forest.idxs)) :
    (a.took f).Ok := by
  have hnd := h.nodup
  have hb := h.bound
  constructor
  · unfold took
    cases hf : a.free with
    | nil =>
      simp only [List.map_nil, List.append_nil]
      rw [hp.nodup_iff, List.nodup_cons]
      exact ⟨fresh_notMem h, h.forest⟩
    | cons i r =>
      simp only []
      have e : a.fresh = i := by simp [fresh, hf]
      rw [e] at hp
      rw [(hp.append_right _).nodup_iff]
      rw [hf, List.map_cons] at hnd
      exact (List.perm_middle.nodup_iff).1 hnd
  · unfold took
    cases hf : a.free with
    | nil =>
      simp only [List.map_nil, List.append_nil]
      intro n hn
      rw [hp.mem_iff, List.mem_cons] at hn
      rcases hn with rfl | hn
      · simp [fresh, hf]
      · exact Nat.lt_succ_of_lt (hb _ (List.mem_append_left _ hn))
    | cons i r =>
      simp only []
      have e : a.fresh = i := by simp [fresh, hf]
      rw [e] at hp
      intro n hn
      apply hb
      rw [hf, List.map_cons]
      simp only [List.mem_append, List.mem_cons] at hn ⊢
      rcases hn with hn | hn
      · rw [hp.mem_iff, List.mem_cons] at hn
        rcases hn with hn | hn
        · exact .inr (.inl hn)
        · exact .inl hn
      · exact .inr (.inr hn)

@[simp] theorem took_forest (a : Arena α) (f : Forest α) : (a.took f).forest = f := by
  unfold took; split <;> rfl

theorem addRoot_flat (a : Arena α) (v : α) : (a.addRoot v).2.forest.flat = a.forest.flat ++ [(a.fresh, v)] := by
  simp [addRoot]

theorem ok_addRoot {a : Arena α} (h : a.Ok) (v : α) : (a.addRoot v).2.Ok := by
  refine ok_took h ?_
  simp only [Forest.idxs, Forest.flat_snoc, List.map_append, List.map_cons, Forest.flat_nil, List.map_nil]
  exact List.perm_append_singleton _ _

/-- Adding a child adds this node and changes no other one. -/
theorem addChild_flat {a : Arena α} (h : a.Ok) {p : NodeId} (hp : p.idx ∈ a.forest.idxs) (v : α) :
    (a.addChild p v).2.forest.flat.Perm ((a.fresh, v) :: a.forest.flat) := by
  cases hx : a.forest.node? p.idx with
  | none => exact absurd hp (Forest.node?_none.1 hx)
  | some x =>
    obtain ⟨i, w, k⟩ := x
    obtain ⟨s, t, e1, e2⟩ := Forest.flat_update h.forest hx (fun w k => (w, k.snoc a.fresh v .nil))
    simp only [addChild, took_forest, e2, e1]
    simp only [Forest.flat_snoc, Forest.flat_nil]
    have : s ++ (i, w) :: (k.flat ++ [(a.fresh, v)]) ++ t = (s ++ (i, w) :: k.flat) ++ (a.fresh, v) :: t := by simp
    rw [this]
    refine List.perm_middle.trans ?_
    simp

theorem ok_addChild {a : Arena α} (h : a.Ok) {p : NodeId} (hp : p.idx ∈ a.forest.idxs) (v : α) :
    (a.addChild p v).2.Ok := by
  refine ok_took h ?_
  have := (addChild_flat h hp v).map (·.1.idx)
  simp only [addChild, took_forest] at this
  simpa [Forest.idxs] using this

theorem modify_ids {a : Arena α} (h : a.Ok) (i : NodeId) (u : α → α) : (a.modify i u).forest.ids = a.forest.ids := by
  cases hx : a.forest.node? i.idx with
  | none => simp [modify, Forest.update_notMem (Forest.node?_none.1 hx)]
  | some x =>
    obtain ⟨j, w, k⟩ := x
    obtain ⟨s, t, e1, e2⟩ := Forest.flat_update h.forest hx (fun v k => (u v, k))
    simp [modify, Forest.ids, e1, e2]

theorem ok_modify {a : Arena α} (h : a.Ok) (i : NodeId) (u : α → α) : (a.modify i u).Ok := by
  have e : (a.modify i u).forest.idxs = a.forest.idxs := by
    have := congrArg (List.map NodeId.idx) (modify_ids h i u)
    simpa [Forest.ids, Forest.idxs, Function.comp_def] using this
  constructor
  · rw [e]; exact h.nodup
  · rw [e]; exact h.bound

/-- `remove` takes exactly one node out. -/
theorem remove_flat {a : Arena α} (h : a.Ok) {i : NodeId} {v : α} (hm : (i, v) ∈ a.forest.flat) :
    ((i, v) :: (a.remove i).forest.flat).Perm a.forest.flat := by
  obtain ⟨k, hk⟩ := Forest.node?_mem h.forest hm
  obtain ⟨s, t, e1, e2⟩ := Forest.flat_replace h.forest hk id
  simp only [remove, hk, e2, e1, id_eq]
  have : s ++ (i, v) :: k.flat ++ t = s ++ (i, v) :: (k.flat ++ t) := by simp
  rw [this]
  refine List.Perm.trans ?_ List.perm_middle.symm
  simp

theorem ok_remove {a : Arena α} (h : a.Ok) (i : NodeId) : (a.remove i).Ok := by
  cases hx : a.forest.node? i.idx with
  | none => simpa [remove, hx] using h
  | some x =>
    obtain ⟨j, v, k⟩ := x
    obtain ⟨h1, h2, _⟩ := Forest.node?_some hx
    obtain ⟨s, t, e1, e2⟩ := Forest.flat_replace h.forest hx id
    have hp : ((a.remove i).forest.idxs ++ (a.remove i).free.map (·.idx)).Perm (a.forest.idxs ++ a.free.map (·.idx)) := by
      simp only [remove, hx, Forest.idxs, e1, e2, id_eq, List.map_append, List.map_cons, List.map_nil, NodeId.reborn]
      have : (s.map (·.1.idx) ++ k.flat.map (·.1.idx) ++ t.map (·.1.idx)) ++ (a.free.map (·.idx) ++ [j.idx])
          = ((s.map (·.1.idx) ++ k.flat.map (·.1.idx) ++ t.map (·.1.idx)) ++ a.free.map (·.idx)) ++ [j.idx] := by simp
      rw [this]
      refine (List.perm_append_singleton _ _).trans ?_
      have : (s.map (·.1.idx) ++ j.idx :: k.flat.map (·.1.idx) ++ t.map (·.1.idx)) ++ a.free.map (·.idx)
          = s.map (·.1.idx) ++ j.idx :: (k.flat.map (·.1.idx) ++ t.map (·.1.idx) ++ a.free.map (·.idx)) := by simp
      rw [this]
      refine List.Perm.trans ?_ List.perm_middle.symm
      simp
    constructor
    · rw [hp.nodup_iff]; exact h.nodup
    · intro n hn
      have : (a.remove i).next = a.next := by simp [remove, hx]
      rw [this]
      exact h.bound _ (hp.mem_iff.1 hn)

/-- `remove_subtree` takes the node and its descendants out. -/
theorem removeSubtree_flat {a : Arena α} (h : a.Ok) {i : NodeId} {x : List (NodeId × α)} (hx : a.descendants? i = some x) :
    (x ++ (a.removeSubtree i).forest.flat).Perm a.forest.flat := by
  unfold descendants? at hx
  cases hn : a.forest.node? i.idx with
  | none => simp [hn] at hx
  | some y =>
    obtain ⟨j, v, k⟩ := y
    simp only [hn, Option.map_some, Option.some.injEq] at hx
    subst hx
    obtain ⟨s, t, e1, e2⟩ := Forest.flat_replace h.forest hn (fun _ => .nil)
    simp only [removeSubtree, hn, e2, e1, Forest.flat_nil, List.append_nil]
    have : s ++ (j, v) :: k.flat ++ t = s ++ ((j, v) :: k.flat ++ t) := by simp
    rw [this]
    have h1 : ((j, v) :: k.flat ++ (s ++ t)).Perm (s ++ t ++ ((j, v) :: k.flat)) := List.perm_append_comm
    refine h1.trans ?_
    rw [List.append_assoc]
    exact List.Perm.append_left _ List.perm_append_comm

theorem ok_removeSubtree {a : Arena α} (h : a.Ok) (i : NodeId) : (a.removeSubtree i).Ok := by
  cases hn : a.forest.node? i.idx with
  | none => simpa [removeSubtree, hn] using h
  | some y =>
    obtain ⟨j, v, k⟩ := y
    have hd : a.descendants? i = some ((j, v) :: k.flat) := by simp [descendants?, hn]
    have hp0 := (removeSubtree_flat h hd).map (·.1.idx)
    have hp : ((a.removeSubtree i).forest.idxs ++ (a.removeSubtree i).free.map (·.idx)).Perm
        (a.forest.idxs ++ a.free.map (·.idx)) := by
      have hf : (a.removeSubtree i).free.map (·.idx) = a.free.map (·.idx) ++ ((j, v) :: k.flat).map (·.1.idx) := by
        simp [removeSubtree, hn, Forest.ids, NodeId.reborn, Function.comp_def]
      rw [hf]
      refine List.Perm.trans ?_ ((hp0.append_right _))
      simp only [List.map_append]
      show ((a.removeSubtree i).forest.idxs ++ _).Perm (_ ++ (a.removeSubtree i).forest.idxs ++ _)
      rw [← List.append_assoc]
      refine List.perm_append_comm.trans ?_
      rw [List.append_assoc]
    constructor
    · rw [hp.nodup_iff]; exact h.nodup
    · intro n hn'
      have : (a.removeSubtree i).next = a.next := by simp [removeSubtree, hn]
      rw [this]
      exact h.bound _ (hp.mem_iff.1 hn')

end Arena

end PhpLs
