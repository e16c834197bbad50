import Verif.ArenaTree
import Verif.WorkspaceSymbol
import Verif.Backend

/-!
# The symbols of a file do not depend on the place they are stored at

Two runs of the collector over the same tree, in two arenas that may hold other symbols and free slots, go side by side: they
end in the same way, and the symbols they make are the same up to a renaming of the ids.
-/

namespace PhpLs

/-- Two lists of the same length, with related elements. -/
inductive Pairs {α β : Type} (R : α → β → Prop) : List α → List β → Prop where
  | nil : Pairs R [] []
  | cons {a : α} {b : β} {l : List α} {m : List β} : R a b → Pairs R l m → Pairs R (a :: l) (b :: m)

namespace Pairs

variable {α β : Type} {R S : α → β → Prop}

theorem mono (h : ∀ a b, R a b → S a b) : ∀ {l : List α} {m : List β}, Pairs R l m → Pairs S l m
  | _, _, .nil => .nil
  | _, _, .cons h1 h2 => .cons (h _ _ h1) (mono h h2)

theorem snoc {a : α} {b : β} (h : R a b) : ∀ {l : List α} {m : List β}, Pairs R l m → Pairs R (l ++ [a]) (m ++ [b])
  | _, _, .nil => .cons h .nil
  | _, _, .cons h1 h2 => .cons h1 (snoc h h2)

theorem append : ∀ {l l' : List α} {m m' : List β}, Pairs R l m → Pairs R l' m' → Pairs R (l ++ l') (m ++ m')
  | _, _, _, _, .nil, h' => h'
  | _, _, _, _, .cons h1 h2, h' => .cons h1 (append h2 h')

end Pairs

/-- A relation between the ids of two arenas. -/
abbrev IdRel := NodeId → NodeId → Prop

/-- Two symbols that are the same, up to the ids of their parameters. -/
structure Symbol.Like (ρ : IdRel) (v w : Symbol) : Prop where
  same : { v with parameters := [] } = { w with parameters := [] }
  parameters : Pairs (fun p q => ρ p.symbol q.symbol) v.parameters w.parameters

/-- Two forests of the same shape with the same symbols, up to the ids. -/
inductive Forest.Like (ρ : IdRel) : Forest Symbol → Forest Symbol → Prop where
  | nil : Like ρ .nil .nil
  | cons {i j : NodeId} {v w : Symbol} {k k' r r' : Forest Symbol} : ρ i j → Symbol.Like ρ v w → Like ρ k k' → Like ρ r r' →
      Like ρ (.cons i v k r) (.cons j w k' r')

/-- The relation has more pairs. -/
def Grows (ρ ρ' : IdRel) : Prop := ∀ i j, ρ i j → ρ' i j

theorem Grows.refl (ρ : IdRel) : Grows ρ ρ := fun _ _ h => h

theorem Grows.trans {ρ ρ' ρ'' : IdRel} (h : Grows ρ ρ') (h' : Grows ρ' ρ'') : Grows ρ ρ'' := fun i j e => h' i j (h i j e)

/-- Each slot has one partner. -/
def OneToOne (ρ : IdRel) : Prop := ∀ i j i' j', ρ i j → ρ i' j' → (i.idx = i'.idx ↔ j.idx = j'.idx)

theorem Symbol.Like.mono {ρ ρ' : IdRel} (h : Grows ρ ρ') {v w : Symbol} (hl : Symbol.Like ρ v w) : Symbol.Like ρ' v w :=
  ⟨hl.same, hl.parameters.mono fun _ _ e => h _ _ e⟩

namespace Forest

theorem Like.mono {ρ ρ' : IdRel} (h : Grows ρ ρ') : ∀ {f g : Forest Symbol}, Like ρ f g → Like ρ' f g
  | _, _, .nil => .nil
  | _, _, .cons h1 h2 h3 h4 => .cons (h _ _ h1) (h2.mono h) (mono h h3) (mono h h4)

theorem Like.snoc {ρ : IdRel} {i j : NodeId} {v w : Symbol} (hi : ρ i j) (hv : Symbol.Like ρ v w) :
    ∀ {f g : Forest Symbol}, Like ρ f g → Like ρ (f.snoc i v .nil) (g.snoc j w .nil)
  | _, _, .nil => .cons hi hv .nil .nil
  | _, _, .cons h1 h2 h3 h4 => .cons h1 h2 h3 (Like.snoc hi hv h4)

/-- Related nodes have related contents. -/
theorem Like.node? {ρ : IdRel} (hu : OneToOne ρ) {i j : NodeId} (hi : ρ i j) : ∀ {f g : Forest Symbol}, Like ρ f g →
    (f.node? i.idx = none ∧ g.node? j.idx = none) ∨
    ∃ x y, f.node? i.idx = some x ∧ g.node? j.idx = some y ∧ ρ x.1 y.1 ∧ Symbol.Like ρ x.2.1 y.2.1 ∧ Like ρ x.2.2 y.2.2
  | _, _, .nil => .inl ⟨rfl, rfl⟩
  | _, _, .cons (i := i') (j := j') h1 h2 h3 h4 => by
    unfold Forest.node?
    have e := hu i' j' i j h1 hi
    by_cases h : i'.idx = i.idx
    · rw [if_pos h, if_pos (e.1 h)]
      exact .inr ⟨_, _, rfl, rfl, h1, h2, h3⟩
    · rw [if_neg h, if_neg (fun h' => h (e.2 h'))]
      rcases Like.node? hu hi h3 with ⟨ha, hb⟩ | ⟨x, y, ha, hb, hc⟩
      · rw [ha, hb]
        exact Like.node? hu hi h4
      · rw [ha, hb]
        exact .inr ⟨x, y, rfl, rfl, hc⟩

/-- Related nodes have related ancestors. -/
theorem Like.path? {ρ : IdRel} (hu : OneToOne ρ) {i j : NodeId} (hi : ρ i j) : ∀ {f g : Forest Symbol}, Like ρ f g →
    (f.path? i.idx = none ∧ g.path? j.idx = none) ∨
    ∃ x y, f.path? i.idx = some x ∧ g.path? j.idx = some y ∧ Pairs ρ x y
  | _, _, .nil => .inl ⟨rfl, rfl⟩
  | _, _, .cons (i := i') (j := j') h1 h2 h3 h4 => by
    unfold Forest.path?
    have e := hu i' j' i j h1 hi
    by_cases h : i'.idx = i.idx
    · rw [if_pos h, if_pos (e.1 h)]
      exact .inr ⟨_, _, rfl, rfl, .cons h1 .nil⟩
    · rw [if_neg h, if_neg (fun h' => h (e.2 h'))]
      rcases Like.path? hu hi h3 with ⟨ha, hb⟩ | ⟨x, y, ha, hb, hc⟩
      · rw [ha, hb]
        exact Like.path? hu hi h4
      · rw [ha, hb]
        exact .inr ⟨_, _, rfl, rfl, hc.snoc h1⟩

/-- The same change at related nodes. -/
theorem Like.update {ρ : IdRel} (hu : OneToOne ρ) {i j : NodeId} (hi : ρ i j)
    {u u' : Symbol → Forest Symbol → Symbol × Forest Symbol}
    (h : ∀ v w k k', Symbol.Like ρ v w → Like ρ k k' → Symbol.Like ρ (u v k).1 (u' w k').1 ∧ Like ρ (u v k).2 (u' w k').2) :
    ∀ {f g : Forest Symbol}, Like ρ f g → Like ρ (f.update i.idx u) (g.update j.idx u')
  | _, _, .nil => .nil
  | _, _, .cons (i := i') (j := j') h1 h2 h3 h4 => by
    unfold Forest.update
    have e := hu i' j' i j h1 hi
    by_cases hc : i'.idx = i.idx
    · rw [if_pos hc, if_pos (e.1 hc)]
      exact .cons h1 (h _ _ _ _ h2 h3).1 (h _ _ _ _ h2 h3).2 h4
    · rw [if_neg hc, if_neg (fun h' => hc (e.2 h'))]
      exact .cons h1 h2 (Like.update hu hi h h3) (Like.update hu hi h h4)

variable {α : Type}

theorem node?_append {n : Nat} {T : Forest α} : ∀ {F : Forest α}, n ∉ F.idxs → (F.append T).node? n = T.node? n
  | .nil, _ => rfl
  | .cons i v k r, h => by
    simp only [idxs_cons, List.mem_cons, List.mem_append, not_or] at h
    unfold Forest.append
    rw [Forest.node?, if_neg (fun e => h.1 e.symm), node?_none.2 h.2.1]
    exact node?_append h.2.2

theorem path?_append {n : Nat} {T : Forest α} : ∀ {F : Forest α}, n ∉ F.idxs → (F.append T).path? n = T.path? n
  | .nil, _ => rfl
  | .cons i v k r, h => by
    simp only [idxs_cons, List.mem_cons, List.mem_append, not_or] at h
    unfold Forest.append
    have hk : k.path? n = none := by
      cases e : k.path? n with
      | none => rfl
      | some p => exact absurd (path?_isSome.1 (by rw [e]; rfl)) h.2.1
    rw [Forest.path?, if_neg (fun e => h.1 e.symm), hk]
    exact path?_append h.2.2

theorem update_append {n : Nat} {T : Forest α} (u : α → Forest α → α × Forest α) : ∀ {F : Forest α}, n ∉ F.idxs →
    (F.append T).update n u = F.append (T.update n u)
  | .nil, _ => rfl
  | .cons i v k r, h => by
    simp only [idxs_cons, List.mem_cons, List.mem_append, not_or] at h
    unfold Forest.append
    rw [Forest.update, if_neg (fun e => h.1 e.symm), update_notMem h.2.1, update_append u h.2.2]

@[simp] theorem idxs_append (f g : Forest α) : (f.append g).idxs = f.idxs ++ g.idxs := by
  simp [idxs]

end Forest

/-- Two runs of the collector, in arenas with other trees `F` and `F'`, that made the trees `T` and `T'`. -/
structure Twins (F F' : Forest Symbol) (ρ : IdRel) (s s' : Collector) : Prop where
  ns : s'.namespace = s.namespace
  ok : s.arena.Ok
  ok' : s'.arena.Ok
  one : OneToOne ρ
  trees : ∃ T T', s.arena.forest = F.append T ∧ s'.arena.forest = F'.append T' ∧ Forest.Like ρ T T' ∧
    ∀ i j, ρ i j → i ∈ T.ids ∧ j ∈ T'.ids

/-- Two results go side by side: both are values that are related in a relation with more pairs, or they fail in the same way. -/
def Side {α β : Type} (ρ : IdRel) (R : IdRel → α → β → Prop) : Out α → Out β → Prop
  | .ok a, .ok b => ∃ ρ', Grows ρ ρ' ∧ R ρ' a b
  | .panic, .panic => True
  | .deep, .deep => True
  | _, _ => False

namespace Side

variable {α β γ δ : Type} {ρ : IdRel}

theorem ok {R : IdRel → α → β → Prop} {a : α} {b : β} (h : R ρ a b) : Side ρ R (.ok a) (.ok b) := ⟨ρ, .refl ρ, h⟩

theorem bind {R : IdRel → α → β → Prop} {S : IdRel → γ → δ → Prop} {x : Out α} {y : Out β} {f : α → Out γ} {g : β → Out δ}
    (h : Side ρ R x y) (h' : ∀ ρ' a b, Grows ρ ρ' → R ρ' a b → Side ρ' S (f a) (g b)) : Side ρ S (x >>= f) (y >>= g) := by
  cases x <;> cases y <;> first | exact h | exact False.elim h | skip
  obtain ⟨ρ', h1, h2⟩ := h
  have := h' ρ' _ _ h1 h2
  rw [Out.bind_ok, Out.bind_ok]
  revert this
  generalize f _ = u
  generalize g _ = v
  intro this
  cases u <;> cases v <;> first | exact this | skip
  obtain ⟨ρ'', h3, h4⟩ := this
  exact ⟨ρ'', h1.trans h3, h4⟩

theorem option {S : IdRel → γ → δ → Prop} {o : Option α} {f : α → Out γ} {g : α → Out δ}
    (h : ∀ a, o = some a → Side ρ S (f a) (g a)) : Side ρ S (Out.ofOption o >>= f) (Out.ofOption o >>= g) := by
  cases o with
  | none => trivial
  | some a => exact h a rfl

end Side

namespace Twins

variable {F F' : Forest Symbol} {ρ : IdRel} {s s' : Collector}

theorem notMem {T : Forest Symbol} (ok : s.arena.Ok) (he : s.arena.forest = F.append T) {i : NodeId} (hi : i ∈ T.ids) :
    i.idx ∉ F.idxs := by
  have hn := ok.forest
  rw [he, Forest.idxs_append] at hn
  intro hm
  obtain ⟨v, hv⟩ := Forest.mem_ids.1 hi
  exact (List.nodup_append.1 hn).2.2 _ hm _ (Forest.mem_idxs.2 ⟨i, v, hv, rfl⟩) rfl

/-- Related nodes exist and have related contents. -/
theorem get? (h : Twins F F' ρ s s') {i j : NodeId} (hi : ρ i j) :
    ∃ v w, s.arena.get? i = some v ∧ s'.arena.get? j = some w ∧ Symbol.Like ρ v w := by
  obtain ⟨T, T', h1, h2, h3, h4⟩ := h.trees
  have hm := h4 i j hi
  unfold Arena.get?
  rw [h1, h2, Forest.node?_append (notMem h.ok h1 hm.1), Forest.node?_append (notMem h.ok' h2 hm.2)]
  rcases h3.node? h.one hi with ⟨h5, _⟩ | ⟨x, y, h5, h6, _, h7, _⟩
  · obtain ⟨v, hv⟩ := Forest.mem_ids.1 hm.1
    exact absurd (Forest.mem_idxs.2 ⟨i, v, hv, rfl⟩) (Forest.node?_none.1 h5)
  · rw [h5, h6]
    exact ⟨_, _, rfl, rfl, h7⟩

/-- Related nodes have related parents. -/
theorem parent? (h : Twins F F' ρ s s') {i j : NodeId} (hi : ρ i j) :
    (s.arena.parent? i = some none ∧ s'.arena.parent? j = some none) ∨
    ∃ p q, s.arena.parent? i = some (some p) ∧ s'.arena.parent? j = some (some q) ∧ ρ p q := by
  obtain ⟨T, T', h1, h2, h3, h4⟩ := h.trees
  have hm := h4 i j hi
  unfold Arena.parent? Arena.ancestors?
  rw [h1, h2, Forest.path?_append (notMem h.ok h1 hm.1), Forest.path?_append (notMem h.ok' h2 hm.2)]
  rcases h3.path? h.one hi with ⟨h5, _⟩ | ⟨x, y, h5, h6, h7⟩
  · obtain ⟨v, hv⟩ := Forest.mem_ids.1 hm.1
    have := Forest.path?_isSome.2 (Forest.mem_idxs.2 ⟨i, v, hv, rfl⟩)
    rw [h5] at this
    cases this
  · rw [h5, h6]
    cases h7 with
    | nil => exact .inl ⟨rfl, rfl⟩
    | cons _ h8 =>
      cases h8 with
      | nil => exact .inl ⟨rfl, rfl⟩
      | cons h9 _ => exact .inr ⟨_, _, rfl, rfl, h9⟩

private theorem flat_update_ids {f : Forest Symbol} (n : Nat) (u : Symbol → Symbol) :
    (f.update n fun v k => (u v, k)).ids = f.ids := by
  induction f with
  | nil => rfl
  | cons i v k r ihk ihr =>
    unfold Forest.update
    split
    · simp
    · simp [ihk, ihr]

private theorem ids_snoc {f : Forest Symbol} {i : NodeId} {v : Symbol} {n : Nat} {x : NodeId} (hx : x ∈ f.ids) :
    x ∈ (f.update n fun w k => (w, k.snoc i v .nil)).ids := by
  induction f with
  | nil => cases hx
  | cons j w k r ihk ihr =>
    unfold Forest.update
    simp only [Forest.ids_cons, List.mem_cons, List.mem_append] at hx
    split
    · simp only [Forest.ids_cons, List.mem_cons, List.mem_append]
      rcases hx with hx | hx | hx
      · exact .inl hx
      · refine .inr (.inl ?_)
        simp only [Forest.ids, Forest.flat_snoc] at hx ⊢
        simp [List.mem_append.2, List.mem_map.1 hx]
      · exact .inr (.inr hx)
    · simp only [Forest.ids_cons, List.mem_cons, List.mem_append]
      rcases hx with hx | hx | hx
      · exact .inl hx
      · exact .inr (.inl (ihk hx))
      · exact .inr (.inr (ihr hx))

private theorem new_snoc {f : Forest Symbol} {i : NodeId} {v : Symbol} {n : Nat} (hn : n ∈ f.idxs) :
    i ∈ (f.update n fun w k => (w, k.snoc i v .nil)).ids := by
  induction f with
  | nil => cases hn
  | cons j w k r ihk ihr =>
    unfold Forest.update
    simp only [Forest.idxs_cons, List.mem_cons, List.mem_append] at hn
    split
    · simp only [Forest.ids_cons, List.mem_cons, List.mem_append]
      refine .inr (.inl ?_)
      simp [Forest.ids, Forest.flat_snoc]
    · next hj =>
      simp only [Forest.ids_cons, List.mem_cons, List.mem_append]
      rcases hn with hn | hn | hn
      · exact absurd hn.symm hj
      · exact .inr (.inl (ihk hn))
      · exact .inr (.inr (ihr hn))

/-- A change of related nodes. -/
theorem change (h : Twins F F' ρ s s') {i j : NodeId} (hi : ρ i j) {f g : Symbol → Symbol}
    (hf : ∀ v w, Symbol.Like ρ v w → Symbol.Like ρ (f v) (g w)) :
    Side ρ (fun ρ' => Twins F F' ρ') (s.change i f) (s'.change j g) := by
  obtain ⟨v, w, hv, hw, _⟩ := h.get? hi
  unfold Collector.change
  rw [hv, hw]
  refine Side.ok ⟨h.ns, Arena.ok_modify h.ok i f, Arena.ok_modify h.ok' j g, h.one, ?_⟩
  obtain ⟨T, T', h1, h2, h3, h4⟩ := h.trees
  have hm := h4 i j hi
  refine ⟨T.update i.idx fun v k => (f v, k), T'.update j.idx fun v k => (g v, k), ?_, ?_, ?_, ?_⟩
  · show s.arena.forest.update i.idx _ = _
    rw [h1, Forest.update_append _ (notMem h.ok h1 hm.1)]
  · show s'.arena.forest.update j.idx _ = _
    rw [h2, Forest.update_append _ (notMem h.ok' h2 hm.2)]
  · exact h3.update h.one hi fun v w k k' hv hk => ⟨hf v w hv, hk⟩
  · intro a b hab
    rw [flat_update_ids, flat_update_ids]
    exact h4 a b hab

/-- A new child of related nodes. -/
theorem add (h : Twins F F' ρ s s') {i j : NodeId} (hi : ρ i j) {v w : Symbol} (hv : Symbol.Like ρ v w) :
    Side ρ (fun ρ' q q' => ρ' q.1 q'.1 ∧ Twins F F' ρ' q.2 q'.2) (s.add i v) (s'.add j w) := by
  obtain ⟨v0, w0, hv0, hw0, _⟩ := h.get? hi
  unfold Collector.add
  rw [hv0, hw0]
  obtain ⟨T, T', h1, h2, h3, h4⟩ := h.trees
  have hm := h4 i j hi
  have idx : ∀ {f : Forest Symbol} {i : NodeId}, i ∈ f.ids → i.idx ∈ f.idxs := by
    intro f i hi
    obtain ⟨v, hv⟩ := Forest.mem_ids.1 hi
    exact Forest.mem_idxs.2 ⟨i, v, hv, rfl⟩
  have fi : s.arena.fresh.idx ∉ T.idxs := by
    have := Arena.fresh_notMem h.ok
    rw [h1, Forest.idxs_append] at this
    exact fun e => this (List.mem_append_right _ e)
  have fj : s'.arena.fresh.idx ∉ T'.idxs := by
    have := Arena.fresh_notMem h.ok'
    rw [h2, Forest.idxs_append] at this
    exact fun e => this (List.mem_append_right _ e)
  let ρ' : IdRel := fun a b => ρ a b ∨ (a = s.arena.fresh ∧ b = s'.arena.fresh)
  have hg : Grows ρ ρ' := fun _ _ e => .inl e
  have one : OneToOne ρ' := by
    intro a b a' b' hab hab'
    rcases hab with hab | ⟨rfl, rfl⟩ <;> rcases hab' with hab' | ⟨rfl, rfl⟩
    · exact h.one a b a' b' hab hab'
    · constructor
      · intro e; exact absurd (e ▸ idx (h4 _ _ hab).1) fi
      · intro e; exact absurd (e ▸ idx (h4 _ _ hab).2) fj
    · constructor
      · intro e; exact absurd (e ▸ idx (h4 _ _ hab').1) fi
      · intro e; exact absurd (e ▸ idx (h4 _ _ hab').2) fj
    · exact ⟨fun _ => rfl, fun _ => rfl⟩
  have mi : i.idx ∈ s.arena.forest.idxs := by
    rw [h1, Forest.idxs_append]
    exact List.mem_append_right _ (idx hm.1)
  have mj : j.idx ∈ s'.arena.forest.idxs := by
    rw [h2, Forest.idxs_append]
    exact List.mem_append_right _ (idx hm.2)
  refine ⟨ρ', hg, .inr ⟨rfl, rfl⟩, h.ns, Arena.ok_addChild h.ok mi v, Arena.ok_addChild h.ok' mj w, one, ?_⟩
  refine ⟨T.update i.idx fun x k => (x, k.snoc s.arena.fresh v .nil), T'.update j.idx fun x k => (x, k.snoc s'.arena.fresh w .nil),
    ?_, ?_, ?_, ?_⟩
  · show (s.arena.took _).forest = _
    rw [Arena.took_forest, h1, Forest.update_append _ (notMem h.ok h1 hm.1)]
  · show (s'.arena.took _).forest = _
    rw [Arena.took_forest, h2, Forest.update_append _ (notMem h.ok' h2 hm.2)]
  · exact (h3.mono hg).update one (.inl hi) fun x y k k' hx hk => ⟨hx, hk.snoc (.inr ⟨rfl, rfl⟩) (hv.mono hg)⟩
  · intro a b hab
    rcases hab with hab | ⟨rfl, rfl⟩
    · exact ⟨ids_snoc (h4 a b hab).1, ids_snoc (h4 a b hab).2⟩
    · exact ⟨new_snoc (idx hm.1), new_snoc (idx hm.2)⟩

end Twins

namespace Symbol.Like

theorem refl (ρ : IdRel) {v : Symbol} (h : v.parameters = []) : Symbol.Like ρ v v := ⟨rfl, by rw [h]; exact .nil⟩

/-- A change of the other fields. -/
theorem map {ρ : IdRel} {v w : Symbol} (h : Symbol.Like ρ v w) {f : Symbol → Symbol}
    (hf : ∀ v, f v = { f { v with parameters := [] } with parameters := v.parameters }) : Symbol.Like ρ (f v) (f w) := by
  rw [hf v, hf w, h.same]
  exact ⟨rfl, h.parameters⟩

end Symbol.Like

namespace Collector

variable {F F' : Forest Symbol}

/-- What is related behind `visit`. -/
def Goes (F F' : Forest Symbol) (ρ : IdRel) (q q' : NextAction × Collector) : Prop :=
  (match q.1, q'.1 with
    | .abort, .abort => True
    | .processChildren p, .processChildren p' => ρ p p'
    | _, _ => False) ∧ Twins F F' ρ q.2 q'.2

theorem like_addImports {ρ : IdRel} {v w : Symbol} (h : Symbol.Like ρ v w) (is : List SymbolImport) :
    Symbol.Like ρ (addImports v is) (addImports w is) := by
  refine h.map (f := fun v => addImports v is) fun v => ?_
  unfold addImports
  cases v.imports <;> rfl

theorem like_addRules {ρ : IdRel} {v w : Symbol} (h : Symbol.Like ρ v w) (rs : List TraitUseAlteration) :
    Symbol.Like ρ (addRules v rs) (addRules w rs) := by
  refine h.map (f := fun v => addRules v rs) fun v => ?_
  unfold addRules
  cases v.importResolutions <;> rfl

variable {ρ : IdRel} {s s' : Collector} {p p' : NodeId}

theorem side_visitUse (h : Twins F F' ρ s s') (hp : ρ p p') (node : Node) :
    Side ρ (Goes F F') (visitUse node p s) (visitUse node p' s') := by
  unfold visitUse
  have key : ∀ {q q' : NodeId} {f g : Option NodeId}, ρ q q' → f.getD p = q → g.getD p' = q' →
      Side ρ (Goes F F') (do
        let is ← .ofOption (collectUses node (.one []))
        let s ← s.change (f.getD p) fun v => addImports v is
        pure (.abort, s)) (do
        let is ← .ofOption (collectUses node (.one []))
        let s ← s'.change (g.getD p') fun v => addImports v is
        pure (.abort, s)) := by
    intro q q' f g hq hf hg
    refine Side.option fun is _ => ?_
    rw [hf, hg]
    exact (h.change hq fun v w hv => like_addImports hv is).bind fun ρ' a b _ hab => Side.ok ⟨trivial, hab⟩
  rcases h.parent? hp with ⟨h1, h2⟩ | ⟨q, q', h1, h2, h3⟩
  · rw [h1, h2]
    exact key hp rfl rfl
  · rw [h1, h2]
    exact key h3 rfl rfl

theorem side_visitUseTrait (h : Twins F F' ρ s s') (hp : ρ p p') (node : Node) :
    Side ρ (Goes F F') (visitUseTrait node p s) (visitUseTrait node p' s') := by
  unfold visitUseTrait
  refine Side.option fun is _ => Side.option fun rs _ => ?_
  exact (h.change hp fun v w hv => like_addRules (like_addImports hv is) rs).bind fun ρ' a b _ hab => Side.ok ⟨trivial, hab⟩

theorem side_visitNamespace (h : Twins F F' ρ s s') (hp : ρ p p') (t : Node) :
    Side ρ (Goes F F') (visitNamespace t p s) (visitNamespace t p' s') := by
  unfold visitNamespace
  split
  · refine Side.option fun n _ => Side.option fun r _ => ?_
    obtain ⟨v, w, hv, hw, hvw⟩ := h.get? hp
    rw [hv, hw]
    have e : w.selectionRange = v.selectionRange := (congrArg Symbol.selectionRange hvw.same).symm
    simp only [Out.ofOption_some, Out.bind_ok]
    rw [e]
    exact (h.add hp (.refl ρ rfl)).bind fun ρ' a b _ hab => Side.ok hab
  · trivial

theorem side_visitClass (h : Twins F F' ρ s s') (hp : ρ p p') (node : Node) (name : Token) (implementing : Option (List Node))
    (extending doc : Option Node) (attributes : List Node) :
    Side ρ (Goes F F') (visitClass node name implementing extending doc attributes p s)
      (visitClass node name implementing extending doc attributes p' s') := by
  unfold visitClass
  refine Side.option fun inherits _ => Side.option fun sel _ => Side.option fun n _ => Side.option fun range _ =>
    Side.option fun own _ => Side.option fun impls _ => Side.option fun att _ => ?_
  rw [h.ns]
  refine (h.add hp (.refl ρ rfl)).bind fun ρ' a b _ hab => ?_
  exact (hab.2.add hab.1 (.refl ρ' rfl)).bind fun ρ'' c d hg hcd => Side.ok ⟨hg _ _ hab.1, hcd.2⟩

theorem side_visitTrait (h : Twins F F' ρ s s') (hp : ρ p p') (node : Node) (name : Token) (doc : Option Node) :
    Side ρ (Goes F F') (visitTrait node name doc p s) (visitTrait node name doc p' s') := by
  unfold visitTrait
  refine Side.option fun sel _ => Side.option fun n _ => Side.option fun range _ => ?_
  rw [h.ns]
  exact (h.add hp (.refl ρ rfl)).bind fun ρ' a b _ hab => Side.ok hab

theorem side_visitInterface (h : Twins F F' ρ s s') (hp : ρ p p') (node : Node) (name : Token) (extending : Option (List Node))
    (doc : Option Node) :
    Side ρ (Goes F F') (visitInterface node name extending doc p s) (visitInterface node name extending doc p' s') := by
  unfold visitInterface
  refine Side.option fun sel _ => Side.option fun n _ => Side.option fun range _ => Side.option fun inherits _ => ?_
  rw [h.ns]
  exact (h.add hp (.refl ρ rfl)).bind fun ρ' a b _ hab => Side.ok hab

theorem side_addConsts (node : Node) (doc : Option Node) : ∀ (l : List Node) {ρ : IdRel} {s s' : Collector} {p p' : NodeId},
    Twins F F' ρ s s' → ρ p p' → Side ρ (fun ρ' => Twins F F' ρ') (addConsts node doc p l s) (addConsts node doc p' l s')
  | [], _, _, _, _, _, h, _ => Side.ok h
  | n :: rest, ρ, s, s', p, p', h, hp => by
    cases n
    case classConstant =>
      unfold addConsts
      refine Side.option fun ts _ => Side.option fun range _ => Side.option fun n _ => ?_
      refine (h.add hp (.refl ρ rfl)).bind fun ρ' a b hg hab => ?_
      exact side_addConsts node doc rest hab.2 (hg _ _ hp)
    all_goals exact side_addConsts node doc rest h hp

theorem side_addProperties (range : NodeRange) (ts : List SymRef) (visibility : Option Token) (dep : Option Bool) :
    ∀ (l : List Node) {ρ : IdRel} {s s' : Collector} {p p' : NodeId}, Twins F F' ρ s s' → ρ p p' →
    Side ρ (fun ρ' => Twins F F' ρ') (addProperties range ts visibility dep p l s) (addProperties range ts visibility dep p' l s')
  | [], _, _, _, _, _, h, _ => Side.ok h
  | n :: rest, ρ, s, s', p, p', h, hp => by
    cases n
    case property =>
      unfold addProperties
      refine Side.option fun n _ => ?_
      refine (h.add hp (.refl ρ rfl)).bind fun ρ' a b hg hab => ?_
      exact side_addProperties range ts visibility dep rest hab.2 (hg _ _ hp)
    all_goals exact side_addProperties range ts visibility dep rest h hp

theorem side_visitMethod (h : Twins F F' ρ s s') (hp : ρ p p') (node : Node) (name : Token) (function : Node)
    (isStatic : Option Token) (doc : Option Node) (visibility : Option Token) :
    Side ρ (Goes F F') (visitMethod node name function isStatic doc visibility p s)
      (visitMethod node name function isStatic doc visibility p' s') := by
  unfold visitMethod
  split
  · refine Side.option fun ts _ => Side.option fun range _ => Side.option fun n _ => Side.option fun sel _ => ?_
    exact (h.add hp (.refl ρ rfl)).bind fun ρ' a b _ hab => Side.ok hab
  · exact Side.ok ⟨trivial, h⟩

theorem side_visitFunction (h : Twins F F' ρ s s') (hp : ρ p p') (node : Node) (name : Token) (function : Node) :
    Side ρ (Goes F F') (visitFunction node name function p s) (visitFunction node name function p' s') := by
  unfold visitFunction
  split
  · refine Side.option fun ts _ => Side.option fun range _ => Side.option fun n _ => Side.option fun sel _ => ?_
    exact (h.add hp (.refl ρ rfl)).bind fun ρ' a b _ hab => Side.ok hab
  · exact Side.ok ⟨trivial, h⟩

theorem side_visitArgument (h : Twins F F' ρ s s') (hp : ρ p p') (node : Node) (argumentType : Option Node) (name : Token)
    (doc : Option Node) :
    Side ρ (Goes F F') (visitArgument node argumentType name doc p s) (visitArgument node argumentType name doc p' s') := by
  unfold visitArgument
  refine Side.option fun ts _ => Side.option fun n _ => Side.option fun range _ => Side.option fun sel _ => ?_
  refine (h.add hp (.refl ρ rfl)).bind fun ρ' a b hg hab => ?_
  refine (hab.2.change (hg _ _ hp) ?_).bind fun ρ'' c d _ hcd => Side.ok ⟨trivial, hcd⟩
  intro v w hvw
  refine ⟨?_, Pairs.snoc (R := fun p q : FunctionParameter => ρ' p.symbol q.symbol) (a := ⟨a.1⟩) (b := ⟨b.1⟩) hab.1 hvw.parameters⟩
  exact hvw.same

theorem side_visit (h : Twins F F' ρ s s') (hp : ρ p p') (node : Node) :
    Side ρ (Goes F F') (visit node p s) (visit node p' s') := by
  unfold visit
  split
  · exact side_visitUse h hp _
  · exact side_visitUse h hp _
  · exact side_visitUse h hp _
  · exact side_visitUse h hp _
  · exact side_visitUseTrait h hp _
  · exact side_visitUseTrait h hp _
  · exact side_visitUseTrait h hp _
  · exact side_visitUseTrait h hp _
  · exact side_visitNamespace h hp _
  · refine Side.option fun n _ => Side.option fun range _ => ?_
    exact (h.add hp (.refl ρ rfl)).bind fun ρ' a b _ hab => Side.ok ⟨trivial, hab.2⟩
  · exact side_visitClass h hp _ _ _ _ _ _
  · exact side_visitTrait h hp _ _ _
  · exact side_visitInterface h hp _ _ _ _
  · exact (side_addConsts _ _ _ h hp).bind fun ρ' a b _ hab => Side.ok ⟨trivial, hab⟩
  · refine Side.option fun range _ => Side.option fun ts _ => Side.option fun n _ => ?_
    exact (h.add hp (.refl ρ rfl)).bind fun ρ' a b _ hab => Side.ok ⟨trivial, hab.2⟩
  · refine Side.option fun range _ => Side.option fun ts _ => ?_
    exact (side_addProperties _ _ _ _ _ h hp).bind fun ρ' a b _ hab => Side.ok ⟨trivial, hab⟩
  · exact side_visitMethod h hp _ _ _ _ _ _
  · refine Side.option fun sel _ => Side.option fun range _ => ?_
    exact (h.add hp (.refl ρ rfl)).bind fun ρ' a b _ hab => Side.ok hab
  · exact side_visitFunction h hp _ _ _
  · exact side_visitArgument h hp _ _ _ _
  · refine Side.option fun n _ => Side.option fun range _ => Side.option fun sel _ => ?_
    exact (h.add hp (.refl ρ rfl)).bind fun ρ' a b _ hab => Side.ok ⟨trivial, hab.2⟩
  · exact Side.ok ⟨trivial, h⟩
  · exact Side.ok ⟨hp, h⟩

theorem side_namespace (h : Twins F F' ρ s s') (n : Option Text) :
    Twins F F' ρ { s with «namespace» := n } { s' with «namespace» := n } := ⟨rfl, h.ok, h.ok', h.one, h.trees⟩

theorem side_before (h : Twins F F' ρ s s') (node : Node) :
    Side ρ (fun ρ' => Twins F F' ρ') (before node p s) (before node p' s') := by
  unfold before
  split
  · exact Side.option fun n _ => Side.ok (side_namespace h _)
  · exact Side.option fun n _ => Side.ok (side_namespace h _)
  · exact Side.ok (side_namespace h _)
  · exact Side.ok h

theorem side_after (h : Twins F F' ρ s s') (node : Node) :
    Side ρ (fun ρ' => Twins F F' ρ') (after node p s) (after node p' s') := by
  unfold after
  split
  · exact Side.ok (side_namespace h _)
  · exact Side.ok h

/-- Two runs over the same tree go side by side. -/
theorem side_traverse : ∀ (fuel : Nat) (node : Node) {ρ : IdRel} {s s' : Collector} {p p' : NodeId}, Twins F F' ρ s s' → ρ p p' →
    Side ρ (fun ρ' => Twins F F' ρ') (traverse Node.children visitor fuel node p s) (traverse Node.children visitor fuel node p' s')
  | 0, _, _, _, _, _, _, _, _ => trivial
  | fuel + 1, node, ρ, s, s', p, p', h, hp => by
    have hl : ∀ (l : List Node) {ρ : IdRel} {s s' : Collector} {p p' : NodeId}, Twins F F' ρ s s' → ρ p p' →
        Side ρ (fun ρ' => Twins F F' ρ') (l.foldlM (fun s c => traverse Node.children visitor fuel c p s) s)
          (l.foldlM (fun s c => traverse Node.children visitor fuel c p' s) s') := by
      intro l
      induction l with
      | nil => intro ρ s s' p p' h _; exact Side.ok h
      | cons c l ih =>
        intro ρ s s' p p' h hp
        rw [List.foldlM_cons, List.foldlM_cons]
        exact (side_traverse fuel c h hp).bind fun ρ' a b hg hab => ih hab (hg _ _ hp)
    unfold traverse
    refine (side_before (p := p) (p' := p') h node).bind fun ρ1 a b h1 hab => ?_
    refine (side_visit hab (h1 _ _ hp) node).bind fun ρ2 q q' h2 hq => ?_
    refine Side.bind (R := fun ρ' => Twins F F' ρ') ?_ fun ρ3 c d h3 hcd => ?_
    · obtain ⟨x, c⟩ := q
      obtain ⟨y, d⟩ := q'
      cases x <;> cases y <;> first | exact False.elim hq.1 | skip
      · exact Side.ok hq.2
      · exact hl _ hq.2 hq.1
    · exact side_after (p := p) (p' := p') hcd node

/-- Two runs over the same trees go side by side. -/
theorem side_file (fuel : Nat) : ∀ (l : List Node) {ρ : IdRel} {s s' : Collector} {p p' : NodeId}, Twins F F' ρ s s' → ρ p p' →
    Side ρ (fun ρ' => Twins F F' ρ') (l.foldlM (fun s c => traverse Node.children visitor fuel c p s) s)
      (l.foldlM (fun s c => traverse Node.children visitor fuel c p' s) s')
  | [], _, _, _, _, _, h, _ => Side.ok h
  | c :: l, _, _, _, _, _, h, hp => by
    rw [List.foldlM_cons, List.foldlM_cons]
    exact (side_traverse fuel c h hp).bind fun ρ' a b hg hab => side_file fuel l hab (hg _ _ hp)

end Collector

namespace Forest

variable {α : Type}

theorem append_assoc (f g k : Forest α) : (f.append g).append k = f.append (g.append k) := by
  induction f with
  | nil => rfl
  | cons i v kids r _ ih => simp only [Forest.append]; rw [ih]

theorem replace_append {n : Nat} {T : Forest α} (g : Forest α → Forest α) (hT : n ∉ T.idxs) : ∀ (F : Forest α),
    (F.append T).replace n g = (F.replace n g).append T
  | .nil => replace_notMem hT g
  | .cons i v k r => by
    simp only [Forest.append, Forest.replace]
    split
    · rw [append_assoc]
    · rw [replace_append g hT r]
      rfl

end Forest

namespace Backend

/-- The symbols of a file are the same in two states, up to the ids: there is a one-to-one relation between the ids that respects
the symbols and the tree they form. -/
def SameTree (path : Text) (st e : Backend) : Prop :=
  ∃ f g v w k k' ρ, Dict.get? st.files path = some f ∧ Dict.get? e.files path = some g ∧
    st.arena.forest.node? f.idx = some (f, v, k) ∧ e.arena.forest.node? g.idx = some (g, w, k') ∧ OneToOne ρ ∧
    Forest.Like ρ (.cons f v k .nil) (.cons g w k' .nil)

/-- The part of `collectSymbols` behind the traversal. -/
private def rest (h : Host) (path : Text) (st : Backend) (root : NodeId) (c : Collector) : Out Backend := do
  let old := Dict.get? st.files path
  let st := { st with arena := c.arena, files := Dict.insert st.files path root }
  let st ← (match old with
    | some old => dropFile h.U old st
    | none => pure st)
  let kids ← .ofOption (st.arena.children? root)
  pure { st with globals := registerAll h.U kids st.globals }

private theorem collectSymbols_rest (h : Host) (path : Text) (ast : List Node) (range : LspRange) (st : Backend) :
    collectSymbols h path ast range st = (ast.foldlM (fun s node => traverse Node.children Collector.visitor h.fuel node
      (st.arena.addRoot (fileSymbol path range)).1 s) (Collector.mk none (st.arena.addRoot (fileSymbol path range)).2) >>=
      rest h path st (st.arena.addRoot (fileSymbol path range)).1) := rfl

/-- This part succeeds, and leaves the new tree as it is. -/
private theorem rest_ok (h : Host) (path : Text) (st : Backend) (c : Collector) (root : NodeId) (F T : Forest Symbol)
    (ok : c.arena.Ok) (split : c.arena.forest = F.append T) (old : ∀ o, Dict.get? st.files path = some o → o.idx ∈ F.idxs)
    (hr : root ∈ T.ids) :
    ∃ st', rest h path st root c = .ok st' ∧ Dict.get? st'.files path = some root ∧ st'.arena.Ok ∧
      (∀ p, p ≠ path → Dict.get? st'.files p = Dict.get? st.files p) ∧ st'.opened = st.opened ∧
      st'.arena.forest = (match Dict.get? st.files path with
        | some o => F.replace o.idx fun _ => .nil
        | none => F).append T := by
  have others : ∀ p, p ≠ path → Dict.get? (Dict.insert st.files path root) p = Dict.get? st.files p := by
    intro p hp
    rw [Dict.get?_insert, if_neg (fun e => hp e.symm)]
  have kids : ∀ (a : Arena Symbol) (G : Forest Symbol), a.forest = G.append T → ∃ x, a.children? root = some x := by
    intro a G e
    have hm : root.idx ∈ a.forest.idxs := by
      obtain ⟨v, hv⟩ := Forest.mem_ids.1 hr
      rw [e, Forest.idxs_append]
      exact List.mem_append_right _ (Forest.mem_idxs.2 ⟨root, v, hv, rfl⟩)
    unfold Arena.children?
    cases hx : a.forest.node? root.idx with
    | none => exact absurd hm (Forest.node?_none.1 hx)
    | some x => exact ⟨_, rfl⟩
  unfold rest
  cases ho : Dict.get? st.files path with
  | none =>
    obtain ⟨x, hx⟩ := kids c.arena F split
    simp only [Out.pure_eq, Out.bind_ok, hx, Out.ofOption_some]
    exact ⟨_, rfl, by rw [Dict.get?_insert, if_pos rfl], ok, others, rfl, split⟩
  | some o =>
    have hm := old o ho
    have hn := ok.forest
    rw [split, Forest.idxs_append] at hn
    have hT : o.idx ∉ T.idxs := fun e => (List.nodup_append.1 hn).2.2 _ hm _ e rfl
    cases hx : c.arena.forest.node? o.idx with
    | none =>
      refine absurd ?_ (Forest.node?_none.1 hx)
      rw [split, Forest.idxs_append]
      exact List.mem_append_left _ hm
    | some x =>
      have hrem : (c.arena.removeSubtree o).forest = (F.replace o.idx fun _ => .nil).append T := by
        unfold Arena.removeSubtree
        rw [hx]
        show c.arena.forest.replace _ _ = _
        rw [split]
        exact Forest.replace_append _ hT F
      obtain ⟨y, hy⟩ := kids _ _ hrem
      have hc : c.arena.children? o = some x.2.2.tops := by unfold Arena.children?; rw [hx]; rfl
      have hd : c.arena.descendants? o = some ((x.1, x.2.1) :: x.2.2.flat) := by unfold Arena.descendants?; rw [hx]; rfl
      simp only [dropFile, hc, hd, Out.ofOption_some, Out.pure_eq, Out.bind_ok, hy]
      exact ⟨_, rfl, by rw [Dict.get?_insert, if_pos rfl], Arena.ok_removeSubtree ok o, others, rfl, hrem⟩

private theorem node?_root {a : Arena Symbol} (ok : a.Ok) {G T : Forest Symbol} (e : a.forest = G.append T) {i : NodeId} (hi : i ∈ T.ids) :
    ∃ v k, T.node? i.idx = some (i, v, k) ∧ a.forest.node? i.idx = some (i, v, k) := by
  have hn := ok.forest
  rw [e, Forest.idxs_append] at hn
  obtain ⟨v, hv⟩ := Forest.mem_ids.1 hi
  obtain ⟨k, hk⟩ := Forest.node?_mem (List.nodup_append.1 hn).2.1 hv
  refine ⟨v, k, hk, ?_⟩
  rw [e, Forest.node?_append, hk]
  intro hm
  exact (List.nodup_append.1 hn).2.2 _ hm _ (Forest.mem_idxs.2 ⟨i, v, hv, rfl⟩) rfl

theorem snoc_append {α : Type} (F : Forest α) (i : NodeId) (v : α) : F.snoc i v .nil = F.append (.cons i v .nil .nil) := by
  induction F with
  | nil => rfl
  | cons j w k r _ ih => simp only [Forest.snoc, Forest.append, ih]

/-- Indexing a file goes the same way in every state: the state that holds other files, or an older version of this one, does not
matter for the symbols it gives. -/
theorem collectSymbols_anywhere (h : Host) (path : Text) (ast : List Node) (range : LspRange) (st e : Backend) (ha : st.arena.Ok)
    (hs : ∀ o, Dict.get? st.files path = some o → o.idx ∈ st.arena.forest.idxs) (he : e.arena.Ok)
    (hes : ∀ o, Dict.get? e.files path = some o → o.idx ∈ e.arena.forest.idxs) :
    Side (fun _ _ => False) (fun _ st' e' => SameTree path st' e') (collectSymbols h path ast range st)
      (collectSymbols h path ast range e) := by
  have start : Twins st.arena.forest e.arena.forest (fun i j => i = st.arena.fresh ∧ j = e.arena.fresh)
      (Collector.mk none (st.arena.addRoot (fileSymbol path range)).2)
      (Collector.mk none (e.arena.addRoot (fileSymbol path range)).2) := by
    refine ⟨rfl, Arena.ok_addRoot ha _, Arena.ok_addRoot he _, ?_,
      .cons st.arena.fresh (fileSymbol path range) .nil .nil, .cons e.arena.fresh (fileSymbol path range) .nil .nil, ?_, ?_, ?_, ?_⟩
    · rintro i j i' j' ⟨rfl, rfl⟩ ⟨rfl, rfl⟩
      exact ⟨fun _ => rfl, fun _ => rfl⟩
    · unfold Arena.addRoot
      rw [Arena.took_forest, snoc_append]
    · unfold Arena.addRoot
      rw [Arena.took_forest, snoc_append]
    · exact .cons ⟨rfl, rfl⟩ ⟨rfl, .nil⟩ .nil .nil
    · rintro i j ⟨rfl, rfl⟩
      simp
  have walk := Collector.side_file h.fuel ast start (p := st.arena.fresh) (p' := e.arena.fresh) ⟨rfl, rfl⟩
  rw [collectSymbols_rest, collectSymbols_rest]
  have r1 : (st.arena.addRoot (fileSymbol path range)).1 = st.arena.fresh := rfl
  have r2 : (e.arena.addRoot (fileSymbol path range)).1 = e.arena.fresh := rfl
  rw [r1, r2]
  revert walk
  generalize (ast.foldlM (fun s c => traverse Node.children Collector.visitor h.fuel c st.arena.fresh s)
    (Collector.mk none (st.arena.addRoot (fileSymbol path range)).2)) = x
  generalize (ast.foldlM (fun s c => traverse Node.children Collector.visitor h.fuel c e.arena.fresh s)
    (Collector.mk none (e.arena.addRoot (fileSymbol path range)).2)) = y
  intro walk
  cases x with
  | panic => cases y <;> first | exact walk | exact False.elim walk
  | deep => cases y <;> first | exact walk | exact False.elim walk
  | ok c =>
    cases y with
    | panic => exact False.elim walk
    | deep => exact False.elim walk
    | ok d =>
      obtain ⟨ρ, grows, t⟩ := walk
      obtain ⟨T, T', h1, h2, h3, h4⟩ := t.trees
      have hroot := grows _ _ ⟨rfl, rfl⟩
      obtain ⟨st', s1, s2, s3, _, _, s4⟩ := rest_ok h path st c st.arena.fresh _ T t.ok h1 hs (h4 _ _ hroot).1
      obtain ⟨e', e1, e2, e3, _, _, e4⟩ := rest_ok h path e d e.arena.fresh _ T' t.ok' h2 hes (h4 _ _ hroot).2
      simp only [Out.bind_ok, s1, e1]
      obtain ⟨v, k, n1, n2⟩ := node?_root s3 s4 (h4 _ _ hroot).1
      obtain ⟨w, k', m1, m2⟩ := node?_root e3 e4 (h4 _ _ hroot).2
      rcases h3.node? t.one hroot with ⟨h5, _⟩ | ⟨x, y, h5, h6, _, h7, h8⟩
      · rw [n1] at h5; cases h5
      · rw [n1] at h5; injection h5 with h5; subst h5
        rw [m1] at h6; injection h6 with h6; subst h6
        exact ⟨fun _ _ => False, .refl _, _, _, v, w, k, k', ρ, s2, e2, n2, m2, t.one, .cons hroot h7 h8 .nil⟩

/-- Taking one tree away leaves the other trees as they are. -/
theorem node?_replace {α : Type} {o f : NodeId} (hne : o.idx ≠ f.idx) : ∀ {F : Forest α}, F.idxs.Nodup → o.idx ∈ F.tops.map (·.1.idx) →
    f.idx ∈ F.tops.map (·.1.idx) → (F.replace o.idx fun _ => .nil).node? f.idx = F.node? f.idx
  | .nil, _, h, _ => nomatch h
  | .cons i v k r, hn, ho, hf => by
    have tops : ∀ n, n ∈ r.tops.map (·.1.idx) → n ∈ r.idxs := by
      intro n hm
      obtain ⟨x, hx, rfl⟩ := List.mem_map.1 hm
      exact Forest.mem_idxs.2 ⟨x.1, x.2, Forest.tops_flat hx, rfl⟩
    simp only [Forest.idxs_cons, List.nodup_cons, List.nodup_append, List.mem_append, not_or] at hn
    obtain ⟨⟨h1, h2⟩, hk, hr, hd⟩ := hn
    simp only [Forest.tops, List.map_cons, List.mem_cons] at ho hf
    unfold Forest.replace
    by_cases hi : i.idx = o.idx
    · rw [if_pos hi]
      have hf' := tops _ (hf.resolve_left fun e => hne (hi.symm.trans e.symm))
      have e2 : (Forest.cons i v k r).node? f.idx = r.node? f.idx := by
        rw [Forest.node?, if_neg (fun e => hne (hi.symm.trans e)), Forest.node?_none.2 fun e => hd _ e _ hf' rfl]
      rw [e2]
      rfl
    · rw [if_neg hi]
      have ho' := ho.resolve_left fun e => hi e.symm
      rw [Forest.replace_notMem (fun e => hd _ e _ (tops _ ho') rfl)]
      unfold Forest.node?
      by_cases hif : i.idx = f.idx
      · rw [if_pos hif, if_pos hif]
      · rw [if_neg hif, if_neg hif, node?_replace hne hr ho' (hf.resolve_left fun e => hif e.symm)]

/-- Indexing one file leaves the symbols of the other files exactly as they are. -/
theorem collectSymbols_others (h : Host) (path : Text) (ast : List Node) (range : LspRange) (st st' : Backend) (ha : st.arena.Ok)
    (hs : ∀ p o, Dict.get? st.files p = some o → o.idx ∈ st.arena.forest.tops.map (·.1.idx))
    (inj : ∀ p q o o', Dict.get? st.files p = some o → Dict.get? st.files q = some o' → o.idx = o'.idx → p = q)
    (e : collectSymbols h path ast range st = .ok st') :
    st'.opened = st.opened ∧
    ∀ p, p ≠ path → Dict.get? st'.files p = Dict.get? st.files p ∧ ∀ f, Dict.get? st.files p = some f →
      st'.arena.forest.node? f.idx = st.arena.forest.node? f.idx := by
  have tops : ∀ n, n ∈ st.arena.forest.tops.map (·.1.idx) → n ∈ st.arena.forest.idxs := by
    intro n hm
    obtain ⟨x, hx, rfl⟩ := List.mem_map.1 hm
    exact Forest.mem_idxs.2 ⟨x.1, x.2, Forest.tops_flat hx, rfl⟩
  have start : Twins st.arena.forest st.arena.forest (fun i j => i = st.arena.fresh ∧ j = st.arena.fresh)
      (Collector.mk none (st.arena.addRoot (fileSymbol path range)).2)
      (Collector.mk none (st.arena.addRoot (fileSymbol path range)).2) := by
    have hfor : (st.arena.addRoot (fileSymbol path range)).2.forest =
        st.arena.forest.append (.cons st.arena.fresh (fileSymbol path range) .nil .nil) := by
      unfold Arena.addRoot
      rw [Arena.took_forest, snoc_append]
    refine ⟨rfl, Arena.ok_addRoot ha _, Arena.ok_addRoot ha _, ?_, _, _, hfor, hfor, ?_, ?_⟩
    · rintro i j i' j' ⟨rfl, rfl⟩ ⟨rfl, rfl⟩
      exact ⟨fun _ => rfl, fun _ => rfl⟩
    · exact .cons ⟨rfl, rfl⟩ ⟨rfl, .nil⟩ .nil .nil
    · rintro i j ⟨rfl, rfl⟩
      simp
  have walk := Collector.side_file h.fuel ast start (p := st.arena.fresh) (p' := st.arena.fresh) ⟨rfl, rfl⟩
  rw [collectSymbols_rest] at e
  obtain ⟨c, hc, e⟩ := Out.bind_eq_ok e
  have r1 : (st.arena.addRoot (fileSymbol path range)).1 = st.arena.fresh := rfl
  rw [r1] at hc e
  rw [hc] at walk
  obtain ⟨ρ, grows, t⟩ := walk
  obtain ⟨T, T', h1, h2, h3, h4⟩ := t.trees
  obtain ⟨s, s1, s2, s3, s4, s5, s6⟩ := rest_ok h path st c st.arena.fresh _ T t.ok h1 (fun o ho => tops _ (hs path o ho))
    (h4 _ _ (grows _ _ ⟨rfl, rfl⟩)).1
  rw [s1] at e
  cases e
  refine ⟨s5, fun p hp => ⟨s4 p hp, fun f hf => ?_⟩⟩
  have hn := t.ok.forest
  rw [h1, Forest.idxs_append] at hn
  have hT : f.idx ∉ T.idxs := fun e => (List.nodup_append.1 hn).2.2 _ (tops _ (hs p f hf)) _ e rfl
  have last : ∀ G : Forest Symbol, (G.append T).node? f.idx = G.node? f.idx := by
    intro G
    induction G with
    | nil => exact Forest.node?_none.2 hT
    | cons i v k r _ ih =>
      simp only [Forest.append]
      rw [Forest.node?, Forest.node?, ih]
  rw [s6, last]
  cases ho : Dict.get? st.files path with
  | none => rfl
  | some o =>
    exact node?_replace (fun e => hp (inj p path f o hf ho e.symm)) ha.forest (hs path o ho) (hs p f hf)

end Backend

end PhpLs
