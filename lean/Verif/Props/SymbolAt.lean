import Verif.Symbol
import Verif.ArenaLemmas

/-!
# C24: the symbol under the cursor is the innermost one
-/

namespace PhpLs

/-- `Chain a n m l`: from the node `n` one gets to `m` by going to a child again and again; `l` are the nodes passed, without
`n`, from the top to the bottom. -/
inductive Chain {α : Type} (a : Arena α) : NodeId → NodeId → List (NodeId × α) → Prop where
  | here (n : NodeId) : Chain a n n []
  | down {n c m : NodeId} {s : α} {l : List (NodeId × α)} {ch : List (NodeId × α)} :
      a.children? n = some ch → (c, s) ∈ ch → Chain a c m l → Chain a n m ((c, s) :: l)

/-- A symbol that is looked at by position: not a namespace and not a magic constant (these have no range of their own). -/
def Symbol.Placed (s : Symbol) : Prop := s.kind ≠ .namespace ∧ s.kind ≠ .magicConst

private theorem symbolAtIn_spec {a : Arena Symbol} (ha : a.Ok) (position : Pos) (f : Forest Symbol) :
    ∀ (me i : NodeId) (v : Symbol) (k : Forest Symbol), a.forest.node? me.idx = some (i, v, k) →
      (∃ pre, k.trees = pre ++ f.trees ∧ ∀ x ∈ pre, x.2.1.Placed → inRange position x.2.1.range = false) →
      ∃ l, Chain a me (symbolAtIn position me f) l ∧ (∀ x ∈ l, x.2.Placed ∧ inRange position x.2.range = true) ∧
        ∀ ch, a.children? (symbolAtIn position me f) = some ch → ∀ x ∈ ch, x.2.Placed →
          inRange position x.2.range = false := by
  induction f with
  | nil =>
    intro me i v k hk ⟨pre, e, hp⟩
    refine ⟨[], .here me, by simp, ?_⟩
    intro ch hch x hx hpl
    simp only [symbolAtIn, Arena.children?, hk, Option.map_some, Option.some.injEq] at hch
    rw [← hch, Forest.tops_eq_trees, e] at hx
    simp only [Forest.trees, List.append_nil, List.mem_map] at hx
    obtain ⟨y, hy, rfl⟩ := hx
    exact hp y hy hpl
  | cons c s kids rest ihk ihr =>
    intro me i v k hk ⟨pre, e, hp⟩
    have hskip : (s.Placed → inRange position s.range = false) →
        ∃ l, Chain a me (symbolAtIn position me rest) l ∧ (∀ x ∈ l, x.2.Placed ∧ inRange position x.2.range = true) ∧
        ∀ ch, a.children? (symbolAtIn position me rest) = some ch → ∀ x ∈ ch, x.2.Placed →
          inRange position x.2.range = false := by
      intro hs
      refine ihr me i v k hk ⟨pre ++ [(c, s, kids)], by simp [e, Forest.trees], ?_⟩
      intro x hx hpl
      rcases List.mem_append.1 hx with hx | hx
      · exact hp x hx hpl
      · rw [List.mem_singleton.1 hx] at hpl ⊢
        exact hs hpl
    simp only [symbolAtIn]
    by_cases hkind : s.kind = .namespace ∨ s.kind = .magicConst
    · rw [if_pos hkind]
      exact hskip fun hpl => absurd hkind fun h => h.elim hpl.1 hpl.2
    · rw [if_neg hkind]
      have hplaced : s.Placed := ⟨fun h => hkind (.inl h), fun h => hkind (.inr h)⟩
      by_cases hr : inRange position s.range = true
      · rw [if_pos hr]
        have hmem : (c, s, kids) ∈ k.trees := by rw [e]; simp [Forest.trees]
        have hc : a.forest.node? c.idx = some (c, s, kids) :=
          Forest.node?_trans ha.forest hk (Forest.node?_trees (Forest.node?_nodup ha.forest hk) hmem)
        obtain ⟨l, h1, h2, h3⟩ := ihk c c s kids hc ⟨[], by simp, by simp⟩
        refine ⟨(c, s) :: l, .down (ch := k.tops) (by simp [Arena.children?, hk]) ?_ h1, ?_, h3⟩
        · rw [Forest.tops_eq_trees]
          exact List.mem_map.2 ⟨_, hmem, rfl⟩
        · intro x hx
          rcases List.mem_cons.1 hx with rfl | hx
          · exact ⟨hplaced, hr⟩
          · exact h2 x hx
      · rw [if_neg hr]
        exact hskip fun _ => by simpa using hr

/-- C24.  In a well-formed arena, searching from an existing symbol never fails; from the start one gets to the answer by
going down, all the symbols passed (and so the answer itself, if it is not the start) contain the position, and no child of
the answer that has a place in the text contains it. -/
theorem C24_innermost {a : Arena Symbol} (ha : a.Ok) {n : NodeId} (hn : a.Live n) (position : Pos) :
    ∃ m l, symbolAt position n a = some m ∧ Chain a n m l ∧ (∀ x ∈ l, x.2.Placed ∧ inRange position x.2.range = true) ∧
      ∀ ch, a.children? m = some ch → ∀ x ∈ ch, x.2.Placed → inRange position x.2.range = false := by
  obtain ⟨v, hv⟩ := Forest.mem_ids.1 hn
  obtain ⟨k, hk⟩ := Forest.node?_mem ha.forest hv
  obtain ⟨l, h1, h2, h3⟩ := symbolAtIn_spec ha position k n n v k hk ⟨[], by simp, by simp⟩
  exact ⟨_, l, by simp [symbolAt, hk], h1, h2, h3⟩

/-- The last node of a chain has the payload the arena has for it. -/
private theorem chain_last {α : Type} {a : Arena α} (ha : a.Ok) {n m : NodeId} {l : List (NodeId × α)} (h : Chain a n m l) :
    l ≠ [] → ∃ s, (m, s) ∈ l ∧ a.get? m = some s := by
  induction h with
  | here => simp
  | @down n c m s l ch hch hc h ih =>
    intro _
    cases h with
    | here =>
      refine ⟨s, by simp, ?_⟩
      unfold Arena.children? at hch
      cases hk : a.forest.node? n.idx with
      | none => simp [hk] at hch
      | some x =>
        obtain ⟨i, v, k⟩ := x
        simp only [hk, Option.map_some, Option.some.injEq] at hch
        obtain ⟨_, _, hsub⟩ := Forest.node?_some hk
        have : (c, s) ∈ a.forest.flat := hsub _ (Forest.tops_flat (hch ▸ hc))
        obtain ⟨_, h⟩ := Forest.node?_mem ha.forest this
        simp [Arena.get?, h]
    | down h1 h2 h3 =>
      obtain ⟨s', h1, h2⟩ := ih (by simp)
      exact ⟨s', by simp [h1], h2⟩

/-- C24.  If the position is in the range of the start symbol (the file), it is in the range of the answer. -/
theorem C24_contains {a : Arena Symbol} (ha : a.Ok) {n m : NodeId} {s : Symbol} {position : Pos} (hs : a.get? n = some s)
    (hr : inRange position s.range = true) (hn : a.Live n) (h : symbolAt position n a = some m) :
    ∃ t, a.get? m = some t ∧ inRange position t.range = true := by
  obtain ⟨m', l, h1, h2, h3, _⟩ := C24_innermost ha hn position
  rw [h] at h1
  injection h1 with h1; subst h1
  cases l with
  | nil => cases h2; exact ⟨s, hs, hr⟩
  | cons x l =>
    obtain ⟨t, h4, h5⟩ := chain_last ha h2 (by simp)
    exact ⟨t, h5, (h3 _ h4).2⟩

/-! ## Example: a file with a namespace, a class and a method -/

private def sym (kind : SymbolKind) (name : Text) (l0 c0 l1 c1 : Nat) : Symbol :=
  { Symbol.default with kind := kind, name := name, range := ⟨⟨l0, c0⟩, ⟨l1, c1⟩⟩ }

private def exampleArena : Arena Symbol :=
  let a := Arena.empty
  let (file, a) := a.addRoot (sym .file c!"a.php" 0 0 9 0)
  let (_, a) := a.addChild file (sym .namespace c!"App" 0 0 9 0)
  let (cls, a) := a.addChild file (sym .cls c!"Cat" 2 0 8 1)
  let (_, a) := a.addChild cls (sym .magicConst c!"class" 2 0 8 1)
  let (_, a) := a.addChild cls (sym .method c!"meow" 3 2 4 3)
  let (_, a) := a.addChild cls (sym .method c!"purr" 5 2 6 3)
  a

private theorem exampleArena_ok : exampleArena.Ok :=
  ⟨by decide, by decide⟩

example : exampleArena.Ok ∧ exampleArena.Live ⟨0, 0⟩ := ⟨exampleArena_ok, by decide⟩

/-- On the second method, between the methods, and outside of the class. -/
example : symbolAt ⟨5, 4⟩ ⟨0, 0⟩ exampleArena = some ⟨5, 0⟩ ∧ symbolAt ⟨4, 9⟩ ⟨0, 0⟩ exampleArena = some ⟨2, 0⟩ ∧
    symbolAt ⟨1, 0⟩ ⟨0, 0⟩ exampleArena = some ⟨0, 0⟩ := by decide

example : ∃ t, exampleArena.get? ⟨5, 0⟩ = some t ∧ inRange ⟨5, 4⟩ t.range = true :=
  C24_contains exampleArena_ok (n := ⟨0, 0⟩) (s := sym .file c!"a.php" 0 0 9 0) (by decide) (by decide) (by decide) (by decide)

end PhpLs
