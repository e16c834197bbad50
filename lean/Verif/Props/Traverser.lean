import Verif.Traverser

/-!
# C33: the traversal of a syntax tree

A place in the tree is an address: the list of the positions of the children on the way down.  To talk about the calls that are
made, the visitor is put into one that also writes down each call, with the address of the node it was made for
(`Visitor.logged`); `C33_same` says that this changes nothing else.
-/

namespace PhpLs

/-- A call of a method of the visitor. -/
inductive Call (T : Type) where
  | before (node : T) (at_ : List Nat) (parent : NodeId)
  | visit (node : T) (at_ : List Nat) (parent : NodeId) (answer : NextAction)
  | after (node : T) (at_ : List Nat) (parent : NodeId)
deriving DecidableEq, Repr

namespace Call

variable {T : Type}

/-- The address of the node the call was made for. -/
def addr : Call T → List Nat
  | before _ p _ => p
  | visit _ p _ _ => p
  | after _ p _ => p

/-- The node the call was made for. -/
def node : Call T → T
  | before n _ _ => n
  | visit n _ _ _ => n
  | after n _ _ => n

end Call

/-- The children, with their addresses. -/
def addressed {T : Type} (kids : T → List T) (x : T × List Nat) : List (T × List Nat) :=
  (kids x.1).zipIdx.map fun c => (c.1, x.2 ++ [c.2])

/-- The visitor that also writes down the calls. -/
def Visitor.logged {T σ : Type} (v : Visitor T σ) : Visitor (T × List Nat) (σ × List (Call T)) where
  before x parent s := do
    let s' ← v.before x.1 parent s.1
    pure (s', s.2 ++ [.before x.1 x.2 parent])
  visit x parent s := do
    let r ← v.visit x.1 parent s.1
    pure (r.1, (r.2, s.2 ++ [.visit x.1 x.2 parent r.1]))
  after x parent s := do
    let s' ← v.after x.1 parent s.1
    pure (s', s.2 ++ [.after x.1 x.2 parent])

/-- The node at an address. -/
def nodeAt {T : Type} (kids : T → List T) (n : T) : List Nat → Option T
  | [] => some n
  | i :: p => (kids n)[i]? >>= fun c => nodeAt kids c p

/-- An order of addresses: `p` comes before `q` if it is above `q` or, where they part, further to the left. -/
def addrBefore : List Nat → List Nat → Prop
  | [], [] => False
  | [], _ :: _ => True
  | _ :: _, [] => False
  | i :: p, j :: q => i < j ∨ (i = j ∧ addrBefore p q)

section

variable {T σ : Type} {kids : T → List T} {v : Visitor T σ}

mutual

/-- The calls for a node and all that is below it. -/
inductive Walk (kids : T → List T) : T → List Nat → NodeId → List (Call T) → Prop where
  | abort (n : T) (p : List Nat) (par : NodeId) :
      Walk kids n p par [.before n p par, .visit n p par .abort, .after n p par]
  | go (n : T) (p : List Nat) (par next : NodeId) (l : List (Call T)) : WalkAll kids (kids n) p 0 next l →
      Walk kids n p par (.before n p par :: .visit n p par (.processChildren next) :: (l ++ [.after n p par]))

/-- The calls for some children, from the one at the position `i` on. -/
inductive WalkAll (kids : T → List T) : List T → List Nat → Nat → NodeId → List (Call T) → Prop where
  | nil (p : List Nat) (i : Nat) (par : NodeId) : WalkAll kids [] p i par []
  | cons (c : T) (r : List T) (p : List Nat) (i : Nat) (par : NodeId) (l m : List (Call T)) :
      Walk kids c (p ++ [i]) par l → WalkAll kids r p (i + 1) par m → WalkAll kids (c :: r) p i par (l ++ m)

end

/-- A run of the logging visitor on all of some children. -/
private theorem logged_all {fuel : Nat}
    (ih : ∀ n p par s log s' log', traverse (addressed kids) v.logged fuel (n, p) par (s, log) = .ok (s', log') →
      ∃ l, log' = log ++ l ∧ Walk kids n p par l) (cs : List T) :
    ∀ p i par s log s' log', ((cs.zipIdx i).map fun c => (c.1, p ++ [c.2])).foldlM
        (fun s c => traverse (addressed kids) v.logged fuel c par s) (s, log) = Out.ok (s', log') →
      ∃ l, log' = log ++ l ∧ WalkAll kids cs p i par l := by
  induction cs with
  | nil =>
    intro p i par s log s' log' h
    simp at h
    exact ⟨[], by simp [h.2], .nil p i par⟩
  | cons c r ihr =>
    intro p i par s log s' log' h
    simp only [List.zipIdx_cons, List.map_cons, List.foldlM_cons] at h
    obtain ⟨⟨s1, log1⟩, h1, h2⟩ := Out.bind_eq_ok h
    obtain ⟨l, rfl, hl⟩ := ih _ _ _ _ _ _ _ h1
    obtain ⟨m, rfl, hm⟩ := ihr _ _ _ _ _ _ _ h2
    exact ⟨l ++ m, by simp, .cons _ _ _ _ _ _ _ hl hm⟩

/-- The calls written down are those of `Walk`. -/
private theorem logged_walk : ∀ (fuel : Nat) (n : T) (p : List Nat) (par : NodeId) (s : σ) (log : List (Call T)) (s' : σ)
    (log' : List (Call T)), traverse (addressed kids) v.logged fuel (n, p) par (s, log) = .ok (s', log') →
      ∃ l, log' = log ++ l ∧ Walk kids n p par l
  | 0, _, _, _, _, _, _, _, h => by cases h
  | fuel + 1, n, p, par, s, log, s', log', h => by
    unfold traverse at h
    obtain ⟨⟨s1, log1⟩, h1, h⟩ := Out.bind_eq_ok h
    obtain ⟨⟨act, s2, log2⟩, h2, h⟩ := Out.bind_eq_ok h
    obtain ⟨⟨s3, log3⟩, h3, h4⟩ := Out.bind_eq_ok h
    obtain ⟨s1', _, h1⟩ := Out.bind_eq_ok h1
    obtain ⟨⟨act', s2'⟩, _, h5⟩ := Out.bind_eq_ok h2; clear h2
    obtain ⟨s4', _, h4⟩ := Out.bind_eq_ok h4
    simp at h1 h5 h4
    obtain ⟨rfl, rfl⟩ := h1
    obtain ⟨rfl, rfl, rfl⟩ := h5
    obtain ⟨rfl, rfl⟩ := h4
    cases act' with
    | abort =>
      simp at h3
      obtain ⟨rfl, rfl⟩ := h3
      exact ⟨_, by simp, .abort n p par⟩
    | processChildren next =>
      obtain ⟨l, rfl, hl⟩ := logged_all (logged_walk fuel) (kids n) p 0 next _ _ _ _ h3
      exact ⟨_, by simp, .go n p par next l hl⟩


private theorem walk_addr {n : T} {p : List Nat} {par : NodeId} {l : List (Call T)} (h : Walk kids n p par l) :
    ∀ c ∈ l, ∃ q, c.addr = p ++ q ∧ nodeAt kids n q = some c.node := by
  refine Walk.rec (kids := kids) (motive_1 := fun n p _ l _ => ∀ c ∈ l, ∃ q, c.addr = p ++ q ∧ nodeAt kids n q = some c.node)
    (motive_2 := fun cs p i _ l _ => ∀ c ∈ l, ∃ j q, c.addr = p ++ (i + j) :: q ∧
      (cs[j]? >>= fun k => nodeAt kids k q) = some c.node) ?_ ?_ ?_ ?_ h
  · intro n p par c hc
    refine ⟨[], ?_⟩
    simp at hc
    rcases hc with rfl | rfl | rfl <;> simp [Call.addr, Call.node, nodeAt]
  · intro n p par next l _ ih c hc
    simp at hc
    rcases hc with rfl | rfl | hc | rfl
    · exact ⟨[], by simp [Call.addr, Call.node, nodeAt]⟩
    · exact ⟨[], by simp [Call.addr, Call.node, nodeAt]⟩
    · obtain ⟨j, q, h1, h2⟩ := ih c hc
      exact ⟨_, by simpa using h1, by simpa [nodeAt] using h2⟩
    · exact ⟨[], by simp [Call.addr, Call.node, nodeAt]⟩
  · intro p i par c hc
    simp at hc
  · intro c r p i par l m _ _ ih1 ih2 k hk
    rcases List.mem_append.1 hk with hk | hk
    · obtain ⟨q, h1, h2⟩ := ih1 k hk
      exact ⟨0, q, by simpa using h1, by simpa using h2⟩
    · obtain ⟨j, q, h1, h2⟩ := ih2 k hk
      exact ⟨j + 1, q, by rw [h1]; congr 2; omega, by simpa using h2⟩

private theorem walkAll_addr {cs : List T} {p : List Nat} {i : Nat} {par : NodeId} {l : List (Call T)}
    (h : WalkAll kids cs p i par l) : ∀ c ∈ l, ∃ j q, c.addr = p ++ (i + j) :: q ∧ j < cs.length := by
  induction cs generalizing i l with
  | nil => cases h; simp
  | cons c r ih =>
    cases h with
    | cons _ _ _ _ _ l m h1 h2 =>
      intro k hk
      rcases List.mem_append.1 hk with hk | hk
      · obtain ⟨q, h3, _⟩ := walk_addr h1 k hk
        exact ⟨0, q, by simpa using h3, by simp⟩
      · obtain ⟨j, q, h3, h4⟩ := ih h2 k hk
        exact ⟨j + 1, q, by rw [h3]; congr 2; omega, by simpa using h4⟩

/-- In the list of calls, those for the node at `a` are one `before`, at once followed by one `visit`, and one `after`; the
calls between them are exactly the calls for nodes below. -/
def Nested (l : List (Call T)) (a : List Nat) : Prop :=
  ∃ pre n par act mid post, l = pre ++ .before n a par :: .visit n a par act :: (mid ++ .after n a par :: post) ∧
    (∀ c ∈ mid, a <+: c.addr ∧ c.addr ≠ a) ∧ ∀ c ∈ pre ++ post, ¬ a <+: c.addr

private theorem Nested.embed {l : List (Call T)} {a : List Nat} (h : Nested l a) {x y : List (Call T)}
    (hx : ∀ c ∈ x, ¬ a <+: c.addr) (hy : ∀ c ∈ y, ¬ a <+: c.addr) : Nested (x ++ l ++ y) a := by
  obtain ⟨pre, n, par, act, mid, post, rfl, h1, h2⟩ := h
  refine ⟨x ++ pre, n, par, act, mid, post ++ y, by simp, h1, ?_⟩
  intro c hc
  simp only [List.mem_append] at hc h2
  rcases hc with (hc | hc) | hc | hc
  · exact hx c hc
  · exact h2 c (.inl hc)
  · exact h2 c (.inr hc)
  · exact hy c hc

private theorem prefix_apart {p a b : List Nat} {i j : Nat} {x : List Nat} (hij : i ≠ j) (hb : b = p ++ j :: x)
    (ha : ∃ q, a = p ++ i :: q) : ¬ a <+: b := by
  obtain ⟨q, rfl⟩ := ha
  rw [hb, List.prefix_append_right_inj]
  intro h
  exact hij (List.cons_prefix_cons.1 h).1

private theorem not_below_self {p q : List Nat} {i : Nat} : ¬ p ++ i :: q <+: p := by
  intro h
  have := h.length_le
  simp at this
  omega

private theorem walk_nested {n : T} {p : List Nat} {par : NodeId} {l : List (Call T)} (h : Walk kids n p par l) :
    ∀ c ∈ l, Nested l c.addr := by
  refine Walk.rec (kids := kids) (motive_1 := fun n p par l _ => ∀ c ∈ l, Nested l c.addr)
    (motive_2 := fun cs p i par l _ => ∀ c ∈ l, Nested l c.addr) ?_ ?_ ?_ ?_ h
  · intro n p par c hc
    have : c.addr = p := by
      simp at hc
      rcases hc with rfl | rfl | rfl <;> rfl
    rw [this]
    exact ⟨[], n, par, .abort, [], [], rfl, by simp, by simp⟩
  · intro n p par next l hl ih c hc
    by_cases he : c.addr = p
    · rw [he]
      refine ⟨[], n, par, .processChildren next, l, [], by simp, ?_, by simp⟩
      intro k hk
      obtain ⟨j, q, h1, _⟩ := walkAll_addr hl k hk
      rw [h1]
      exact ⟨List.prefix_append _ _, by simp⟩
    · have hcl : c ∈ l := by
        simp at hc
        rcases hc with rfl | rfl | hc | rfl
        · exact absurd rfl he
        · exact absurd rfl he
        · exact hc
        · exact absurd rfl he
      obtain ⟨j, q, h1, _⟩ := walkAll_addr hl c hcl
      have := (ih c hcl).embed (x := [.before n p par, .visit n p par (.processChildren next)]) (y := [.after n p par])
        (by
          intro k hk
          have : k.addr = p := by
            simp at hk
            rcases hk with rfl | rfl <;> rfl
          rw [this, h1]
          exact not_below_self)
        (by
          intro k hk
          simp at hk
          rw [hk, h1]
          exact not_below_self)
      simpa using this
  · intro p i par c hc
    simp at hc
  · intro c r p i par l m hl hm ih1 ih2 k hk
    rcases List.mem_append.1 hk with hk | hk
    · obtain ⟨q, h1, _⟩ := walk_addr hl k hk
      have := (ih1 k hk).embed (x := []) (y := m) (by simp) (by
        intro k' hk'
        obtain ⟨j', q', h2, _⟩ := walkAll_addr hm k' hk'
        exact prefix_apart (i := i) (j := i + 1 + j') (by omega) h2 ⟨q, by rw [h1]; simp⟩)
      simpa using this
    · obtain ⟨j, q, h1, _⟩ := walkAll_addr hm k hk
      have := (ih2 k hk).embed (x := l) (y := []) (by
        intro k' hk'
        obtain ⟨q', h2, _⟩ := walk_addr hl k' hk'
        exact prefix_apart (i := i + 1 + j) (j := i) (by omega) (by rw [h2]; simp; rfl) ⟨q, h1⟩) (by simp)
      simpa using this

/-- The addresses for which `before` was called, in the order of the calls. -/
def entered : List (Call T) → List (List Nat)
  | [] => []
  | .before _ a _ :: l => a :: entered l
  | _ :: l => entered l

private theorem entered_append (l m : List (Call T)) : entered (l ++ m) = entered l ++ entered m := by
  induction l with
  | nil => rfl
  | cons c l ih => cases c <;> simp [entered, ih]

private theorem mem_entered {l : List (Call T)} {a : List Nat} (h : a ∈ entered l) : ∃ c ∈ l, c.addr = a := by
  induction l with
  | nil => simp [entered] at h
  | cons c l ih =>
    cases c with
    | before n b par =>
      simp [entered] at h
      rcases h with rfl | h
      · exact ⟨_, List.mem_cons_self, rfl⟩
      · obtain ⟨c, h1, h2⟩ := ih h
        exact ⟨c, List.mem_cons_of_mem _ h1, h2⟩
    | visit n b par act =>
      obtain ⟨c, h1, h2⟩ := ih h
      exact ⟨c, List.mem_cons_of_mem _ h1, h2⟩
    | after n b par =>
      obtain ⟨c, h1, h2⟩ := ih h
      exact ⟨c, List.mem_cons_of_mem _ h1, h2⟩

private theorem addrBefore_append (p : List Nat) {a b : List Nat} (h : addrBefore a b) : addrBefore (p ++ a) (p ++ b) := by
  induction p with
  | nil => exact h
  | cons i p ih => exact .inr ⟨rfl, ih⟩

private theorem walk_order {n : T} {p : List Nat} {par : NodeId} {l : List (Call T)} (h : Walk kids n p par l) :
    (entered l).Pairwise addrBefore := by
  refine Walk.rec (kids := kids) (motive_1 := fun n p par l _ => (entered l).Pairwise addrBefore)
    (motive_2 := fun cs p i par l _ => (entered l).Pairwise addrBefore) ?_ ?_ ?_ ?_ h
  · intro n p par
    simp [entered]
  · intro n p par next l hl ih
    simp only [entered, entered_append, List.append_nil, List.pairwise_cons]
    refine ⟨?_, ih⟩
    intro a ha
    obtain ⟨c, hc, rfl⟩ := mem_entered ha
    obtain ⟨j, q, h1, _⟩ := walkAll_addr hl c hc
    rw [h1]
    have := addrBefore_append p (a := []) (b := (0 + j) :: q) trivial
    simpa using this
  · intro p i par
    simp [entered]
  · intro c r p i par l m hl hm ih1 ih2
    rw [entered_append, List.pairwise_append]
    refine ⟨ih1, ih2, ?_⟩
    intro a ha b hb
    obtain ⟨c, hc, rfl⟩ := mem_entered ha
    obtain ⟨d, hd, rfl⟩ := mem_entered hb
    obtain ⟨q, h1, _⟩ := walk_addr hl c hc
    obtain ⟨j, q', h2, _⟩ := walkAll_addr hm d hd
    rw [h1, h2, List.append_assoc]
    exact addrBefore_append p (.inl (by omega))

/-- The parent that a call was made with. -/
def Call.parent : Call T → NodeId
  | .before _ _ par => par
  | .visit _ _ par _ => par
  | .after _ _ par => par

/-- Calls for the child at position `i` of the node at `a`, visited with the answer `act`: there are some exactly if the answer
is to go on and there is such a child, and they all get the parent the answer names. -/
def Descends (kids : T → List T) (l : List (Call T)) (n : T) (a : List Nat) (act : NextAction) (i : Nat) : Prop :=
  ((∃ c ∈ l, c.addr = a ++ [i]) ↔ (∃ next, act = .processChildren next) ∧ i < (kids n).length) ∧
  ∀ c ∈ l, c.addr = a ++ [i] → act = .processChildren c.parent

private theorem walk_head {n : T} {p : List Nat} {par : NodeId} {l : List (Call T)} (h : Walk kids n p par l) :
    (∃ c ∈ l, c.addr = p) ∧ ∀ c ∈ l, c.addr = p → c.parent = par := by
  cases h with
  | abort =>
    refine ⟨⟨_, List.mem_cons_self, rfl⟩, ?_⟩
    intro c hc _
    simp at hc
    rcases hc with rfl | rfl | rfl <;> rfl
  | go _ _ _ next l hl =>
    refine ⟨⟨_, List.mem_cons_self, rfl⟩, ?_⟩
    intro c hc he
    simp at hc
    rcases hc with rfl | rfl | hc | rfl
    · rfl
    · rfl
    · obtain ⟨j, q, h1, _⟩ := walkAll_addr hl c hc
      rw [he] at h1
      simp at h1
    · rfl

private theorem walkAll_heads {cs : List T} {p : List Nat} {i : Nat} {par : NodeId} {l : List (Call T)}
    (h : WalkAll kids cs p i par l) (j : Nat) :
    ((∃ c ∈ l, c.addr = p ++ [i + j]) ↔ j < cs.length) ∧ ∀ c ∈ l, c.addr = p ++ [i + j] → c.parent = par := by
  induction cs generalizing i j l with
  | nil => cases h; simp
  | cons c r ih =>
    cases h with
    | cons _ _ _ _ _ l m h1 h2 =>
      have hh := walk_head h1
      cases j with
      | zero =>
        refine ⟨⟨fun _ => by simp, fun _ => ?_⟩, ?_⟩
        · obtain ⟨k, hk, he⟩ := hh.1
          exact ⟨k, by simp [hk], he⟩
        · intro k hk he
          rcases List.mem_append.1 hk with hk | hk
          · exact hh.2 k hk he
          · obtain ⟨j', q, h3, _⟩ := walkAll_addr h2 k hk
            rw [he] at h3
            simp at h3
            omega
      | succ j =>
        have hl : ∀ k ∈ l, k.addr ≠ p ++ [i + (j + 1)] := by
          intro k hk he
          obtain ⟨q, h3, _⟩ := walk_addr h1 k hk
          rw [he, List.append_assoc] at h3
          have := (List.append_cancel_left h3)
          simp at this
        have e : i + (j + 1) = i + 1 + j := by omega
        have hm := ih h2 j
        rw [e] at hl ⊢
        refine ⟨⟨?_, ?_⟩, ?_⟩
        · rintro ⟨k, hk, he⟩
          rcases List.mem_append.1 hk with hk | hk
          · exact absurd he (hl k hk)
          · have := hm.1.1 ⟨k, hk, he⟩
            simpa using this
        · intro hj
          obtain ⟨k, hk, he⟩ := hm.1.2 (by simpa using hj)
          exact ⟨k, by simp [hk], he⟩
        · intro k hk he
          rcases List.mem_append.1 hk with hk | hk
          · exact absurd he (hl k hk)
          · exact hm.2 k hk he

private theorem Descends.embed {l : List (Call T)} {n : T} {a : List Nat} {act : NextAction} {i : Nat}
    (h : Descends kids l n a act i) {x y : List (Call T)} (hx : ∀ c ∈ x, ¬ a ++ [i] <+: c.addr)
    (hy : ∀ c ∈ y, ¬ a ++ [i] <+: c.addr) : Descends kids (x ++ l ++ y) n a act i := by
  have key : ∀ c ∈ x ++ l ++ y, c.addr = a ++ [i] → c ∈ l := by
    intro c hc he
    simp only [List.mem_append] at hc
    rcases hc with (hc | hc) | hc
    · exact absurd (he ▸ List.prefix_rfl) (hx c hc)
    · exact hc
    · exact absurd (he ▸ List.prefix_rfl) (hy c hc)
  refine ⟨⟨?_, ?_⟩, ?_⟩
  · rintro ⟨c, hc, he⟩
    exact h.1.1 ⟨c, key c hc he, he⟩
  · intro hh
    obtain ⟨c, hc, he⟩ := h.1.2 hh
    exact ⟨c, by simp [hc], he⟩
  · intro c hc he
    exact h.2 c (key c hc he) he

private theorem walk_descends {n : T} {p : List Nat} {par : NodeId} {l : List (Call T)} (h : Walk kids n p par l) :
    ∀ m a r act, .visit m a r act ∈ l → ∀ i, Descends kids l m a act i := by
  refine Walk.rec (kids := kids)
    (motive_1 := fun n p par l _ => ∀ m a r act, .visit m a r act ∈ l → ∀ i, Descends kids l m a act i)
    (motive_2 := fun cs p i par l _ => ∀ m a r act, .visit m a r act ∈ l → ∀ i, Descends kids l m a act i) ?_ ?_ ?_ ?_ h
  · intro n p par m a r act hc i
    simp at hc
    obtain ⟨rfl, rfl, rfl, rfl⟩ := hc
    simp [Descends, Call.addr]
  · intro n p par next l hl ih m a r act hc i
    simp at hc
    rcases hc with ⟨rfl, rfl, rfl, rfl⟩ | hc
    · have hh := walkAll_heads hl i
      have key : ∀ c ∈ (.before m a r :: .visit m a r (.processChildren next) :: (l ++ [.after m a r])),
          c.addr = a ++ [i] → c ∈ l := by
        intro c hc he
        simp at hc
        rcases hc with rfl | rfl | hc | rfl
        · simp [Call.addr] at he
        · simp [Call.addr] at he
        · exact hc
        · simp [Call.addr] at he
      rw [Nat.zero_add] at hh
      refine ⟨⟨?_, ?_⟩, ?_⟩
      · rintro ⟨c, hc, he⟩
        exact ⟨⟨next, rfl⟩, hh.1.1 ⟨c, key c hc he, he⟩⟩
      · rintro ⟨_, hi⟩
        obtain ⟨c, hc, he⟩ := hh.1.2 hi
        exact ⟨c, by simp [hc], he⟩
      · intro c hc he
        rw [hh.2 c (key c hc he) he]
    · obtain ⟨j, q, h1, _⟩ := walkAll_addr hl _ hc
      simp only [Call.addr] at h1
      have := (ih m a r act hc i).embed (x := [.before n p par, .visit n p par (.processChildren next)])
        (y := [.after n p par])
        (by
          intro k hk
          have : k.addr = p := by
            simp at hk
            rcases hk with rfl | rfl <;> rfl
          rw [this, h1, List.append_assoc]
          exact not_below_self)
        (by
          intro k hk
          simp at hk
          rw [hk, h1, List.append_assoc]
          exact not_below_self)
      simpa using this
  · intro p i par m a r act hc
    simp at hc
  · intro c r p i par l m hl hm ih1 ih2 m' a r' act hk i'
    rcases List.mem_append.1 hk with hk | hk
    · obtain ⟨q, h1, _⟩ := walk_addr hl _ hk
      have := (ih1 _ _ _ _ hk i').embed (x := []) (y := m) (by simp) (by
        intro k' hk'
        obtain ⟨j', q', h2, _⟩ := walkAll_addr hm k' hk'
        simp only [Call.addr] at h1
        exact prefix_apart (i := i) (j := i + 1 + j') (by omega) h2 ⟨q ++ [i'], by rw [h1]; simp⟩)
      simpa using this
    · obtain ⟨j, q, h1, _⟩ := walkAll_addr hm _ hk
      have := (ih2 _ _ _ _ hk i').embed (x := l) (y := []) (by
        intro k' hk'
        obtain ⟨q', h2, _⟩ := walk_addr hl k' hk'
        simp only [Call.addr] at h1
        exact prefix_apart (i := i + 1 + j) (j := i) (by omega) (by rw [h2]; simp; rfl) ⟨q ++ [i'], by rw [h1]; simp⟩)
        (by simp)
      simpa using this

/-! ## The theorems -/

/-- The calls that the traversal of `n` makes if it does not crash. -/
def Calls (kids : T → List T) (v : Visitor T σ) (fuel : Nat) (n : T) (parent : NodeId) (s : σ) (l : List (Call T)) : Prop :=
  ∃ s', traverse (addressed kids) v.logged fuel (n, []) parent (s, []) = .ok (s', l)

/-- C33.  For every tree and every visitor: the calls for a node are `before`, at once `visit`, then the calls for nodes below
it, then `after`; no other call is made for it or for a node below it.  So the calls are properly nested and each node (each
place in the tree) is visited at most once. -/
theorem C33_nested {fuel : Nat} {n : T} {parent : NodeId} {s : σ} {l : List (Call T)} (h : Calls kids v fuel n parent s l) :
    ∀ c ∈ l, Nested l c.addr := by
  obtain ⟨s', h⟩ := h
  obtain ⟨m, h1, h2⟩ := logged_walk _ _ _ _ _ _ _ _ h
  simp at h1
  exact h1 ▸ walk_nested h2

/-- C33.  The calls are for nodes of the tree: the one at the address. -/
theorem C33_nodes {fuel : Nat} {n : T} {parent : NodeId} {s : σ} {l : List (Call T)} (h : Calls kids v fuel n parent s l) :
    ∀ c ∈ l, nodeAt kids n c.addr = some c.node := by
  obtain ⟨s', h⟩ := h
  obtain ⟨m, h1, h2⟩ := logged_walk _ _ _ _ _ _ _ _ h
  simp at h1
  subst h1
  intro c hc
  obtain ⟨q, h3, h4⟩ := walk_addr h2 c hc
  simp at h3
  exact h3 ▸ h4

/-- C33.  The root is visited, and the traversal descends exactly when the visitor asks for it: for a node visited, there are
calls for its `i`-th child if and only if the visitor answered to process the children and there is such a child; these calls
get the parent that the visitor named. -/
theorem C33_descends {fuel : Nat} {n : T} {parent : NodeId} {s : σ} {l : List (Call T)} (h : Calls kids v fuel n parent s l) :
    (∃ act, .visit n [] parent act ∈ l) ∧ ∀ m a r act, .visit m a r act ∈ l → ∀ i, Descends kids l m a act i := by
  obtain ⟨s', h⟩ := h
  obtain ⟨m, h1, h2⟩ := logged_walk _ _ _ _ _ _ _ _ h
  simp at h1
  subst h1
  refine ⟨?_, walk_descends h2⟩
  cases h2 with
  | abort => exact ⟨.abort, by simp⟩
  | go _ _ _ next l' _ => exact ⟨.processChildren next, by simp⟩

/-- C33.  The nodes are entered in source order: a node before those below it, and all below a child before the next child. -/
theorem C33_order {fuel : Nat} {n : T} {parent : NodeId} {s : σ} {l : List (Call T)} (h : Calls kids v fuel n parent s l) :
    (entered l).Pairwise addrBefore := by
  obtain ⟨s', h⟩ := h
  obtain ⟨m, h1, h2⟩ := logged_walk _ _ _ _ _ _ _ _ h
  simp at h1
  exact h1 ▸ walk_order h2

/-- Forget the log. -/
private def forget (o : Out (σ × List (Call T))) : Out σ := o >>= fun x => pure x.1

private theorem forget_bind {α : Type} (x : Out α) (f : α → Out (σ × List (Call T))) :
    forget (x >>= f) = x >>= fun a => forget (f a) := by
  cases x <;> rfl

private theorem same_all {fuel : Nat}
    (ih : ∀ n p par (s : σ) log, forget (traverse (addressed kids) v.logged fuel (n, p) par (s, log)) =
      traverse kids v fuel n par s) (p : List Nat) (par : NodeId) : ∀ (cs : List T) (i : Nat) (s : σ) (log : List (Call T)),
    forget (((cs.zipIdx i).map fun c => (c.1, p ++ [c.2])).foldlM
      (fun s c => traverse (addressed kids) v.logged fuel c par s) (s, log)) =
      cs.foldlM (fun s c => traverse kids v fuel c par s) s
  | [], _, _, _ => rfl
  | c :: r, i, s, log => by
    simp only [List.zipIdx_cons, List.map_cons, List.foldlM_cons]
    rw [forget_bind, ← ih c (p ++ [i]) par s log]
    generalize traverse (addressed kids) v.logged fuel (c, p ++ [i]) par (s, log) = x
    cases x with
    | ok a => exact same_all ih p par r (i + 1) a.1 a.2
    | panic => rfl
    | deep => rfl

private theorem same (fuel : Nat) : ∀ (n : T) (p : List Nat) (par : NodeId) (s : σ) (log : List (Call T)),
    forget (traverse (addressed kids) v.logged fuel (n, p) par (s, log)) = traverse kids v fuel n par s := by
  induction fuel with
  | zero => intros; rfl
  | succ fuel ih =>
    intro n p par s log
    have hall := fun next => same_all ih p next (kids n) 0
    simp only [traverse, addressed]
    generalize traverse (addressed kids) v.logged fuel = tr at hall ⊢
    simp only [Visitor.logged]
    cases v.before n par s with
    | panic => rfl
    | deep => rfl
    | ok s1 =>
      simp only [Out.bind_ok, Out.pure_eq]
      cases v.visit n par s1 with
      | panic => rfl
      | deep => rfl
      | ok r =>
        obtain ⟨act, s2⟩ := r
        simp only [Out.bind_ok]
        cases act with
        | abort =>
          simp only [Out.bind_ok]
          cases v.after n par s2 <;> rfl
        | processChildren next =>
          have := hall next s2 (log ++ [.before n p par] ++ [.visit n p par (.processChildren next)])
          simp only [← this]
          generalize (List.foldlM _ _ _ : Out (σ × List (Call T))) = x
          cases x with
          | panic => rfl
          | deep => rfl
          | ok y =>
            obtain ⟨s3, log3⟩ := y
            simp only [Out.bind_ok, forget, Out.pure_eq]
            cases v.after n par s3 <;> rfl

/-- C33.  Writing the calls down changes nothing: the traversal gives the same result, or crashes or does not end alike. -/
theorem C33_same (fuel : Nat) (n : T) (parent : NodeId) (s : σ) :
    (traverse (addressed kids) v.logged fuel (n, []) parent (s, []) >>= fun x => pure x.1) = traverse kids v fuel n parent s :=
  same fuel n [] parent s []

end

/-! ## Ending -/

private theorem mem_lt {c : Node} {l : List Node} (h : c ∈ l) : sizeOf c < sizeOf l := List.sizeOf_lt_of_mem h

private theorem mem_toList_lt {c : Node} {o : Option Node} (h : c ∈ o.toList) : sizeOf c < sizeOf o := by
  cases o with
  | none => simp at h
  | some d => simp at h; subst h; simp

private theorem mem_getD_lt {c : Node} {o : Option (List Node)} (h : c ∈ o.getD []) : sizeOf c < sizeOf o := by
  cases o with
  | none => simp at h
  | some l => have := mem_lt (show c ∈ l from h); simp; omega

private theorem mem_filterMap_lt {c : Node} {l : List (Option Node)} (h : c ∈ l.filterMap id) : sizeOf c < sizeOf l := by
  simp at h
  have := List.sizeOf_lt_of_mem h
  simp at this
  omega

set_option maxHeartbeats 4000000 in
/-- A child is smaller than its parent. -/
theorem children_lt (n c : Node) (h : c ∈ n.children) : sizeOf c < sizeOf n := by
  induction hk : sizeOf n using Nat.strongRecOn generalizing n with
  | ind k ih =>
    subst hk
    cases n
    case dieStatement a b e d =>
      cases e with
      | none => simp [Node.children, Node.childrenO] at h
      | some e =>
        have := ih (sizeOf e) (by simp; omega) e (by simpa [Node.children, Node.childrenO] using h) rfl
        simp
        omega
    all_goals
      simp only [Node.children, List.mem_append, List.mem_cons, List.not_mem_nil, or_false] at h
    all_goals
      repeat' (with_reducible refine Or.elim h (fun h => ?_) (fun h => ?_))
    all_goals first
      | (with_reducible have := mem_toList_lt h); simp; omega
      | (with_reducible have := mem_getD_lt h); simp; omega
      | (with_reducible have := mem_filterMap_lt h); simp; omega
      | (with_reducible have := mem_lt h); simp; omega
      | subst h; simp <;> omega

/-- The visitor itself ends on every node. -/
def Visitor.Ends {T σ : Type} (v : Visitor T σ) : Prop :=
  (∀ n p s, v.before n p s ≠ .deep) ∧ (∀ n p s, v.visit n p s ≠ .deep) ∧ ∀ n p s, v.after n p s ≠ .deep

private theorem foldlM_ne_deep {α σ : Type} (f : σ → α → Out σ) : ∀ (l : List α) (s : σ), (∀ a ∈ l, ∀ s, f s a ≠ .deep) →
    l.foldlM f s ≠ .deep
  | [], _, _ => by simp
  | a :: l, s, h => by
    rw [List.foldlM_cons]
    cases hf : f s a with
    | ok s' => exact foldlM_ne_deep f l s' fun b hb => h b (List.mem_cons_of_mem _ hb)
    | panic => simp
    | deep => exact absurd hf (h a List.mem_cons_self s)

/-- C33.  The traversal of every syntax tree ends if the visitor does: a bound of the size of the tree is enough. -/
theorem C33_ends {σ : Type} {v : Visitor Node σ} (hv : v.Ends) (fuel : Nat) : ∀ (n : Node) (parent : NodeId) (s : σ),
    sizeOf n < fuel → traverse Node.children v fuel n parent s ≠ .deep := by
  induction fuel with
  | zero => intro n _ _ h; omega
  | succ fuel ih =>
    intro n parent s h
    simp only [traverse]
    have hb := hv.1 n parent s
    cases hx : v.before n parent s with
    | deep => exact absurd hx hb
    | panic => simp
    | ok s1 =>
      simp only [Out.bind_ok]
      have hb := hv.2.1 n parent s1
      cases hx : v.visit n parent s1 with
      | deep => exact absurd hx hb
      | panic => simp
      | ok r =>
        obtain ⟨act, s2⟩ := r
        simp only [Out.bind_ok]
        cases act with
        | abort => simpa using hv.2.2 n parent s2
        | processChildren next =>
          have key : List.foldlM (fun s c => traverse Node.children v fuel c next s) s2 n.children ≠ Out.deep := by
            refine foldlM_ne_deep _ _ _ ?_
            intro c hc s'
            refine ih c next s' ?_
            have := children_lt n c hc
            omega
          simp only
          cases hx : List.foldlM (fun s c => traverse Node.children v fuel c next s) s2 n.children with
          | deep => exact absurd hx key
          | panic => simp
          | ok s3 => exact hv.2.2 n parent s3

/-! ## Example

A visitor that counts, does not go below calls, and gives the children of a binary expression another parent. -/

private def exampleVisitor : Visitor Node Nat where
  before _ _ s := .ok (s + 1)
  visit n p s := match n with
    | .call .. => .ok (.abort, s)
    | .binary .. => .ok (.processChildren ⟨7, 0⟩, s)
    | _ => .ok (.processChildren p, s)
  after _ _ s := .ok s

private def lit (c : Nat) : Node := .literal { t := .longNumber, col := c, line := 0, label := some ['1'], offset := none }

private def exampleTree : Node :=
  let t := fun ty c => ({ t := ty, col := c, line := 0, label := none, offset := none } : Token)
  .binary (.call (lit 0) (t .openParenthesis 1) [lit 2] (t .closeParenthesis 3)) (t .plus 4) (.unary (lit 6) (t .minus 5))

example : exampleVisitor.Ends := by
  refine ⟨fun _ _ _ => by simp [exampleVisitor], fun n _ _ => ?_, fun _ _ _ => by simp [exampleVisitor]⟩
  unfold exampleVisitor
  cases n <;> simp

example : ∃ l, Calls Node.children exampleVisitor 4 exampleTree ⟨0, 0⟩ 0 l ∧ entered l = [[], [0], [1], [1, 0]] ∧
    l.length = 12 :=
  ⟨_, ⟨_, rfl⟩, rfl, rfl⟩

end PhpLs
