import Verif.Backend
import Verif.ArenaTree

/-!
# What the visitor that collects symbols changes

`Grow a0 r a`: the arena `a` comes from `a0` by adding symbols below `r` or below other new symbols; what was there keeps its
place, its kind and its name.
-/

namespace PhpLs

/-- A symbol keeps what identifies it. -/
structure Symbol.Same (v w : Symbol) : Prop where
  kind : w.kind = v.kind
  name : w.name = v.name
  ns : w.namespace = v.namespace
  range : w.range = v.range
  selection : w.selectionRange = v.selectionRange

namespace Symbol.Same

theorem refl (v : Symbol) : Same v v := ⟨rfl, rfl, rfl, rfl, rfl⟩

theorem trans {u v w : Symbol} (h : Same u v) (h' : Same v w) : Same u w :=
  ⟨h'.kind.trans h.kind, h'.name.trans h.name, h'.ns.trans h.ns, h'.range.trans h.range, h'.selection.trans h.selection⟩

theorem plainName {v w : Symbol} (h : Same v w) : w.plainName = v.plainName := by
  unfold Symbol.plainName
  rw [h.name]

theorem fqdn {v w : Symbol} (h : Same v w) : w.fqdn = v.fqdn := by
  unfold Symbol.fqdn
  rw [h.ns, h.plainName]

end Symbol.Same

/-- The roots are the files. -/
def Rooted (a : Arena Symbol) : Prop := ∀ i v p, a.Has i v p → (v.kind = .file ↔ p = none)

/-- The nodes that may get children. -/
def Inside (a0 : Arena Symbol) (r q : NodeId) : Prop := q = r ∨ ¬ a0.Live q

structure Grow (a0 : Arena Symbol) (r : NodeId) (a : Arena Symbol) : Prop where
  ok : a.Ok
  keep : ∀ i v p, a0.Has i v p → ∃ w, a.Has i w p ∧ Symbol.Same v w
  new : ∀ i w p, a.Has i w p →
    (∃ v, a0.Has i v p ∧ Symbol.Same v w) ∨ (¬ a0.Live i ∧ ∃ q, p = some q ∧ Inside a0 r q)
  inner : ∀ i w p, a.Has i w p → ¬ a0.Live i → w.kind ≠ .file

namespace Grow

variable {a0 : Arena Symbol} {r : NodeId}

theorem refl {a : Arena Symbol} (h : a.Ok) : Grow a r a :=
  ⟨h, fun _ v _ hi => ⟨v, hi, .refl v⟩, fun _ w _ hi => .inl ⟨w, hi, .refl w⟩, fun _ _ _ hi hn => absurd hi.live hn⟩

theorem live {a : Arena Symbol} (h : Grow a0 r a) {i : NodeId} (hi : a0.Live i) : a.Live i := by
  obtain ⟨v, p, hv⟩ := hi.has
  obtain ⟨w, hw, _⟩ := h.keep i v p hv
  exact hw.live

theorem modify {a : Arena Symbol} (h : Grow a0 r a) (t : NodeId) (f : Symbol → Symbol) (hf : ∀ v, Symbol.Same v (f v)) :
    Grow a0 r (a.modify t f) := by
  have hs : ∀ (i : NodeId) (v : Symbol), Symbol.Same v (if i.idx = t.idx then f v else v) := by
    intro i v
    split
    · exact hf v
    · exact .refl v
  refine ⟨Arena.ok_modify h.ok t f, fun i v p hi => ?_, fun i w p hi => ?_, fun i w p hi hn => ?_⟩
  · obtain ⟨w, hw, hvw⟩ := h.keep i v p hi
    exact ⟨_, (Arena.has_modify h.ok t f i _ p).2 ⟨w, hw, rfl⟩, hvw.trans (hs i w)⟩
  · obtain ⟨v, hv, rfl⟩ := (Arena.has_modify h.ok t f i w p).1 hi
    rcases h.new i v p hv with ⟨u, hu, huv⟩ | hn
    · exact .inl ⟨u, hu, huv.trans (hs i v)⟩
    · exact .inr hn
  · obtain ⟨v, hv, rfl⟩ := (Arena.has_modify h.ok t f i w p).1 hi
    rw [(hs i v).kind]
    exact h.inner i v p hv hn

theorem addChild {a : Arena Symbol} (h : Grow a0 r a) {p : NodeId} (hp : a.Live p) (hi : Inside a0 r p) (v : Symbol)
    (hv : v.kind ≠ .file) :
    Grow a0 r (a.addChild p v).2 ∧ Inside a0 r (a.addChild p v).1 ∧ (a.addChild p v).2.Live (a.addChild p v).1 := by
  obtain ⟨w, q, hw⟩ := hp.has
  have hc := Arena.has_addChild h.ok hw rfl v
  have hn : ¬ a0.Live a.fresh := by
    intro hl
    obtain ⟨u, z, hu⟩ := (h.live hl).has
    exact hu.ne_fresh h.ok rfl
  refine ⟨⟨Arena.ok_addChild h.ok ?_ v, fun i u z hu => ?_, fun i u z hu => ?_, fun i u z hu hl => ?_⟩, .inr hn, ?_⟩
  · exact Forest.mem_idxs.2 ⟨p, w, hw.flat, rfl⟩
  · obtain ⟨u', hu', e⟩ := h.keep i u z hu
    exact ⟨u', (hc i u' z).2 (.inl hu'), e⟩
  · rcases (hc i u z).1 hu with hu | ⟨rfl, rfl, rfl⟩
    · exact h.new i u z hu
    · exact .inr ⟨hn, p, rfl, hi⟩
  · rcases (hc i u z).1 hu with hu | ⟨rfl, rfl, rfl⟩
    · exact h.inner i u z hu hl
    · exact hv
  · exact ((hc a.fresh v (some p)).2 (.inr ⟨rfl, rfl, rfl⟩)).live

end Grow

theorem Arena.live_addChild {a : Arena Symbol} (ha : a.Ok) {p : NodeId} (hp : a.Live p) (v : Symbol) {i : NodeId} (hi : a.Live i) :
    (a.addChild p v).2.Live i := by
  obtain ⟨w, q, hw⟩ := hp.has
  obtain ⟨u, z, hu⟩ := hi.has
  exact ((Arena.has_addChild ha hw rfl v i u z).2 (.inl hu)).live

theorem Arena.live_modify {a : Arena Symbol} (ha : a.Ok) (t : NodeId) (f : Symbol → Symbol) {i : NodeId} (hi : a.Live i) :
    (a.modify t f).Live i := by
  unfold Arena.Live
  rw [Arena.modify_ids ha]
  exact hi

namespace Collector

open Out

variable {a0 : Arena Symbol} {r : NodeId}

/-- One step of the visitor. -/
structure Grown (a0 : Arena Symbol) (r : NodeId) (a a' : Arena Symbol) : Prop where
  grow : Grow a0 r a'
  live : ∀ i, a.Live i → a'.Live i

theorem Grown.refl {a : Arena Symbol} (h : Grow a0 r a) : Grown a0 r a a := ⟨h, fun _ h => h⟩

theorem Grown.trans {a b c : Arena Symbol} (h : Grown a0 r a b) (h' : Grown a0 r b c) : Grown a0 r a c :=
  ⟨h'.grow, fun i hi => h'.live i (h.live i hi)⟩

/-- What is known about the children's parent. -/
abbrev Fine (a0 : Arena Symbol) (r : NodeId) (a : Arena Symbol) (p : NodeId) : Prop := a.Live p ∧ Inside a0 r p

abbrev Next (a0 : Arena Symbol) (r : NodeId) (a : Arena Symbol) (p : NextAction × Collector) : Prop :=
  Grown a0 r a p.2.arena ∧ ∀ c, p.1 = .processChildren c → Fine a0 r p.2.arena c

theorem grow_add {s : Collector} {p : NodeId} (h : Grow a0 r s.arena) (hp : Fine a0 r s.arena p) (v : Symbol)
    (hv : v.kind ≠ .file) :
    OkThat (fun q : NodeId × Collector => Grown a0 r s.arena q.2.arena ∧ Fine a0 r q.2.arena q.1) (s.add p v) := by
  unfold add
  refine OkThat.bindOption fun _ _ => OkThat.ok ?_
  obtain ⟨h1, h2, h3⟩ := h.addChild hp.1 hp.2 v hv
  exact ⟨⟨h1, fun i hi => Arena.live_addChild h.ok hp.1 v hi⟩, h3, h2⟩

theorem grow_change {s : Collector} (i : NodeId) (h : Grow a0 r s.arena) (f : Symbol → Symbol) (hf : ∀ v, Symbol.Same v (f v)) :
    OkThat (fun q : Collector => Grown a0 r s.arena q.arena) (s.change i f) := by
  unfold change
  refine OkThat.bindOption fun _ _ => OkThat.ok ?_
  exact ⟨h.modify i f hf, fun j hj => Arena.live_modify h.ok i f hj⟩

theorem same_addImports (v : Symbol) (is : List SymbolImport) : Symbol.Same v (addImports v is) := by
  unfold addImports
  split <;> exact ⟨rfl, rfl, rfl, rfl, rfl⟩

theorem same_addRules (v : Symbol) (rs : List TraitUseAlteration) : Symbol.Same v (addRules v rs) := by
  unfold addRules
  split <;> exact ⟨rfl, rfl, rfl, rfl, rfl⟩

variable {p : NodeId}

theorem grow_visitUse (node : Node) (s : Collector) (h : Grow a0 r s.arena) :
    OkThat (Next a0 r s.arena) (visitUse node p s) := by
  unfold visitUse
  refine OkThat.bindOption fun up _ => OkThat.bindOption fun is _ => ?_
  refine (grow_change _ h _ fun v => same_addImports v is).bind fun s' h' => OkThat.ok ⟨h', fun _ e => nomatch e⟩

theorem grow_visitUseTrait (node : Node) (s : Collector) (h : Grow a0 r s.arena) :
    OkThat (Next a0 r s.arena) (visitUseTrait node p s) := by
  unfold visitUseTrait
  refine OkThat.bindOption fun is _ => OkThat.bindOption fun rs _ => ?_
  refine (grow_change _ h _ fun v => (same_addImports v is).trans (same_addRules _ rs)).bind fun s' h' =>
    OkThat.ok ⟨h', fun _ e => nomatch e⟩

/-- A symbol is added and the children are visited below it. -/
theorem Next.ofAdd {s : Collector} {q : NodeId × Collector}
    (h : Grown a0 r s.arena q.2.arena ∧ Fine a0 r q.2.arena q.1) : Next a0 r s.arena (.processChildren q.1, q.2) :=
  ⟨h.1, fun c e => by cases e; exact h.2⟩

/-- A symbol is added and the children are not visited. -/
theorem Next.ofStop {s s' : Collector} (h : Grown a0 r s.arena s'.arena) : Next a0 r s.arena (.abort, s') :=
  ⟨h, fun _ e => nomatch e⟩

theorem grow_visitNamespace (t : Node) (s : Collector) (h : Grow a0 r s.arena) (hp : Fine a0 r s.arena p) :
    OkThat (Next a0 r s.arena) (visitNamespace t p s) := by
  unfold visitNamespace
  split
  · refine OkThat.bindOption fun n _ => OkThat.bindOption fun x _ => OkThat.bindOption fun y _ => ?_
    exact (grow_add h hp _ (by exact fun e => nomatch e)).bind fun c hc => OkThat.ok (Next.ofAdd hc)
  · exact OkThat.panic

theorem grow_visitClass (node : Node) (name : Token) (implementing : Option (List Node)) (extending : Option Node)
    (doc : Option Node) (attributes : List Node) (s : Collector) (h : Grow a0 r s.arena) (hp : Fine a0 r s.arena p) :
    OkThat (Next a0 r s.arena) (visitClass node name implementing extending doc attributes p s) := by
  unfold visitClass
  refine OkThat.bindOption fun _ _ => OkThat.bindOption fun _ _ => OkThat.bindOption fun _ _ => OkThat.bindOption fun _ _ =>
    OkThat.bindOption fun _ _ => OkThat.bindOption fun _ _ => OkThat.bindOption fun _ _ => ?_
  refine (grow_add h hp _ (by exact fun e => nomatch e)).bind fun c hc => ?_
  refine (grow_add hc.1.grow hc.2 _ (by exact fun e => nomatch e)).bind fun m hm => OkThat.ok ⟨hc.1.trans hm.1, fun x e => ?_⟩
  cases e
  exact ⟨hm.1.live _ hc.2.1, hc.2.2⟩

theorem grow_visitTrait (node : Node) (name : Token) (doc : Option Node) (s : Collector) (h : Grow a0 r s.arena)
    (hp : Fine a0 r s.arena p) : OkThat (Next a0 r s.arena) (visitTrait node name doc p s) := by
  unfold visitTrait
  refine OkThat.bindOption fun _ _ => OkThat.bindOption fun _ _ => OkThat.bindOption fun _ _ => ?_
  exact (grow_add h hp _ (by exact fun e => nomatch e)).bind fun c hc => OkThat.ok (Next.ofAdd hc)

theorem grow_visitInterface (node : Node) (name : Token) (extending : Option (List Node)) (doc : Option Node) (s : Collector)
    (h : Grow a0 r s.arena) (hp : Fine a0 r s.arena p) :
    OkThat (Next a0 r s.arena) (visitInterface node name extending doc p s) := by
  unfold visitInterface
  refine OkThat.bindOption fun _ _ => OkThat.bindOption fun _ _ => OkThat.bindOption fun _ _ => OkThat.bindOption fun _ _ => ?_
  exact (grow_add h hp _ (by exact fun e => nomatch e)).bind fun c hc => OkThat.ok (Next.ofAdd hc)

theorem grow_addConsts (node : Node) (doc : Option Node) : ∀ (l : List Node) (s : Collector), Grow a0 r s.arena →
    Fine a0 r s.arena p → OkThat (fun s' : Collector => Grown a0 r s.arena s'.arena) (addConsts node doc p l s)
  | [], s, h, _ => OkThat.ok (Grown.refl h)
  | n :: rest, s, h, hp => by
    unfold addConsts
    split
    · next e => cases e
    · next e =>
      cases e
      refine OkThat.bindOption fun _ _ => OkThat.bindOption fun _ _ => OkThat.bindOption fun _ _ => ?_
      refine (grow_add h hp _ (by exact fun e => nomatch e)).bind fun c hc => ?_
      exact (grow_addConsts node doc rest c.2 hc.1.grow ⟨hc.1.live _ hp.1, hp.2⟩).mono fun _ h' => hc.1.trans h'
    · next e =>
      cases e
      exact grow_addConsts node doc rest _ h hp

theorem grow_addProperties (range : NodeRange) (ts : List SymRef) (visibility : Option Token) (dep : Option Bool) :
    ∀ (l : List Node) (s : Collector), Grow a0 r s.arena → Fine a0 r s.arena p →
    OkThat (fun s' : Collector => Grown a0 r s.arena s'.arena) (addProperties range ts visibility dep p l s)
  | [], s, h, _ => OkThat.ok (Grown.refl h)
  | n :: rest, s, h, hp => by
    unfold addProperties
    split
    · next e => cases e
    · next e =>
      cases e
      refine OkThat.bindOption fun _ _ => ?_
      refine (grow_add h hp _ (by exact fun e => nomatch e)).bind fun c hc => ?_
      exact (grow_addProperties range ts visibility dep rest c.2 hc.1.grow ⟨hc.1.live _ hp.1, hp.2⟩).mono fun _ h' => hc.1.trans h'
    · next e =>
      cases e
      exact grow_addProperties range ts visibility dep rest _ h hp

theorem grow_visitMethod (node : Node) (name : Token) (function : Node) (st : Option Token) (doc : Option Node)
    (visibility : Option Token) (s : Collector) (h : Grow a0 r s.arena) (hp : Fine a0 r s.arena p) :
    OkThat (Next a0 r s.arena) (visitMethod node name function st doc visibility p s) := by
  unfold visitMethod
  split
  · refine OkThat.bindOption fun _ _ => OkThat.bindOption fun _ _ => OkThat.bindOption fun _ _ => OkThat.bindOption fun _ _ => ?_
    exact (grow_add h hp _ (by exact fun e => nomatch e)).bind fun c hc => OkThat.ok (Next.ofAdd hc)
  · exact OkThat.ok (Next.ofStop (Grown.refl h))

theorem grow_visitFunction (node : Node) (name : Token) (function : Node) (s : Collector) (h : Grow a0 r s.arena)
    (hp : Fine a0 r s.arena p) : OkThat (Next a0 r s.arena) (visitFunction node name function p s) := by
  unfold visitFunction
  split
  · refine OkThat.bindOption fun _ _ => OkThat.bindOption fun _ _ => OkThat.bindOption fun _ _ => OkThat.bindOption fun _ _ => ?_
    exact (grow_add h hp _ (by exact fun e => nomatch e)).bind fun c hc => OkThat.ok (Next.ofAdd hc)
  · exact OkThat.ok (Next.ofStop (Grown.refl h))

theorem grow_visitArgument (node : Node) (argumentType : Option Node) (name : Token) (doc : Option Node) (s : Collector)
    (h : Grow a0 r s.arena) (hp : Fine a0 r s.arena p) :
    OkThat (Next a0 r s.arena) (visitArgument node argumentType name doc p s) := by
  unfold visitArgument
  refine OkThat.bindOption fun _ _ => OkThat.bindOption fun _ _ => OkThat.bindOption fun _ _ => OkThat.bindOption fun _ _ => ?_
  refine (grow_add h hp _ (by exact fun e => nomatch e)).bind fun c hc => ?_
  refine (grow_change p hc.1.grow (fun v => { v with parameters := v.parameters ++ [⟨c.1⟩] }) fun v =>
    ⟨rfl, rfl, rfl, rfl, rfl⟩).bind fun s' h' => ?_
  exact OkThat.ok (Next.ofStop (hc.1.trans h'))

theorem grow_visit (node : Node) (s : Collector) (h : Grow a0 r s.arena) (hp : Fine a0 r s.arena p) :
    OkThat (Next a0 r s.arena) (visit node p s) := by
  unfold visit
  split
  · exact grow_visitUse _ s h
  · exact grow_visitUse _ s h
  · exact grow_visitUse _ s h
  · exact grow_visitUse _ s h
  · exact grow_visitUseTrait _ s h
  · exact grow_visitUseTrait _ s h
  · exact grow_visitUseTrait _ s h
  · exact grow_visitUseTrait _ s h
  · exact grow_visitNamespace _ s h hp
  · refine OkThat.bindOption fun _ _ => OkThat.bindOption fun _ _ => ?_
    exact (grow_add h hp _ (by exact fun e => nomatch e)).bind fun c hc => OkThat.ok (Next.ofStop hc.1)
  · exact grow_visitClass _ _ _ _ _ _ s h hp
  · exact grow_visitTrait _ _ _ s h hp
  · exact grow_visitInterface _ _ _ _ s h hp
  · exact (grow_addConsts _ _ _ s h hp).bind fun c hc => OkThat.ok (Next.ofStop hc)
  · refine OkThat.bindOption fun _ _ => OkThat.bindOption fun _ _ => OkThat.bindOption fun _ _ => ?_
    exact (grow_add h hp _ (by exact fun e => nomatch e)).bind fun c hc => OkThat.ok (Next.ofStop hc.1)
  · refine OkThat.bindOption fun _ _ => OkThat.bindOption fun _ _ => ?_
    exact (grow_addProperties _ _ _ _ _ s h hp).bind fun c hc => OkThat.ok (Next.ofStop hc)
  · exact grow_visitMethod _ _ _ _ _ _ s h hp
  · refine OkThat.bindOption fun _ _ => OkThat.bindOption fun _ _ => ?_
    exact (grow_add h hp _ (by exact fun e => nomatch e)).bind fun c hc => OkThat.ok (Next.ofAdd hc)
  · exact grow_visitFunction _ _ _ s h hp
  · exact grow_visitArgument _ _ _ _ s h hp
  · refine OkThat.bindOption fun _ _ => OkThat.bindOption fun _ _ => OkThat.bindOption fun _ _ => ?_
    exact (grow_add h hp _ (by exact fun e => nomatch e)).bind fun c hc => OkThat.ok (Next.ofStop hc.1)
  · exact OkThat.ok (Next.ofStop (Grown.refl h))
  · refine OkThat.ok ⟨Grown.refl h, fun c e => ?_⟩
    cases e
    exact hp

theorem before_arena (node : Node) (s : Collector) : OkThat (fun s' : Collector => s'.arena = s.arena) (before node p s) := by
  unfold before
  split
  · exact OkThat.bindOption fun _ _ => OkThat.ok rfl
  · exact OkThat.bindOption fun _ _ => OkThat.ok rfl
  · exact OkThat.ok rfl
  · exact OkThat.ok rfl

theorem after_arena (node : Node) (s : Collector) : OkThat (fun s' : Collector => s'.arena = s.arena) (after node p s) := by
  unfold after
  split <;> exact OkThat.ok rfl

/-- The walk over a tree adds symbols below its parent only. -/
theorem grow_traverse : ∀ (fuel : Nat) (node : Node) (p : NodeId) (s : Collector), Grow a0 r s.arena → Fine a0 r s.arena p →
    OkThat (fun s' : Collector => Grown a0 r s.arena s'.arena) (traverse Node.children visitor fuel node p s)
  | 0, _, _, _, _, _ => OkThat.deep
  | fuel + 1, node, p, s, h, hp => by
    unfold traverse
    refine OkThat.bind (before_arena (p := p) node s) fun s1 e1 => ?_
    refine OkThat.bind (grow_visit (p := p) node s1 (e1 ▸ h) (e1 ▸ hp)) fun q hq => ?_
    refine OkThat.bind (Q := fun s3 : Collector => Grown a0 r s1.arena s3.arena) ?_ fun s3 h3 => ?_
    · split
      · exact OkThat.ok hq.1
      · next c e =>
        have hc := hq.2 c e
        have key : ∀ (l : List Node) (s : Collector), Grow a0 r s.arena → Fine a0 r s.arena c →
            OkThat (fun s' : Collector => Grown a0 r s.arena s'.arena)
              (l.foldlM (fun s n => traverse Node.children visitor fuel n c s) s) := by
          intro l
          induction l with
          | nil => exact fun s h _ => OkThat.ok (Grown.refl h)
          | cons n l ih =>
            intro s h hc
            rw [List.foldlM_cons]
            refine (grow_traverse fuel n c s h hc).bind fun s' h' => ?_
            exact (ih s' h'.grow ⟨h'.live _ hc.1, hc.2⟩).mono fun _ h2 => h'.trans h2
        exact (key node.children q.2 hq.1.grow hc).mono fun _ h2 => hq.1.trans h2
    · refine OkThat.mono (after_arena (p := p) node s3) fun s4 e4 => ?_
      rw [e4, ← e1]
      exact h3

/-- The walk over a file. -/
theorem grow_file (fuel : Nat) (p : NodeId) : ∀ (ast : List Node) (s : Collector), Grow a0 r s.arena → Fine a0 r s.arena p →
    OkThat (fun s' : Collector => Grown a0 r s.arena s'.arena)
      (ast.foldlM (fun s n => traverse Node.children visitor fuel n p s) s)
  | [], s, h, _ => OkThat.ok (Grown.refl h)
  | n :: l, s, h, hp => by
    rw [List.foldlM_cons]
    refine (grow_traverse fuel n p s h hp).bind fun s' h' => ?_
    exact (grow_file fuel p l s' h'.grow ⟨h'.live _ hp.1, hp.2⟩).mono fun _ h2 => h'.trans h2

end Collector

end PhpLs
