import Verif.NameResolve
import Verif.ResolverLemmas

/-!
# What the visitor that resolves names may change

`Frame exact mv s s'`: between `s` and `s'` the scopes below the innermost one, the current class, the scope container and the
global table are left alone, references, diagnostics and what is remembered are only added, and the arena changes by the steps of `Reach`.  If
`exact` holds, no variable is declared either; if `mv` does not hold, no node is moved.
-/

namespace PhpLs

/-- The changes of the arena that the visitor makes: it adds variables, changes data types, and moves variables that are
mentioned in a comment. -/
inductive Reach (mv : Bool) : Arena Symbol → Arena Symbol → Prop where
  | refl (a : Arena Symbol) : Reach mv a a
  | add {a b : Arena Symbol} {p : NodeId} {k : Token} {v : Symbol} {ts : List SymRef} : Reach mv a b → (b.get? p).isSome →
      Symbol.ofToken k = some v → Reach mv a (b.addChild p { v with dataTypes := ts }).2
  | types {a b : Arena Symbol} (i : NodeId) (f : Symbol → List SymRef) : Reach mv a b →
      Reach mv a (b.modify i fun v => { v with dataTypes := f v })
  | move {a b c : Arena Symbol} {p i : NodeId} : mv = true → Reach mv a b → b.moveTo p i = some c → Reach mv a c

theorem Reach.trans {mv : Bool} {a b c : Arena Symbol} (h : Reach mv a b) (h' : Reach mv b c) : Reach mv a c := by
  induction h' with
  | refl => exact h
  | add _ h1 h2 ih => exact .add ih h1 h2
  | types i f _ ih => exact .types i f ih
  | move h _ h1 ih => exact .move h ih h1

/-- See the head of the file. -/
structure Frame (exact mv : Bool) (s s' : Env) : Prop where
  tail : s'.resolver.localScopes.tail = s.resolver.localScopes.tail
  length : s'.resolver.localScopes.length = s.resolver.localScopes.length
  same : exact = true → s'.resolver.localScopes = s.resolver.localScopes
  cls : s'.resolver.currentClass = s.resolver.currentClass
  container : s'.resolver.scopeContainer = s.resolver.scopeContainer
  globals : s'.resolver.globalScope = s.resolver.globalScope
  refs : ∀ f, s.resolver.refsOf f <+: s'.resolver.refsOf f
  diagnostics : s.resolver.diagnostics <+: s'.resolver.diagnostics
  arena : Reach mv s.arena s'.arena
  cache : ∀ k v, Dict.get? s.resolver.cache k = some v → Dict.get? s'.resolver.cache k = some v

namespace Frame

variable {exact mv : Bool}

theorem refl (s : Env) : Frame exact mv s s :=
  ⟨rfl, rfl, fun _ => rfl, rfl, rfl, rfl, fun _ => List.prefix_rfl, List.prefix_rfl, .refl _, fun _ _ h => h⟩

theorem trans {s s' s'' : Env} (h : Frame exact mv s s') (h' : Frame exact mv s' s'') : Frame exact mv s s'' :=
  ⟨h'.tail.trans h.tail, h'.length.trans h.length, fun e => (h'.same e).trans (h.same e), h'.cls.trans h.cls,
    h'.container.trans h.container, h'.globals.trans h.globals, fun f => (h.refs f).trans (h'.refs f),
    h.diagnostics.trans h'.diagnostics, h.arena.trans h'.arena, fun k v hk => h'.cache k v (h.cache k v hk)⟩

theorem weaken {s s' : Env} (h : Frame true mv s s') : Frame exact mv s s' :=
  { h with same := fun _ => h.same rfl }

theorem ofStep {s : Env} {r : Resolver} (h : Resolver.Step s.resolver r) : Frame exact mv s { s with resolver := r } :=
  ⟨by rw [h.localScopes], by rw [h.localScopes], fun _ => h.localScopes, h.currentClass, h.scopeContainer, h.globalScope, h.refs,
    h.diagnostics, .refl _, h.cache⟩

theorem diagnostic (s : Env) (n : Notification) : Frame exact mv s (s.diagnostic n) := ofStep (Resolver.Step.diagnostic _ _)

theorem addRef (s : Env) (file : NodeId) (range : NodeRange) (n : NodeId) : Frame exact mv s (s.addRef file range n) :=
  ofStep (Resolver.Step.reference _ _ _)

theorem setArena {s : Env} {a : Arena Symbol} (h : Reach mv s.arena a) : Frame exact mv s { s with arena := a } :=
  ⟨rfl, rfl, fun _ => rfl, rfl, rfl, rfl, fun _ => List.prefix_rfl, List.prefix_rfl, h, fun _ _ h => h⟩

end Frame

namespace Env

open Out

variable {exact mv : Bool}

theorem frame_resolve (U : Unicode) (fuel : Nat) (s : Env) (t : TypeRef) (anchor : NodeId) :
    OkThat (fun p : Option NodeId × Env => Frame exact mv s p.2) (s.resolve U fuel t anchor) :=
  OkThat.bind (Resolver.query_resolveTypeRef U s.arena fuel s.resolver t anchor true) fun p hp =>
    OkThat.ok (Frame.ofStep hp.1.1)

theorem frame_uniqueParent (U : Unicode) (fuel : Nat) (s : Env) (sym : Symbol) (ctx : NodeId) :
    OkThat (fun p : Option NodeId × Resolver => Frame exact mv s { s with resolver := p.2 })
      (Resolver.uniqueParent U s.arena fuel s.resolver sym ctx) :=
  (Resolver.query_uniqueParent U s.arena fuel s.resolver sym ctx).mono fun _ hp => Frame.ofStep hp.1

theorem frame_resolveEach (U : Unicode) (fuel : Nat) (s : Env) (ts : List TypeRef) (anchor : NodeId) :
    OkThat (fun s' : Env => Frame exact mv s s') (s.resolveEach U fuel ts anchor) := by
  refine OkThat.foldlM (P := fun s' : Env => Frame exact mv s s') ?_ ts s (Frame.refl s)
  intro s' t h
  exact (frame_resolve U fuel s' t anchor).bind fun p hp => OkThat.ok (h.trans hp)

theorem frame_resolveTypes (U : Unicode) (fuel : Nat) (s : Env) (ts : List TypeRef) (anchor : NodeId) :
    OkThat (fun p : List SymRef × Env => Frame exact mv s p.2) (s.resolveTypes U fuel ts anchor) := by
  refine OkThat.foldlM (P := fun p : List SymRef × Env => Frame exact mv s p.2) ?_ ts ([], s) (Frame.refl s)
  intro acc t h
  exact (frame_resolve U fuel acc.2 t anchor).bind fun p hp => OkThat.bindOption fun ref _ => OkThat.ok (h.trans hp)

theorem frame_refLocal (s : Env) (file : NodeId) (token : Token) (n : NodeId) :
    OkThat (fun s' : Env => Frame exact mv s s') (s.refLocal file token n) := by
  unfold refLocal Resolver.referenceLocal
  refine OkThat.bind (Q := fun r => Resolver.Step s.resolver r) ?_ fun r hr => OkThat.ok (Frame.ofStep hr)
  exact OkThat.bindOption fun range _ => OkThat.ok (Resolver.Step.reference _ _ _)

theorem frame_declareNew (s : Env) (file : NodeId) (token : Token) (n : NodeId) :
    OkThat (fun p : Option NodeId × Env => Frame false mv s p.2) (s.declareNew file token n) := by
  unfold declareNew Resolver.declareLocalIfNew
  refine OkThat.bind (Q := fun p => Frame false mv s { s with resolver := p.2 }) ?_ fun r hr => OkThat.ok hr
  split
  · exact OkThat.ok (Frame.refl s)
  · exact OkThat.ok (Frame.refl s)
  · next top rest name h1 h2 =>
    split
    · exact OkThat.bindOption fun range _ => OkThat.ok (Frame.ofStep (Resolver.Step.reference _ _ _))
    · refine OkThat.bind (Q := fun r => Frame false mv s { s with resolver := r }) ?_ fun r hr => OkThat.ok hr
      refine OkThat.bindOption fun range _ => OkThat.ok ?_
      refine Frame.trans (s' := { s with resolver := { s.resolver with localScopes := Dict.insert top name n :: rest } }) ?_
        (Frame.ofStep (Resolver.Step.reference _ _ _))
      exact ⟨by simp [h1], by simp [h1], (fun h => nomatch h), rfl, rfl, rfl, fun _ => List.prefix_rfl, List.prefix_rfl, .refl _, fun _ _ h => h⟩

theorem frame_declareOver (s : Env) (file : NodeId) (token : Token) (n : NodeId) (addRef : Bool) :
    OkThat (fun s' : Env => Frame false mv s s') (s.declareOver file token n addRef) := by
  unfold declareOver
  refine OkThat.bind (Q := fun r => Frame false mv s { s with resolver := r }) ?_ fun r hr => OkThat.ok hr
  have key : ∀ r : Resolver, Frame false mv s { s with resolver := r } →
      OkThat (fun r => Frame false mv s { s with resolver := r }) (if addRef then r.referenceLocal file token n else .ok r) := by
    intro r h
    split
    · unfold Resolver.referenceLocal
      exact OkThat.bindOption fun range _ => OkThat.ok (h.trans (Frame.ofStep (Resolver.Step.reference _ _ _)))
    · exact OkThat.ok h
  refine key _ ?_
  split
  · next top rest name h1 h2 =>
    exact ⟨by simp [h1], by simp [h1], (fun h => nomatch h), rfl, rfl, rfl, fun _ => List.prefix_rfl, List.prefix_rfl, .refl _, fun _ _ h => h⟩
  · exact Frame.refl s

theorem frame_addVar (s : Env) {k : Token} {v : Symbol} (hk : Symbol.ofToken k = some v) (ts : List SymRef) :
    OkThat (fun p : NodeId × Env => Frame exact mv s p.2) (s.addVar { v with dataTypes := ts }) := by
  unfold addVar
  refine OkThat.bindOption fun _ h => OkThat.ok ?_
  exact Frame.setArena (.add (.refl _) (by rw [h]; rfl) hk)

/-- The symbol of an assigned variable is that of the token, with other data types. -/
theorem assigned_ok (token : Token) (d : Option NodeId) :
    OkThat (fun v : Symbol => ∃ w ts, Symbol.ofToken token = some w ∧ v = { w with dataTypes := ts }) (assigned token d) := by
  unfold assigned
  split
  · refine OkThat.bindOption fun r _ => OkThat.bindOption fun v hv => OkThat.ok ⟨v, _, hv, rfl⟩
  · intro v hv
    have := Out.ofOption_ok hv
    exact ⟨v, v.dataTypes, this, rfl⟩

theorem frame_assign (s : Env) (token : Token) (d : Option NodeId) (file : NodeId) {β : Type} {P : β → Prop}
    {f : NodeId × Env → Option NodeId × Env → Out β}
    (h : ∀ (c : NodeId × Env) (e : Option NodeId × Env), Frame false mv s e.2 → OkThat P (f c e)) :
    OkThat P (do
      let sym ← assigned token d
      let c ← s.addVar sym
      let e ← c.2.declareNew file token c.1
      f c e) := by
  refine (assigned_ok token d).bind fun v hv => ?_
  obtain ⟨w, ts, hw, rfl⟩ := hv
  refine (frame_addVar (exact := false) (mv := mv) s hw ts).bind fun c hc => ?_
  exact (frame_declareNew c.2 file token c.1).bind fun e he => h c e (hc.trans he)

/-- No assignment is reached through the children. -/
inductive AssignFree : Node → Prop where
  | mk {n : Node} : (∀ l t r, n = .binary l t r → t.t ≠ .assignment) → (∀ c ∈ n.children, AssignFree c) → AssignFree n

theorem AssignFree.child {n c : Node} (h : AssignFree n) (hc : c ∈ n.children) : AssignFree c := by
  cases h with
  | mk _ h => exact h c hc

theorem frame_variableType (U : Unicode) (fuel : Nat) (node : NodeId) : ∀ (l : List SymRef) (s : Env),
    OkThat (fun p : (NodeId × Visibility) × Env => Frame exact mv s p.2) (variableType U fuel node l s)
  | [], s => OkThat.ok (Frame.refl s)
  | ref :: rest, s => by
    unfold variableType
    split
    · exact OkThat.ok (Frame.refl s)
    · refine (frame_resolve (exact := exact) (mv := mv) U fuel s ref.typeRef node).bind fun p hp => ?_
      split
      · exact OkThat.ok hp
      · exact (frame_variableType U fuel node rest p.2).mono fun q hq => hp.trans hq

/-- A function that is called for nodes in which no variable is declared if `exact`. -/
def FrameFn (exact mv : Bool) (call : Env → Node → Out (Option NodeId × Env)) : Prop :=
  ∀ s n, (exact = true → AssignFree n) → OkThat (fun p : Option NodeId × Env => Frame exact mv s p.2) (call s n)

theorem FrameFn.each {call : Env → Node → Out (Option NodeId × Env)} (hc : FrameFn exact mv call) (l : List Node)
    (hl : exact = true → ∀ n ∈ l, AssignFree n) : ∀ s : Env,
    OkThat (fun s' : Env => Frame exact mv s s') (l.foldlM (fun s c => do let q ← call s c; pure q.2) s) := by
  induction l with
  | nil => exact fun s => OkThat.ok (Frame.refl s)
  | cons n l ih =>
    intro s
    rw [List.foldlM_cons]
    refine OkThat.bind (Q := fun s' => Frame exact mv s s') ?_ fun s' h =>
      (ih (fun e c hc => hl e c (List.mem_cons_of_mem _ hc)) s').mono fun _ h' => h.trans h'
    exact (hc s n fun e => hl e n (List.mem_cons_self ..)).bind fun q hq => OkThat.ok hq

theorem FrameFn.opt {call : Env → Node → Out (Option NodeId × Env)} (hc : FrameFn exact mv call) (o : Option Node)
    (s : Env) : (exact = true → ∀ n ∈ o.toList, AssignFree n) →
    OkThat (fun s' : Env => Frame exact mv s s') (match o with
      | some i => do let p ← call s i; pure p.2
      | none => pure s) := by
  intro ho
  cases o with
  | none => exact OkThat.ok (Frame.refl s)
  | some n => exact (hc s n fun e => ho e n (by simp)).bind fun q hq => OkThat.ok hq

theorem frame_rootOf (U : Unicode) (file : NodeId) {call : Env → Node → Out (Option NodeId × Env)} (hc : FrameFn exact mv call)
    (node : Node) (hn : exact = true → AssignFree node) : ∀ (fuel : Nat) (cur : Node) (chain : List Node) (s : Env),
    (exact = true → AssignFree cur) →
    OkThat (fun p : Root × Env => Frame exact mv s p.2) (rootOf U file call node fuel cur chain s)
  | 0, _, _, _, _ => OkThat.deep
  | fuel + 1, cur, chain, s, hcur => by
    have ih := frame_rootOf U file hc node hn fuel
    unfold rootOf
    split
    · next left token right =>
      split
      · next ht =>
        split
        · next v =>
          refine (hc s right fun e => (hcur e).child (by simp [Node.children])).bind fun d hd => ?_
          have he : exact = false := by
            cases exact with
            | false => rfl
            | true =>
              cases hcur rfl with
              | mk h1 _ => exact absurd ht (h1 _ _ _ rfl)
          subst he
          refine frame_assign (mv := mv) d.2 v d.1 file fun c e he => ?_
          exact (ih _ chain e.2 (fun e => nomatch e)).mono fun q hq => (hd.trans he).trans hq
        · exact OkThat.ok (Frame.refl s)
      · refine (hc s left fun e => (hcur e).child (by simp [Node.children])).bind fun p hp => ?_
        refine (hc p.2 right fun e => (hcur e).child (by simp [Node.children])).bind fun q hq => ?_
        exact OkThat.ok (hp.trans hq)
    · next check qm trueArm colon falseArm =>
      refine (hc s check fun e => (hcur e).child (by simp [Node.children])).bind fun p hp => ?_
      refine OkThat.bind (Q := fun q : Option NodeId × Env => Frame exact mv s q.2) ?_ fun q hq => ?_
      · cases trueArm with
        | none => exact OkThat.ok hp
        | some t => exact (hc p.2 t fun e => (hcur e).child (by simp [Node.children])).mono fun q hq => hp.trans hq
      · refine (hc q.2 falseArm fun e => (hcur e).child (by simp [Node.children])).bind fun w hw => ?_
        exact OkThat.ok (hq.trans hw)
    · exact ih _ chain s fun e => (hcur e).child (by simp [Node.children])
    · exact ih _ chain s fun e => (hcur e).child (by simp [Node.children])
    · exact ih _ chain s fun e => (hcur e).child (by simp [Node.children])
    · exact ih _ chain s fun e => (hcur e).child (by simp [Node.children])
    · next callee op ps cp =>
      refine (hc.each ps (fun e n hn => (hcur e).child (by simp [Node.children, hn])) s).bind fun s' h => ?_
      exact (ih _ chain s' fun e => (hcur e).child (by simp [Node.children])).mono fun q hq => h.trans hq
    · next ob es cb =>
      refine (hc.each es (fun e n hn => (hcur e).child (by simpa [Node.children] using hn)) s).bind fun s' h => ?_
      exact OkThat.ok h
    · exact (hc s _ fun e => (hcur e).child (by simp [Node.children])).bind fun p hp => OkThat.ok hp
    · exact ih _ _ s fun e => (hcur e).child (by simp [Node.children])
    · exact ih _ _ s fun e => (hcur e).child (by simp [Node.children])
    · next token =>
      split
      · exact OkThat.ok (Frame.refl s)
      · next n _ =>
        refine (frame_refLocal (exact := exact) (mv := mv) s file token n).bind fun s' h => ?_
        split
        · exact OkThat.ok h
        · split
          · exact OkThat.ok h
          · refine OkThat.bindOption fun sym _ => ?_
            exact (frame_variableType (exact := exact) (mv := mv) U fuel n sym.dataTypes s').bind fun p hp => OkThat.ok (h.trans hp)
    · next token =>
      split
      · exact OkThat.ok (Frame.refl s)
      · split
        · split
          · exact OkThat.ok (Frame.refl s)
          · next c _ =>
            refine OkThat.bindOption fun sym _ => ?_
            exact (frame_uniqueParent (exact := exact) (mv := mv) U fuel s sym c).bind fun p hp => OkThat.ok hp
        · split
          · exact OkThat.ok (Frame.refl s)
          · exact (frame_resolve (exact := exact) (mv := mv) U fuel s _ _).bind fun p hp => OkThat.ok hp
    · refine (frame_resolve (exact := exact) (mv := mv) U fuel s _ _).bind fun p hp => ?_
      split
      · exact OkThat.ok hp
      · exact OkThat.ok hp
    · next array ob index cb =>
      refine (hc.opt index s (fun e n hn => (hcur e).child (by simp only [Node.children, List.mem_cons]; exact Or.inr hn))).bind
        fun s' h => ?_
      split
      · next collection =>
        split
        · exact OkThat.ok h
        · next v _ =>
          refine (frame_refLocal (exact := exact) (mv := mv) s' file collection v).bind fun s2 h2 => ?_
          refine OkThat.bindOption fun sym _ => ?_
          split
          · exact OkThat.ok (h.trans h2)
          · exact OkThat.ok (h.trans h2)
      · next object a b member c =>
        refine (ih _ _ s' fun e => ?_).mono fun q hq => h.trans hq
        exact AssignFree.child (n := .member object a b member c) ((hcur e).child (by simp [Node.children]))
          (by simp [Node.children])
      · next array2 a index2 b =>
        have hf : exact = true → AssignFree (.field array2 a index2 b) := fun e => (hcur e).child (by simp [Node.children])
        refine (hc.opt index2 s' (fun e n hn => (hf e).child (by simp only [Node.children, List.mem_cons]; exact Or.inr hn))).bind
          fun s2 h2 => ?_
        refine (ih _ _ s2 fun e => ?_).mono fun q hq => (h.trans h2).trans hq
        exact (hf e).child (by simp [Node.children])
      · exact OkThat.ok h
    · refine (hc.each node.children (fun e n h => (hn e).child h) s).bind fun s' h => ?_
      exact OkThat.ok h

theorem frame_memberTypes (U : Unicode) (fuel : Nat) (fileName : Text) (range : Option NodeRange) (root : NodeId) :
    ∀ (l : List SymRef) (s : Env),
    OkThat (fun p : Hop × Env => Frame exact mv s p.2) (memberTypes U fuel fileName range root l s)
  | [], s => OkThat.ok (Frame.refl s)
  | ref :: rest, s => by
    unfold memberTypes
    refine OkThat.bindOption fun first _ => ?_
    split
    · exact OkThat.ok (Frame.refl s)
    · refine OkThat.bindOption fun o _ => OkThat.bindOption fun name _ => ?_
      split
      · exact OkThat.ok (Frame.refl s)
      · split
        · refine OkThat.bindOption fun sym _ => ?_
          refine (frame_uniqueParent (exact := exact) (mv := mv) U fuel s sym root).bind fun p hp => ?_
          split
          · exact OkThat.ok hp
          · exact OkThat.bindOption fun r _ => OkThat.ok (hp.trans (Frame.diagnostic _ _))
        · refine (frame_resolve (exact := exact) (mv := mv) U fuel s _ _).bind fun p hp => ?_
          split
          · exact OkThat.ok hp
          · exact (frame_memberTypes U fuel fileName range root rest p.2).mono fun q hq => hp.trans hq

theorem frame_link (U : Unicode) (H : HashOrder) (file : NodeId) (fuel : Nat) (fileName : Text) (minimal : Visibility)
    (root : NodeId) (l : Node) (s : Env) :
    OkThat (fun p : Hop × Env => Frame exact mv s p.2) (link U H file fuel fileName minimal root l s) := by
  unfold link
  refine OkThat.bindOption fun o _ => ?_
  split
  · exact OkThat.ok (Frame.refl s)
  · refine (Resolver.query_allSymbols U H s.arena fuel s.resolver root).bind fun m hm => ?_
    have hm : Frame exact mv s { s with resolver := m.2 } := Frame.ofStep hm.1
    dsimp only
    split
    · exact OkThat.bindOption fun r _ => OkThat.bindOption fun n _ => OkThat.ok (hm.trans (Frame.diagnostic _ _))
    · next child _ =>
      refine OkThat.bindOption fun sym _ => ?_
      split
      · refine OkThat.bind (Q := fun s' : Env => Frame exact mv s s') ?_ fun s' h => ?_
        · split
          · exact OkThat.bindOption fun r _ => OkThat.ok (hm.trans (Frame.diagnostic _ _))
          · exact OkThat.ok hm
        · refine OkThat.bind (Q := fun s' : Env => Frame exact mv s s') ?_ fun s2 h2 => ?_
          · split
            · exact (frame_refLocal (exact := exact) (mv := mv) s' file _ _).mono fun _ h2 => h.trans h2
            · exact (frame_refLocal (exact := exact) (mv := mv) s' file _ _).mono fun _ h2 => h.trans h2
            · exact OkThat.ok h
          · split
            · exact (frame_memberTypes U fuel fileName l.range root sym.dataTypes s2).mono fun q hq => h2.trans hq
            · exact OkThat.ok h2
      · exact OkThat.bindOption fun r _ => OkThat.ok (hm.trans (Frame.diagnostic _ _))

theorem frame_links (U : Unicode) (H : HashOrder) (file : NodeId) (fuel : Nat) (fileName : Text) (minimal : Visibility) :
    ∀ (l : List Node) (root : NodeId) (s : Env),
    OkThat (fun p : Option NodeId × Env => Frame exact mv s p.2) (links U H file fuel fileName minimal root l s)
  | [], root, s => OkThat.ok (Frame.refl s)
  | l :: rest, root, s => by
    unfold links
    refine (frame_link (exact := exact) (mv := mv) U H file fuel fileName minimal root l s).bind fun p hp => ?_
    split
    · exact OkThat.ok hp
    · exact (frame_links U H file fuel fileName minimal rest _ p.2).mono fun q hq => hp.trans hq

/-- `resolve_member_type` declares variables in the innermost scope only, and none at all where nothing is assigned. -/
theorem frame_memberType (U : Unicode) (H : HashOrder) (file : NodeId) : ∀ fuel : Nat, FrameFn exact mv (memberType U H file fuel)
  | 0 => fun _ _ _ => OkThat.deep
  | fuel + 1 => by
    intro s node hn
    unfold memberType
    refine (frame_rootOf U file (frame_memberType U H file fuel) node hn fuel node [] s hn).bind fun p hp => ?_
    split
    · exact OkThat.ok hp
    · refine OkThat.bindOption fun anc _ => OkThat.bindOption fun top _ => OkThat.bindOption fun f _ => ?_
      split
      · exact OkThat.ok hp
      · exact (frame_links U H file fuel _ _ _ _ p.2).mono fun q hq => hp.trans hq

theorem frame_visitFunction (U : Unicode) (fuel : Nat) (doc : Option Node) (parent : NodeId) (s : Env) :
    OkThat (fun p : NextAction × Env => Frame exact mv s p.2 ∧ p.1 = .processChildren p.2.resolver.scopeContainer)
      (visitFunction U fuel doc parent s) := by
  unfold visitFunction
  refine OkThat.bind (Q := fun s' => Frame exact mv s s') ?_ fun s' h => OkThat.ok ⟨h, rfl⟩
  split
  · exact frame_resolveEach U fuel s _ parent
  · exact OkThat.ok (Frame.refl s)

theorem frame_foreachItem (file collection : NodeId) (kv : Node) (s : Env) :
    OkThat (fun s' : Env => Frame false mv s s') (foreachItem file collection kv s) := by
  unfold foreachItem
  refine OkThat.bindOption fun c _ => ?_
  split
  · refine OkThat.bindOption fun ts _ => OkThat.bindOption fun v hv => ?_
    refine (frame_addVar (exact := false) (mv := mv) s hv ts).bind fun n hn => ?_
    exact (frame_declareOver n.2 file _ n.1 false).mono fun _ h => hn.trans h
  · exact OkThat.ok (Frame.refl s)

theorem frame_visitArgument (U : Unicode) (file : NodeId) (fuel : Nat) (name : Token) (doc : Option Node) (parent : NodeId)
    (s : Env) : OkThat (fun s' : Env => Frame false mv s s') (visitArgument U file fuel name doc parent s) := by
  unfold visitArgument
  refine (OkThat.any _).bind fun arg _ => ?_
  split
  · exact OkThat.ok (Frame.refl s)
  · next arg =>
    refine OkThat.bindOption fun sym _ => ?_
    refine (frame_resolveTypes (exact := false) (mv := mv) U fuel s _ parent).bind fun p hp => ?_
    have h1 : Frame false mv s { p.2 with arena := p.2.arena.modify arg fun v => { v with dataTypes := p.1 } } :=
      hp.trans (Frame.setArena (.types arg _ (.refl _)))
    refine (frame_declareOver (mv := mv) _ file name arg true).bind fun s2 h2 => ?_
    split
    · exact (frame_refLocal s2 file _ arg).mono fun _ h3 => (h1.trans h2).trans h3
    · exact OkThat.ok (h1.trans h2)

theorem frame_visitAssignment (U : Unicode) (H : HashOrder) (file : NodeId) (fuel : Nat) (left right : Node) (s : Env) :
    OkThat (fun s' : Env => Frame false mv s s') (visitAssignment U H file fuel left right s) := by
  unfold visitAssignment
  refine (frame_memberType (exact := false) (mv := mv) U H file fuel s right (fun e => nomatch e)).bind fun d hd => ?_
  split
  · next v =>
    refine frame_assign (mv := mv) d.2 v d.1 file fun c e he => ?_
    refine OkThat.bindOption fun repr _ => ?_
    split
    · split
      · refine OkThat.bindOption fun ref _ => OkThat.ok ?_
        exact (hd.trans he).trans (Frame.setArena (.types repr _ (.refl _)))
      · exact OkThat.ok (hd.trans he)
    · exact OkThat.ok (hd.trans he)
  · refine (frame_memberType (exact := false) (mv := mv) U H file fuel d.2 left (fun e => nomatch e)).bind fun p hp => ?_
    exact OkThat.ok (hd.trans hp)

theorem frame_visitDocVar (U : Unicode) (file : NodeId) (fuel : Nat) (name : Token) (types : Option (List TypeRef))
    (parent : NodeId) (s : Env) (hm : mv = true) : OkThat (fun s' : Env => Frame false mv s s')
    (visitDocVar U file fuel name types parent s) := by
  unfold visitDocVar
  refine (frame_resolveTypes (exact := false) (mv := mv) U fuel s _ parent).bind fun p hp => ?_
  dsimp only
  split
  · next existing _ =>
    refine OkThat.bindOption fun a ha => ?_
    refine OkThat.bind (frame_declareNew (mv := mv) { p.2 with arena := a } file name existing) fun q hq => OkThat.ok ?_
    exact (hp.trans (Frame.setArena (Reach.move hm (.types existing _ (.refl _)) ha))).trans hq
  · refine OkThat.bindOption fun v hv => ?_
    refine (frame_addVar (exact := false) (mv := mv) p.2 hv p.1).bind fun c hc => ?_
    exact (frame_declareNew c.2 file name c.1).bind fun q hq => OkThat.ok ((hp.trans hc).trans hq)

end Env

/-- Functions with a scope of their own. -/
def Node.isFunction : Node → Bool
  | .methodDefinitionStatement .. => true
  | .namedFunctionDefinitionStatement .. => true
  | .arrowFunction .. => true
  | _ => false

/-- Classes, traits and interfaces. -/
def Node.isClass : Node → Bool
  | .classStatement .. => true
  | .traitStatement .. => true
  | .interface .. => true
  | _ => false

/-- Nodes that bring a variable into the scope. -/
def Node.declares : Node → Bool
  | .variable _ => true
  | .docCommentVar .. => true
  | .catchBlock .. => true
  | .forEachStatement .. => true
  | .functionArgument .. => true
  | .binary _ t _ => t.t == .assignment
  | _ => false

/-- Comments that name a variable. -/
def Node.isDocVar : Node → Bool
  | .docCommentVar .. => true
  | _ => false

/-- Accesses to members. -/
def Node.isChain : Node → Bool
  | .member .. => true
  | .staticMember .. => true
  | _ => false

namespace Env

open Out

variable {exact mv : Bool}

theorem frame_visitClass (U : Unicode) (fuel : Nat) (name : Token) (parent : NodeId) (s : Env) :
    OkThat (fun p : NextAction × Env => (p.1 = .abort ∧ Frame exact mv s p.2) ∨
      ∃ (c : NodeId) (s1 : Env), p.1 = .processChildren c ∧ Frame exact mv s s1 ∧
        p.2 = { s1 with resolver := s1.resolver.enterClass c }) (visitClass U fuel name parent s) := by
  unfold visitClass
  refine (frame_resolve (exact := exact) (mv := mv) U fuel s _ parent).bind fun p hp => ?_
  split
  · next c _ => exact OkThat.ok (Or.inr ⟨c, p.2, rfl, hp, rfl⟩)
  · exact OkThat.ok (Or.inl ⟨rfl, hp⟩)

/-- What `visit` does with a node that is neither a class nor a function. -/
theorem frame_visitName (U : Unicode) (H : HashOrder) (file : NodeId) (fuel : Nat) (node : Node) (parent : NodeId) (s : Env)
    (hc : node.isClass = false) (hf : node.isFunction = false)
    (he : exact = true → node.declares = false ∧ (node.isChain = true → AssignFree node))
    (hm : mv = false → node.isDocVar = false) :
    OkThat (fun p : NextAction × Env => Frame exact mv s p.2 ∧
        (p.1 = .abort ∨ p.1 = .processChildren parent ∨ p.1 = .processChildren p.2.resolver.scopeContainer))
      (visitName U H file fuel node parent s) := by
  have hfalse : node.declares = true → exact = false := by
    intro h
    cases exact with
    | false => rfl
    | true => rw [(he rfl).1] at h; cases h
  unfold visitName
  split
  · refine OkThat.bindOption fun name _ => ?_
    split
    · exact OkThat.ok ⟨Frame.refl s, Or.inl rfl⟩
    · refine OkThat.bindOption fun sym _ => ?_
      refine OkThat.bind (Q := fun s' : Env => Frame exact mv s s') ?_ fun s' h => ?_
      · split
        · exact OkThat.ok (Frame.refl s)
        · exact OkThat.bindOption fun f _ => OkThat.bindOption fun r _ => OkThat.ok (Frame.diagnostic _ _)
      · exact OkThat.bindOption fun r _ => OkThat.ok ⟨h.trans (Frame.addRef _ _ _ _), Or.inl rfl⟩
  · exact (frame_resolve (exact := exact) (mv := mv) U fuel s _ parent).bind fun p hp => OkThat.ok ⟨hp, Or.inl rfl⟩
  · cases hc
  · cases hc
  · cases hc
  · cases hf
  · exact (frame_visitFunction U fuel _ parent s).mono fun p hp => ⟨hp.1, Or.inr (Or.inr hp.2)⟩
  · cases hf
  · cases hf
  · next token =>
    have := hfalse rfl
    subst this
    split
    · exact (frame_refLocal s file token _).bind fun s' h => OkThat.ok ⟨h, Or.inl rfl⟩
    · refine OkThat.bindOption fun v hv => ?_
      refine (frame_addVar (exact := false) (mv := mv) s hv v.dataTypes).bind fun c hc => ?_
      exact (frame_declareNew c.2 file token c.1).bind fun p hp => OkThat.ok ⟨hc.trans hp, Or.inl rfl⟩
  · have := hfalse rfl
    subst this
    exact (frame_visitDocVar U file fuel _ _ parent s (by cases mv with | true => rfl | false => cases hm rfl)).bind fun s' h => OkThat.ok ⟨h, Or.inl rfl⟩
  · have := hfalse rfl
    subst this
    refine OkThat.bindOption fun ts _ => OkThat.bindOption fun v hv => ?_
    refine (frame_addVar (exact := false) (mv := mv) s hv ts).bind fun c hc => ?_
    exact (frame_declareOver c.2 file _ c.1 false).bind fun s' h => OkThat.ok ⟨hc.trans h, Or.inr (Or.inl rfl)⟩
  · have := hfalse rfl
    subst this
    split
    · split
      · exact (frame_foreachItem file _ _ s).bind fun s' h => OkThat.ok ⟨h, Or.inr (Or.inl rfl)⟩
      · exact OkThat.ok ⟨Frame.refl s, Or.inr (Or.inl rfl)⟩
    · refine (frame_memberType (exact := false) (mv := mv) U H file fuel s _ (fun e => nomatch e)).bind fun p hp => ?_
      split
      · exact (frame_foreachItem file _ _ p.2).bind fun s' h => OkThat.ok ⟨hp.trans h, Or.inr (Or.inl rfl)⟩
      · exact OkThat.ok ⟨hp, Or.inr (Or.inl rfl)⟩
    · exact OkThat.ok ⟨Frame.refl s, Or.inr (Or.inl rfl)⟩
  · have := hfalse rfl
    subst this
    exact (frame_visitArgument U file fuel _ _ parent s).bind fun s' h => OkThat.ok ⟨h, Or.inl rfl⟩
  · exact (frame_resolveEach U fuel s _ parent).bind fun s' h => OkThat.ok ⟨h, Or.inl rfl⟩
  · next left token right =>
    split
    · next ht =>
      have := hfalse (by simp [Node.declares, ht])
      subst this
      exact (frame_visitAssignment U H file fuel left right s).bind fun s' h => OkThat.ok ⟨h, Or.inl rfl⟩
    · exact OkThat.ok ⟨Frame.refl s, Or.inr (Or.inl rfl)⟩
  · exact (frame_memberType U H file fuel s _ (fun e => (he e).2 rfl)).bind fun p hp => OkThat.ok ⟨hp, Or.inl rfl⟩
  · exact (frame_memberType U H file fuel s _ (fun e => (he e).2 rfl)).bind fun p hp => OkThat.ok ⟨hp, Or.inl rfl⟩
  · exact OkThat.ok ⟨Frame.refl s, Or.inl rfl⟩
  · exact OkThat.ok ⟨Frame.refl s, Or.inr (Or.inl rfl)⟩

end Env

end PhpLs
