import Verif.Props.VariableOne
import Verif.Props.VariableCatch

/-!
# C75: what is known first of a variable stays

What is known of a variable is only ever extended at its end: an assignment and a comment add to it, and only a loop, a `catch` and
a parameter give the name anew.  As a use leads to the first class that is known (`C75_use`), all uses of a variable lead to the class
that was said first, whatever is assigned to the variable in between.
-/

namespace PhpLs.Linked

open Out Env

/-! ## Specification -/

/-- The symbol `m`, if it has the name `x`, is not lost, keeps its name, and its data types do not lose or change an entry. -/
def Ext (x : Text) (m : NodeId) (s s' : Env) : Prop :=
  s.arena.Ok → s'.arena.Ok ∧ (s.arena.Live m → ∀ v, s.arena.get? m = some v → v.plainName = x →
    s'.arena.Live m ∧ ∃ v', s'.arena.get? m = some v' ∧ v'.plainName = x ∧ v.dataTypes <+: v'.dataTypes)

/-- The symbol that the name `x` stands for has this name. -/
def Own (x : Text) (s : Env) : Prop := ∀ n v, s.stands x = some n → s.arena.get? n = some v → v.plainName = x

/-- There is no parameter of the name `x` in a tree. -/
inductive NoParameter (x : Text) : Node → Prop
  | mk {n : Node} : (∀ a b c d e f g h, n = .functionArgument a b c d e f g h → b.label ≠ some x) →
      (∀ c ∈ n.children, NoParameter x c) → NoParameter x n

/-! ## Lemmas -/

variable {x : Text} {m : NodeId}

theorem Ext.ofArena {s s' : Env} (h : s'.arena = s.arena) : Ext x m s s' := fun ha => by
  refine ⟨by rw [h]; exact ha, fun hm v hv hx => ⟨by rw [h]; exact hm, v, by rw [h]; exact hv, hx, List.prefix_rfl⟩⟩

theorem Ext.refl (s : Env) : Ext x m s s := .ofArena rfl

theorem Ext.trans {s s1 s' : Env} (h : Ext x m s s1) (h' : Ext x m s1 s') : Ext x m s s' := fun ha => by
  obtain ⟨a, b⟩ := h ha
  obtain ⟨a', b'⟩ := h' a
  refine ⟨a', fun hm v hv hx => ?_⟩
  obtain ⟨l, v1, e1, n1, p1⟩ := b hm v hv hx
  obtain ⟨l', v2, e2, n2, p2⟩ := b' l v1 e1 n1
  exact ⟨l', v2, e2, n2, p1.trans p2⟩

theorem ext_addVar (s : Env) (sym : Symbol) : OkThat (fun p : NodeId × Env => Ext x m s p.2) (s.addVar sym) := by
  unfold addVar
  refine OkThat.bindOption fun y hy => OkThat.ok fun ha => ?_
  obtain ⟨p', q, e, hp⟩ := Arena.has_of_get? hy
  refine ⟨Arena.ok_addChild ha (e ▸ Forest.mem_idxs.2 ⟨p', y, hp.flat, rfl⟩) sym, fun hm v hv hx => ⟨?_, ?_⟩⟩
  · obtain ⟨u, z, hu⟩ := hm.has
    exact ((Arena.has_addChild ha hp e sym m u z).2 (.inl hu)).live
  · exact ⟨v, (get?_addChild_old ha hy sym hm).trans hv, hx, List.prefix_rfl⟩

/-- The data types of one symbol get longer. -/
theorem ext_modify (s : Env) (i : NodeId) (more : List SymRef) :
    Ext x m s { s with arena := s.arena.modify i fun v => { v with dataTypes := v.dataTypes ++ more } } := fun ha => by
  refine ⟨Arena.ok_modify ha _ _, fun hm v hv hx => ⟨Arena.live_modify ha _ _ hm, ?_⟩⟩
  by_cases e : m.idx = i.idx
  · have hi : s.arena.get? i = some v := by unfold Arena.get? at hv ⊢; rw [← e]; exact hv
    have := get?_modify_self ha hi (fun v => { v with dataTypes := v.dataTypes ++ more })
    refine ⟨{ v with dataTypes := v.dataTypes ++ more }, ?_, hx, List.prefix_append v.dataTypes more⟩
    unfold Arena.get? at this ⊢
    rw [e]
    exact this
  · exact ⟨v, get?_modify_other ha hv _ e, hx, List.prefix_rfl⟩

/-- The data types of a symbol of another name are replaced. -/
theorem ext_other (s : Env) (i : NodeId) (w : Symbol) (hi : s.arena.get? i = some w) (hw : w.plainName ≠ x) (u : Symbol → Symbol) :
    Ext x m s { s with arena := s.arena.modify i u } := fun ha => by
  refine ⟨Arena.ok_modify ha _ _, fun hm v hv hx => ⟨Arena.live_modify ha _ _ hm, v, ?_, hx, List.prefix_rfl⟩⟩
  refine get?_modify_other ha hv _ fun e => hw ?_
  unfold Arena.get? at hv hi
  rw [e, hi] at hv
  cases hv
  exact hx

theorem ext_declareNew (s : Env) (file : NodeId) (token : Token) (n : NodeId) :
    OkThat (fun p : Option NodeId × Env => Ext x m s p.2) (s.declareNew file token n) := by
  unfold declareNew
  exact (OkThat.any _).bind fun r _ => OkThat.ok (.ofArena rfl)

theorem ext_declareOver (s : Env) (file : NodeId) (token : Token) (n : NodeId) (addRef : Bool) :
    OkThat (fun s' : Env => Ext x m s s') (s.declareOver file token n addRef) := by
  unfold declareOver
  exact (OkThat.any _).bind fun r _ => OkThat.ok (.ofArena rfl)

theorem ext_refLocal (s : Env) (file : NodeId) (token : Token) (n : NodeId) :
    OkThat (fun s' : Env => Ext x m s s') (s.refLocal file token n) := by
  unfold refLocal
  exact (OkThat.any _).bind fun r _ => OkThat.ok (.ofArena rfl)

theorem ext_resolve (U : Unicode) (fuel : Nat) (s : Env) (t : TypeRef) (anchor : NodeId) :
    OkThat (fun p : Option NodeId × Env => Ext x m s p.2) (s.resolve U fuel t anchor) := by
  unfold resolve
  exact (OkThat.any _).bind fun r _ => OkThat.ok (.ofArena rfl)

theorem ext_resolveEach (U : Unicode) (fuel : Nat) (s : Env) (ts : List TypeRef) (anchor : NodeId) :
    OkThat (fun s' : Env => Ext x m s s') (s.resolveEach U fuel ts anchor) := by
  refine OkThat.foldlM (P := fun s' : Env => Ext x m s s') ?_ ts s (Ext.refl s)
  intro s' t h
  exact (ext_resolve (x := x) (m := m) U fuel s' t anchor).bind fun p hp => OkThat.ok (h.trans hp)

theorem ext_resolveTypes (U : Unicode) (fuel : Nat) (s : Env) (ts : List TypeRef) (anchor : NodeId) :
    OkThat (fun p : List SymRef × Env => Ext x m s p.2) (s.resolveTypes U fuel ts anchor) := by
  refine OkThat.foldlM (P := fun p : List SymRef × Env => Ext x m s p.2) ?_ ts ([], s) (Ext.refl s)
  intro acc t h
  exact (ext_resolve (x := x) (m := m) U fuel acc.2 t anchor).bind fun p hp => OkThat.bindOption fun ref _ => OkThat.ok (h.trans hp)

theorem ext_assign (s : Env) (token : Token) (d : Option NodeId) (file : NodeId) {β : Type} {P : β → Prop}
    {f : NodeId × Env → Option NodeId × Env → Out β}
    (h : ∀ (c : NodeId × Env) (e : Option NodeId × Env), Ext x m s e.2 → OkThat P (f c e)) :
    OkThat P (do
      let sym ← assigned token d
      let c ← s.addVar sym
      let e ← c.2.declareNew file token c.1
      f c e) := by
  refine (OkThat.any _).bind fun v _ => ?_
  refine (ext_addVar (x := x) (m := m) s v).bind fun c hc => ?_
  exact (ext_declareNew (x := x) (m := m) c.2 file token c.1).bind fun e he => h c e (hc.trans he)

def ExtFn (x : Text) (m : NodeId) (call : Env → Node → Out (Option NodeId × Env)) : Prop :=
  ∀ s n, OkThat (fun p : Option NodeId × Env => Ext x m s p.2) (call s n)

theorem ExtFn.each {call : Env → Node → Out (Option NodeId × Env)} (hc : ExtFn x m call) (l : List Node) : ∀ s : Env,
    OkThat (fun s' : Env => Ext x m s s') (l.foldlM (fun s c => do let q ← call s c; pure q.2) s) := by
  induction l with
  | nil => exact fun s => OkThat.ok (.refl s)
  | cons n l ih =>
    intro s
    rw [List.foldlM_cons]
    refine OkThat.bind (Q := fun s' => Ext x m s s') ?_ fun s' h => (ih s').mono fun _ h' => h.trans h'
    exact (hc s n).bind fun q hq => OkThat.ok hq

theorem ExtFn.opt {call : Env → Node → Out (Option NodeId × Env)} (hc : ExtFn x m call) (o : Option Node) (s : Env) :
    OkThat (fun s' : Env => Ext x m s s') (match o with
      | some i => do let p ← call s i; pure p.2
      | none => pure s) := by
  cases o with
  | none => exact OkThat.ok (.refl s)
  | some n => exact (hc s n).bind fun q hq => OkThat.ok hq

theorem ext_rootOf (U : Unicode) (file : NodeId) {call : Env → Node → Out (Option NodeId × Env)} (hc : ExtFn x m call)
    (node : Node) : ∀ (fuel : Nat) (cur : Node) (chain : List Node) (s : Env),
    OkThat (fun p : Root × Env => Ext x m s p.2) (rootOf U file call node fuel cur chain s)
  | 0, _, _, _ => OkThat.deep
  | fuel + 1, cur, chain, s => by
    have ih := ext_rootOf U file hc node fuel
    unfold rootOf
    split
    · next left token right =>
      split
      · split
        · next v =>
          refine (hc s right).bind fun d hd => ?_
          refine ext_assign (x := x) (m := m) d.2 v d.1 file fun c e he => ?_
          exact (ih _ chain e.2).mono fun q hq => (hd.trans he).trans hq
        · exact OkThat.ok (.refl s)
      · refine (hc s left).bind fun p hp => ?_
        exact (hc p.2 right).bind fun q hq => OkThat.ok (hp.trans hq)
    · next check qm trueArm colon falseArm =>
      refine (hc s check).bind fun p hp => ?_
      refine OkThat.bind (Q := fun q : Option NodeId × Env => Ext x m s q.2) ?_ fun q hq => ?_
      · cases trueArm with
        | none => exact OkThat.ok hp
        | some t => exact (hc p.2 t).mono fun q hq => hp.trans hq
      · exact (hc q.2 falseArm).bind fun w hw => OkThat.ok (hq.trans hw)
    · exact ih _ chain s
    · exact ih _ chain s
    · exact ih _ chain s
    · exact ih _ chain s
    · next callee op ps cp =>
      refine (hc.each ps s).bind fun s' h => ?_
      exact (ih _ chain s').mono fun q hq => h.trans hq
    · next ob es cb => exact (hc.each es s).bind fun s' h => OkThat.ok h
    · exact (hc s _).bind fun p hp => OkThat.ok hp
    · exact ih _ _ s
    · exact ih _ _ s
    · next token =>
      split
      · exact OkThat.ok (.refl s)
      · next n _ =>
        refine (ext_refLocal (x := x) (m := m) s file token n).bind fun s' h => ?_
        split
        · exact OkThat.ok h
        · split
          · exact OkThat.ok h
          · refine OkThat.bindOption fun sym _ => ?_
            exact (variableType_of U fuel n sym.dataTypes s').bind fun p hp => OkThat.ok (h.trans (.ofArena hp.1))
    · next token =>
      split
      · exact OkThat.ok (.refl s)
      · split
        · split
          · exact OkThat.ok (.refl s)
          · next c _ =>
            refine OkThat.bindOption fun sym _ => ?_
            exact (OkThat.any _).bind fun p _ => OkThat.ok (.ofArena rfl)
        · split
          · exact OkThat.ok (.refl s)
          · exact (ext_resolve (x := x) (m := m) U fuel s _ _).bind fun p hp => OkThat.ok hp
    · refine (ext_resolve (x := x) (m := m) U fuel s _ _).bind fun p hp => ?_
      split
      · exact OkThat.ok hp
      · exact OkThat.ok hp
    · next array ob index cb =>
      refine (hc.opt index s).bind fun s' h => ?_
      split
      · next collection =>
        split
        · exact OkThat.ok h
        · next v _ =>
          refine (ext_refLocal (x := x) (m := m) s' file collection v).bind fun s2 h2 => ?_
          refine OkThat.bindOption fun sym _ => ?_
          split
          · exact OkThat.ok (h.trans h2)
          · exact OkThat.ok (h.trans h2)
      · exact (ih _ _ s').mono fun q hq => h.trans hq
      · next array2 a index2 b =>
        refine (hc.opt index2 s').bind fun s2 h2 => ?_
        exact (ih _ _ s2).mono fun q hq => (h.trans h2).trans hq
      · exact OkThat.ok h
    · exact (hc.each node.children s).bind fun s' h => OkThat.ok h

theorem ext_memberType (U : Unicode) (H : HashOrder) (file : NodeId) : ∀ fuel : Nat, ExtFn x m (memberType U H file fuel)
  | 0 => fun _ _ => OkThat.deep
  | fuel + 1 => by
    intro s node
    unfold memberType
    refine (ext_rootOf (x := x) (m := m) U file (ext_memberType U H file fuel) node fuel node [] s).bind fun p hp => ?_
    split
    · exact OkThat.ok hp
    · refine OkThat.bindOption fun anc _ => OkThat.bindOption fun top _ => OkThat.bindOption fun f _ => ?_
      split
      · exact OkThat.ok hp
      · exact fun q hq => hp.trans (.ofArena (C65_links U H file fuel _ _ _ _ _ _ _ hq).1)

theorem ext_foreachItem (file collection : NodeId) (kv : Node) (s : Env) :
    OkThat (fun s' : Env => Ext x m s s') (foreachItem file collection kv s) := by
  unfold foreachItem
  refine OkThat.bindOption fun c _ => ?_
  split
  · refine OkThat.bindOption fun ts _ => OkThat.bindOption fun v hv => ?_
    refine (ext_addVar (x := x) (m := m) s _).bind fun n hn => ?_
    exact (ext_declareOver (x := x) (m := m) n.2 file _ n.1 false).mono fun _ h => hn.trans h
  · exact OkThat.ok (.refl s)

theorem ext_visitAssignment (U : Unicode) (H : HashOrder) (file : NodeId) (fuel : Nat) (left right : Node) (s : Env) :
    OkThat (fun s' : Env => Ext x m s s') (visitAssignment U H file fuel left right s) := by
  unfold visitAssignment
  refine (ext_memberType (x := x) (m := m) U H file fuel s right).bind fun d hd => ?_
  split
  · next v =>
    refine ext_assign (x := x) (m := m) d.2 v d.1 file fun c e he => ?_
    refine OkThat.bindOption fun repr _ => ?_
    split
    · split
      · exact OkThat.bindOption fun ref _ => OkThat.ok ((hd.trans he).trans (ext_modify (x := x) (m := m) e.2 repr [ref]))
      · exact OkThat.ok (hd.trans he)
    · exact OkThat.ok (hd.trans he)
  · exact (ext_memberType (x := x) (m := m) U H file fuel d.2 left).bind fun p hp => OkThat.ok (hd.trans hp)

theorem ext_visitDocVar (U : Unicode) (file : NodeId) (fuel : Nat) (name : Token) (types : Option (List TypeRef))
    (parent : NodeId) (s : Env) : OkThat (fun s' : Env => Ext x m s s') (visitDocVar U file fuel name types parent s) := by
  unfold visitDocVar
  refine (ext_resolveTypes (x := x) (m := m) U fuel s _ parent).bind fun p hp => ?_
  dsimp only
  split
  · next existing _ =>
    refine OkThat.bindOption fun a ha => ?_
    refine OkThat.bind (ext_declareNew (x := x) (m := m) { p.2 with arena := a } file name existing) fun q hq => OkThat.ok ?_
    refine (hp.trans (ext_modify (x := x) (m := m) p.2 existing p.1)).trans (Ext.trans (s1 := { p.2 with arena := a }) (fun hk => ?_) hq)
    exact ⟨Arena.ok_moveTo hk ha, fun hm v hv hx =>
      ⟨(Arena.live_moveTo hk ha m).2 hm, v, (get?_moveTo hk ha hm).trans hv, hx, List.prefix_rfl⟩⟩
  · refine OkThat.bindOption fun v hv => ?_
    refine (ext_addVar (x := x) (m := m) p.2 _).bind fun c hc => ?_
    exact (ext_declareNew (x := x) (m := m) c.2 file name c.1).bind fun q hq => OkThat.ok ((hp.trans hc).trans hq)

theorem ext_visitClass (U : Unicode) (fuel : Nat) (name : Token) (parent : NodeId) (s : Env) :
    OkThat (fun p : NextAction × Env => Ext x m s p.2) (visitClass U fuel name parent s) := by
  unfold visitClass
  refine (ext_resolve (x := x) (m := m) U fuel s _ parent).bind fun p hp => ?_
  split
  · exact OkThat.ok (hp.trans (.ofArena rfl))
  · exact OkThat.ok hp

theorem ext_visitFunction (U : Unicode) (fuel : Nat) (doc : Option Node) (parent : NodeId) (s : Env) :
    OkThat (fun p : NextAction × Env => Ext x m s p.2) (visitFunction U fuel doc parent s) := by
  unfold visitFunction
  refine OkThat.bind (Q := fun s' : Env => Ext x m s s') ?_ fun s' h => OkThat.ok h
  split
  · exact ext_resolveEach U fuel s _ parent
  · exact OkThat.ok (.refl s)

theorem ext_visitArgument (U : Unicode) (file : NodeId) (fuel : Nat) (name : Token) (doc : Option Node) (parent : NodeId)
    (s : Env) (h : name.label ≠ some x) : OkThat (fun s' : Env => Ext x m s s') (visitArgument U file fuel name doc parent s) := by
  unfold visitArgument
  have find : OkThat (fun o : Option NodeId => ∀ arg, o = some arg → ∀ ha : s.arena.Ok, ∃ v, s.arena.get? arg = some v ∧ v.plainName ≠ x)
      (match name.label with
        | some l => childNamed s l
        | none => do
          let _ ← .ofOption (s.arena.children? s.resolver.scopeContainer)
          pure none) := by
    split
    · next l hl =>
      unfold childNamed
      refine OkThat.bindOption fun cs hcs => OkThat.ok fun arg harg ha => ?_
      obtain ⟨c, hc, rfl⟩ := Option.map_eq_some_iff.1 harg
      have hm := List.mem_of_find?_eq_some hc
      have hn : c.2.plainName = l := by simpa using List.find?_some hc
      unfold Arena.children? at hcs
      obtain ⟨⟨j, w, k⟩, hx, rfl⟩ := Option.map_eq_some_iff.1 hcs
      obtain ⟨_, _, hk⟩ := Forest.node?_some hx
      obtain ⟨k', hk'⟩ := Forest.node?_mem ha.forest (hk _ (Forest.tops_flat hm))
      refine ⟨c.2, by simp [Arena.get?, hk'], fun e => h ?_⟩
      rw [hl, ← hn, e]
    · exact OkThat.bindOption fun _ _ => OkThat.ok fun _ e => nomatch e
  refine find.bind fun o ho => ?_
  split
  · exact OkThat.ok (.refl s)
  · next arg =>
    refine OkThat.bindOption fun sym hsym => ?_
    refine OkThat.bind (Q := fun p : List SymRef × Env => p.2.arena = s.arena) ?_ fun p hp => ?_
    · refine OkThat.foldlM (P := fun p : List SymRef × Env => p.2.arena = s.arena) ?_ _ ([], s) rfl
      intro acc t h
      unfold resolve
      refine OkThat.bind (Q := fun q : Option NodeId × Env => q.2.arena = s.arena) ?_ fun q hq =>
        OkThat.bindOption fun ref _ => OkThat.ok hq
      exact (OkThat.any _).bind fun r _ => OkThat.ok h
    have h1 : Ext x m s { p.2 with arena := p.2.arena.modify arg fun v => { v with dataTypes := p.1 } } := fun ha => by
      obtain ⟨v, hv, hvx⟩ := ho arg rfl ha
      exact ((Ext.ofArena hp).trans (ext_other p.2 arg v (by rw [hp]; exact hv) hvx _)) ha
    refine (ext_declareOver (x := x) (m := m) _ file name arg true).bind fun s2 h2 => ?_
    split
    · exact (ext_refLocal (x := x) (m := m) s2 file _ arg).mono fun _ h3 => (h1.trans h2).trans h3
    · exact OkThat.ok (h1.trans h2)

theorem ext_visitName (U : Unicode) (H : HashOrder) (file : NodeId) (fuel : Nat) (node : Node) (parent : NodeId) (s : Env)
    (hn : ∀ a b c d e f g h, node = .functionArgument a b c d e f g h → b.label ≠ some x) :
    OkThat (fun p : NextAction × Env => Ext x m s p.2) (visitName U H file fuel node parent s) := by
  unfold visitName
  split
  · refine OkThat.bindOption fun name _ => ?_
    split
    · exact OkThat.ok (.refl s)
    · refine OkThat.bindOption fun sym _ => ?_
      refine OkThat.bind (Q := fun s' : Env => Ext x m s s') ?_ fun s' h => OkThat.bindOption fun r _ => OkThat.ok (h.trans (.ofArena rfl))
      split
      · exact OkThat.ok (.refl s)
      · exact OkThat.bindOption fun f _ => OkThat.bindOption fun r _ => OkThat.ok (.ofArena rfl)
  · exact (ext_resolve (x := x) (m := m) U fuel s _ parent).bind fun p hp => OkThat.ok hp
  · exact ext_visitClass U fuel _ parent s
  · exact ext_visitClass U fuel _ parent s
  · exact ext_visitClass U fuel _ parent s
  · exact ext_visitFunction U fuel _ parent s
  · exact ext_visitFunction U fuel _ parent s
  · exact OkThat.ok (.refl s)
  · exact OkThat.ok (.refl s)
  · next token =>
    split
    · exact (ext_refLocal (x := x) (m := m) s file token _).bind fun s' h => OkThat.ok h
    · refine OkThat.bindOption fun v hv => ?_
      refine (ext_addVar (x := x) (m := m) s v).bind fun c hc => ?_
      exact (ext_declareNew (x := x) (m := m) c.2 file token c.1).bind fun p hp => OkThat.ok (hc.trans hp)
  · exact (ext_visitDocVar (x := x) (m := m) U file fuel _ _ parent s).bind fun s' h => OkThat.ok h
  · refine OkThat.bindOption fun ts _ => OkThat.bindOption fun v hv => ?_
    refine (ext_addVar (x := x) (m := m) s _).bind fun c hc => ?_
    exact (ext_declareOver (x := x) (m := m) c.2 file _ c.1 false).bind fun s' h => OkThat.ok (hc.trans h)
  · split
    · split
      · exact (ext_foreachItem (x := x) (m := m) file _ _ s).bind fun s' h => OkThat.ok h
      · exact OkThat.ok (.refl s)
    · refine (ext_memberType (x := x) (m := m) U H file fuel s _).bind fun p hp => ?_
      split
      · exact (ext_foreachItem (x := x) (m := m) file _ _ p.2).bind fun s' h => OkThat.ok (hp.trans h)
      · exact OkThat.ok hp
    · exact OkThat.ok (.refl s)
  · exact (ext_visitArgument U file fuel _ _ parent s (hn _ _ _ _ _ _ _ _ rfl)).bind fun s' h => OkThat.ok h
  · exact (ext_resolveEach (x := x) (m := m) U fuel s _ parent).bind fun s' h => OkThat.ok h
  · next left token right =>
    split
    · exact (ext_visitAssignment (x := x) (m := m) U H file fuel left right s).bind fun s' h => OkThat.ok h
    · exact OkThat.ok (.refl s)
  · exact (ext_memberType (x := x) (m := m) U H file fuel s _).bind fun p hp => OkThat.ok hp
  · exact (ext_memberType (x := x) (m := m) U H file fuel s _).bind fun p hp => OkThat.ok hp
  · exact OkThat.ok (.refl s)
  · exact OkThat.ok (.refl s)

theorem ext_before (file : NodeId) (node : Node) (parent : NodeId) (s : Env) :
    OkThat (fun s' : Env => Ext x m s s') (beforeName file node parent s) := by
  have hf : ∀ name : Token, OkThat (fun s' : Env => Ext x m s s') (beforeFunction file name s) := by
    intro name
    unfold beforeFunction
    refine OkThat.bindOption fun n _ => (OkThat.any _).bind fun c _ => ?_
    split
    · exact OkThat.ok (.ofArena rfl)
    · exact OkThat.bindOption fun r _ => OkThat.ok (.ofArena rfl)
  have hp : ∀ name : Token, OkThat (fun s' : Env => Ext x m s s') (beforeProperty file name s) := by
    intro name
    unfold beforeProperty
    split
    · exact OkThat.ok (.refl s)
    · refine (OkThat.any _).bind fun c _ => ?_
      split
      · exact OkThat.ok (.refl s)
      · exact OkThat.bindOption fun r _ => OkThat.ok (.ofArena rfl)
  unfold beforeName
  split
  · exact hf _
  · exact hf _
  · exact hp _
  · exact hp _
  · refine OkThat.bindOption fun r _ => (OkThat.any _).bind fun c _ => ?_
    split
    · exact OkThat.ok (.ofArena rfl)
    · exact OkThat.ok (.ofArena rfl)
  · exact OkThat.ok (.refl s)

theorem ext_after (node : Node) (parent : NodeId) (s : Env) : OkThat (fun s' : Env => Ext x m s s') (afterName node parent s) := by
  cases node <;> exact OkThat.ok (.ofArena rfl)

theorem ext_all {kids : List Node} {walk : Env → Node → Out Env}
    (h : ∀ c ∈ kids, ∀ s, OkThat (fun s' : Env => Ext x m s s') (walk s c)) : ∀ s : Env,
    OkThat (fun s' : Env => Ext x m s s') (kids.foldlM walk s) := by
  induction kids with
  | nil => exact fun s => OkThat.ok (.refl s)
  | cons c r ih =>
    intro s
    rw [List.foldlM_cons]
    refine (h c (List.mem_cons_self ..) s).bind fun s' h1 => ?_
    exact (ih (fun c hc => h c (List.mem_cons_of_mem _ hc)) s').mono fun _ h2 => h1.trans h2

theorem ext_walk (U : Unicode) (H : HashOrder) (file : NodeId) (F : Nat) : ∀ (fuel : Nat) (node : Node) (parent : NodeId) (s : Env),
    NoParameter x node → OkThat (fun s' : Env => Ext x m s s') (traverse Node.children (Env.nameVisitor U H file F) fuel node parent s)
  | 0, _, _, _, _ => OkThat.deep
  | fuel + 1, node, parent, s, .mk hn hkids => by
    unfold traverse
    refine OkThat.bind (ext_before (x := x) (m := m) file node parent s) fun s1 h1 => ?_
    refine OkThat.bind (ext_visitName (x := x) (m := m) U H file F node parent s1 hn) fun p hp => ?_
    refine OkThat.bind (Q := fun s3 : Env => Ext x m s s3) ?_ fun s3 h3 => ?_
    · split
      · exact OkThat.ok (h1.trans hp)
      · exact (ext_all (x := x) (m := m) (fun c hc s => ext_walk U H file F fuel c _ s (hkids c hc)) p.2).mono fun s3 h3 => (h1.trans hp).trans h3
    · exact (ext_after (x := x) (m := m) node parent s3).mono fun s' h => h3.trans h

/-! ## The claims -/

/-- **C75, what is known stays**: the walk over trees in which nothing gives the name anew and no function has a parameter of it keeps the symbol of the
name, and all that is known of it stays known, in the same order and in front of what is said there. -/
theorem C75_stays (U : Unicode) (H : HashOrder) (file : NodeId) (F fuel : Nat) (parent : NodeId) (x : Text) (n : NodeId) :
    ∀ (nodes : List Node) (s s' : Env), s.arena.Ok → s.stands x = some n → s.arena.Live n → Own x s →
      (∀ c ∈ nodes, Fixed x c ∧ NoParameter x c) →
      nodes.foldlM (fun s c => traverse Node.children (Env.nameVisitor U H file F) fuel c parent s) s = .ok s' →
      s'.stands x = some n ∧ s'.arena.Live n ∧ s.known x <+: s'.known x := by
  intro nodes s s' ha hs hl ho hc e
  have h1 := steady_all (x := x) (fun c h s => C77_steady U H file F fuel c parent s (hc c h).1) s _ e n hs
  obtain ⟨_, h2⟩ := ext_all (x := x) (m := n) (fun c h s => ext_walk U H file F fuel c parent s (hc c h).2) s _ e ha
  obtain ⟨v, e1, _⟩ := Arena.live_get? ha hl
  obtain ⟨h3, v', e2, _, hp⟩ := h2 hl v e1 (ho n v hs e1)
  refine ⟨h1, h3, ?_⟩
  rw [known_of hs e1, known_of h1 e2]
  exact hp

/-- **C75, all uses lead to the class said first**: if the first that is known of a variable leads to a class, then behind any statements
in which nothing gives the name anew and no function has a parameter of it a use of the variable still leads to this class, whatever was assigned. -/
theorem C75_lasting (U : Unicode) (H : HashOrder) (file : NodeId) (F fuel fuel' : Nat) (parent : NodeId) (x : Text) (w : Token)
    (ref : SymRef) (rest : List SymRef) (d : NodeId) (nodes : List Node) (s s' s'' : Env) (o : Option NodeId) (h : s.Lives)
    (hw : w.label = some x) (ht : x ≠ c!"this") (hk : s.known x = ref :: rest) (hd : ref.node = some d)
    (ho : Own x s) (hc : ∀ c ∈ nodes, Fixed x c ∧ NoParameter x c)
    (e : nodes.foldlM (fun s c => traverse Node.children (Env.nameVisitor U H file F) fuel c parent s) s = .ok s')
    (e' : memberType U H file fuel' s' (.variable w) = .ok (o, s'')) : o = some d := by
  cases hs : s.stands x with
  | none => rw [known_none hs] at hk; cases hk
  | some n =>
    obtain ⟨_, _, t, ht'⟩ := C75_stays U H file F fuel parent x n nodes s s' h.arena hs (stands_live h hs) ho hc e
    rw [hk] at ht'
    exact (C75_use U H file fuel' w x ref (rest ++ t) d s' s'' o hw ht ht'.symm hd e').1

theorem assigned_name {v : Token} {d : Option NodeId} {sym : Symbol} (hv : v.label = some x) (ht : v.t = .variable)
    (h : assigned v d = .ok sym) : sym.plainName = x := by
  have key : ∀ w, Symbol.ofToken v = some w → w.name = '$' :: x := by
    intro w hw
    unfold Symbol.ofToken at hw
    simp only [Option.bind_eq_bind, Option.bind_eq_some_iff, Option.pure_def, Option.some.injEq] at hw
    obtain ⟨_, _, n, hn, rfl⟩ := hw
    unfold Token.display at hn
    rw [hv, ht] at hn
    cases hn
    rfl
  unfold assigned at h
  cases d with
  | none =>
    have := key _ (Out.ofOption_ok h)
    unfold Symbol.plainName
    rw [this]; rfl
  | some d =>
    obtain ⟨r, hr, h⟩ := Out.bind_eq_ok h
    obtain ⟨w, hw, h⟩ := Out.bind_eq_ok h
    cases h
    have := key _ (Out.ofOption_ok hw)
    unfold Symbol.plainName
    dsimp only
    rw [this]; rfl

/-- Behind an assignment the symbol of the variable has its name. -/
theorem own_assignment (U : Unicode) (H : HashOrder) (file : NodeId) (fuel : Nat) (v : Token) (right : Node) (s s₁ s' : Env)
    (d : Option NodeId) (h : s.Lives) (hv : v.label = some x) (ht : v.t = .variable)
    (e : visitAssignment U H file fuel (.variable v) right s = .ok s')
    (hright : memberType U H file fuel s right = .ok (d, s₁)) (ho : Own x s₁) : Own x s' := by
  unfold visitAssignment at e
  obtain ⟨q, hd, e⟩ := Out.bind_eq_ok e
  rw [hright] at hd
  cases hd
  have h1 := (up_memberType U H file fuel s right h) _ hright
  dsimp only at e
  obtain ⟨sym, hsym, e⟩ := Out.bind_eq_ok e
  obtain ⟨c, hc, e⟩ := Out.bind_eq_ok e
  obtain ⟨p, hp, e⟩ := Out.bind_eq_ok e
  obtain ⟨repr, hr, e⟩ := Out.bind_eq_ok e
  obtain ⟨label, hl, hst, _, _, hlive, hcase⟩ := declared h1.lives hc hp (Out.ofOption_ok hr)
  rw [hv] at hl
  cases hl
  have hy : ∃ y, p.2.arena.get? repr = some y ∧ y.plainName = x := by
    rcases hcase with ⟨hs, _, hg⟩ | ⟨_, _, hg⟩
    · obtain ⟨y, hy, _⟩ := Arena.live_get? h1.lives.arena (stands_live h1.lives hs)
      exact ⟨y, hg.trans hy, ho repr y hs hy⟩
    · exact ⟨sym, hg, assigned_name hv ht hsym⟩
  obtain ⟨y, hy, hn⟩ := hy
  have same : Own x p.2 := by
    intro n w hn' hw
    rw [hst] at hn'
    cases hn'
    rw [hy] at hw
    cases hw
    exact hn
  cases d with
  | none => cases e; exact same
  | some dt =>
    dsimp only at e
    split at e
    · obtain ⟨ref, _, e⟩ := Out.bind_eq_ok e
      cases e
      intro n w hn' hw
      have hn' : p.2.stands x = some n := hn'
      rw [hst] at hn'
      cases hn'
      dsimp only at hw
      rw [get?_modify_self hlive.arena hy] at hw
      cases hw
      exact hn
    · cases e; exact same

/-- **C75, the first assignment lasts**: behind `$v = value`, if nothing was known of the variable before and the value has a class, and
then any such statements, a use of the variable leads to the class of the value. -/
theorem C75_first_lasting (U : Unicode) (H : HashOrder) (file : NodeId) (F G fuel fuel' : Nat) (parent : NodeId) (x : Text)
    (v w : Token) (right : Node) (nodes : List Node) (s s₁ s₂ s' s'' : Env) (d : NodeId) (o : Option NodeId) (h : s.Lives)
    (hv : v.label = some x) (hw : w.label = some x) (ht : x ≠ c!"this")
    (e : visitAssignment U H file G (.variable v) right s = .ok s₂)
    (hright : memberType U H file G s right = .ok (some d, s₁)) (hnone : s₁.known x = []) (hvt : v.t = .variable) (ho : Own x s₁)
    (hc : ∀ c ∈ nodes, Fixed x c ∧ NoParameter x c)
    (e1 : nodes.foldlM (fun s c => traverse Node.children (Env.nameVisitor U H file F) fuel c parent s) s₂ = .ok s')
    (e2 : memberType U H file fuel' s' (.variable w) = .ok (o, s'')) : o = some d := by
  obtain ⟨d', t, label, new, h1, h2, h3, h4, _, _⟩ := C75_assignment U H file G v right s s₂ h e
  rw [hright] at h1
  cases h1
  rw [hv] at h2
  cases h2
  rw [hnone, List.nil_append] at h3
  have ho := own_assignment U H file G v right s s₁ s₂ _ h hv hvt e hright ho
  have hl : s₂.Lives := (Env.up_visitAssignment U H file G _ right h _ e).lives
  match new, h4 with
  | ref :: rest, h4 =>
    exact C75_lasting U H file F fuel fuel' parent x w ref rest d nodes s₂ s' s'' o hl hw ht h3 (List.cons.inj h4).1 ho hc e1 e2

/-- The symbol of a parameter has the name of the parameter. -/
theorem own_argument (U : Unicode) (file : NodeId) (fuel : Nat) (name : Token) (doc : Option Node) (parent : NodeId)
    (s s' : Env) (cs : List (NodeId × Symbol)) (arg : NodeId × Symbol) (h : s.Lives) (hl : name.label = some x)
    (hcs : s.arena.children? s.resolver.scopeContainer = some cs) (harg : cs.find? (fun c => c.2.plainName = x) = some arg)
    (e : visitArgument U file fuel name doc parent s = .ok s') (hst : s'.stands x = some arg.1) : Own x s' := by
  have hn : arg.2.plainName = x := by simpa using List.find?_some harg
  have hg : s.arena.get? arg.1 = some arg.2 := by
    have hm := List.mem_of_find?_eq_some harg
    unfold Arena.children? at hcs
    obtain ⟨⟨j, w, k⟩, hx, rfl⟩ := Option.map_eq_some_iff.1 hcs
    obtain ⟨_, _, hk⟩ := Forest.node?_some hx
    obtain ⟨k', hk'⟩ := Forest.node?_mem h.arena.forest (hk _ (Forest.tops_flat hm))
    simp [Arena.get?, hk']
  unfold visitArgument childNamed at e
  rw [hl, hcs] at e
  obtain ⟨o, ho, e⟩ := Out.bind_eq_ok e
  obtain ⟨cs', hcs', ho⟩ := Out.bind_eq_ok ho
  cases hcs'
  rw [harg] at ho
  cases ho
  dsimp only [Option.map] at e
  obtain ⟨sym, _, e⟩ := Out.bind_eq_ok e
  obtain ⟨p, hp, e⟩ := Out.bind_eq_ok e
  have hp : p.2.arena = s.arena := by
    refine OkThat.foldlM (P := fun p : List SymRef × Env => p.2.arena = s.arena) ?_ _ ([], s) rfl p hp
    intro acc t h
    unfold resolve
    refine OkThat.bind (Q := fun q : Option NodeId × Env => q.2.arena = s.arena) ?_ fun q hq =>
      OkThat.bindOption fun ref _ => OkThat.ok hq
    exact (OkThat.any _).bind fun r _ => OkThat.ok h
  obtain ⟨s2, hs2, e⟩ := Out.bind_eq_ok e
  unfold declareOver at hs2
  obtain ⟨r, _, hs2⟩ := Out.bind_eq_ok hs2
  cases hs2
  have ha : s'.arena = s.arena.modify arg.1 fun v => { v with dataTypes := p.1 } := by
    split at e
    · unfold refLocal at e
      obtain ⟨r', _, e⟩ := Out.bind_eq_ok e
      cases e
      show p.2.arena.modify _ _ = _
      rw [hp]
    · cases e
      show p.2.arena.modify _ _ = _
      rw [hp]
  intro n v hn' hv
  rw [hst] at hn'
  cases hn'
  rw [ha, get?_modify_self h.arena hg] at hv
  cases hv
  exact hn

/-- **C75, the type of a parameter lasts**: behind a parameter whose first declared type is a class, the parameters behind it and any
statements in which nothing gives the name anew, a use of the parameter leads to this class, whatever was assigned to it. -/
theorem C75_argument_lasting (U : Unicode) (H : HashOrder) (file : NodeId) (F G fuel fuel' : Nat) (parent parent' : NodeId) (x : Text)
    (name w : Token) (doc : Option Node) (nodes : List Node) (s s₁ s₂ s' s'' : Env) (cs : List (NodeId × Symbol))
    (arg : NodeId × Symbol) (sym : Symbol) (ref : SymRef) (rest : List SymRef) (d : NodeId) (o : Option NodeId) (h : s.Lives)
    (hl : name.label = some x) (hw : w.label = some x) (ht : x ≠ c!"this") (hsc : s.resolver.localScopes ≠ [])
    (hcs : s.arena.children? s.resolver.scopeContainer = some cs) (harg : cs.find? (fun c => c.2.plainName = x) = some arg)
    (hx : s.arena.get? arg.1 = some sym)
    (hts : s.resolveTypes U G (sym.dataTypes.map (·.typeRef)) parent = .ok (ref :: rest, s₁)) (hd : ref.node = some d)
    (e : visitArgument U file G name doc parent s = .ok s₂) (hc : ∀ c ∈ nodes, Fixed x c ∧ NoParameter x c)
    (e1 : nodes.foldlM (fun s c => traverse Node.children (Env.nameVisitor U H file F) fuel c parent' s) s₂ = .ok s')
    (e2 : memberType U H file fuel' s' (.variable w) = .ok (o, s'')) : o = some d := by
  have hlive := Arena.children_live hcs (List.mem_of_find?_eq_some harg)
  obtain ⟨ts, t, h1, h2, h3, _⟩ := C75_argument U file G name x doc parent s s₂ cs arg sym h hl hsc hcs harg hx hlive e
  rw [hts] at h1
  cases h1
  have hl2 : s₂.Lives := (Env.up_visitArgument U file G name doc parent h _ e).lives
  have ho := own_argument U file G name doc parent s s₂ cs arg h hl hcs harg e h2
  exact C75_lasting U H file F fuel fuel' parent' x w ref rest d nodes s₂ s' s'' o hl2 hw ht h3 hd ho hc e1 e2

/-! ## Non-vacuity -/

/-- Checks that there is no parameter of the name in a tree. -/
def noParameterIn (x : Text) : Nat → Node → Bool
  | 0, _ => false
  | fuel + 1, n => (match n with
    | .functionArgument _ name _ _ _ _ _ _ => name.label != some x
    | _ => true) && n.children.all fun c => noParameterIn x fuel c

theorem noParameterIn_sound : ∀ (fuel : Nat) (n : Node), noParameterIn x fuel n = true → NoParameter x n
  | 0, _, h => nomatch h
  | fuel + 1, n, h => by
    unfold noParameterIn at h
    rw [Bool.and_eq_true] at h
    refine .mk ?_ fun c hc => noParameterIn_sound fuel c (List.all_eq_true.1 h.2 c hc)
    rintro a b c d e f g i rfl
    simpa using h.1

/-- Checks that the symbol of a name has the name. -/
def ownB (x : Text) (s : Env) : Bool := ((s.stands x).bind fun n => s.arena.get? n).all fun v => decide (v.plainName = x)

theorem ownB_sound {s : Env} (h : ownB x s = true) : Own x s := by
  intro n v hn hv
  unfold ownB at h
  rw [hn, Option.bind_some, hv] at h
  simpa using h

/-- `$x = new A;` and behind it `if ($y) { $x = new B; } $x = new B; $z = $x; f($x); function g($y) { $x = 1; }` and then a use of `$x`:
whether the hypotheses of the theorems hold, how much is known of `$x` before and behind the statements, and the class of the use. -/
private def stays : Out (List Bool × List (List Nat) × List Nat) := do
  let st ← startWith [(c!"a.php", c!"<?php class A { public $a; } class B { public $b; } function g($y) { $x = 1; }")]
  let file ← .ofOption (Dict.get? st.files c!"a.php")
  let source := c!"<?php if ($y) { $x = new B; } $x = new B; $z = $x; f($x); function g($y) { $x = 1; }"
  match Backend.sourceToAst plainHost source with
  | .ok (some (ns, _, _)) => do
    let tok (col : Nat) (t : TT) (l : Option Text) : Token := ⟨col, 5, t, l, none⟩
    let s : Env := ⟨st.arena, { Resolver.new st.globals file with localScopes := [[]] }⟩
    let s1 ← visitAssignment Unicode.ascii HashOrder.id file 9 (.variable (tok 0 .variable (some c!"x")))
      (.newExpr (tok 5 .kwNew none) (.typeRef (.one [tok 9 .identifier (some c!"A")]))) s
    let s2 ← ns.foldlM (fun s c => traverse Node.children (Env.nameVisitor Unicode.ascii HashOrder.id file 30) 30 c file s) s1
    let q ← memberType Unicode.ascii HashOrder.id file 9 s2 (.variable (tok 90 .variable (some c!"x")))
    let see (s : Env) := ((s.known c!"x").filterMap (·.node)).map (·.idx)
    pure ([livesB s, livesB s1, ns.all (fixedIn c!"x" 30), ns.all (noParameterIn c!"x" 30), ownB c!"x" s, ownB c!"x" s1], [see s, see s1, see s2],
      q.1.toList.map (·.idx))
  | _ => .deep

private def seenStays : Option (List Bool × List (List Nat) × List Nat) :=
  match stays with
  | .ok p => some p
  | _ => none

/-- `B` is said twice behind `A`, and the use leads to `A`. -/
example : seenStays = some ([true, true, true, true, true, true], [[], [1], [1, 4, 4]], [1]) := by
  decide +kernel

/-- A parameter of the type `A`, another parameter, and assignments to both: the property of `B` is refused. -/
example :
    errorsAt c!"<?php class A { public $a; } class B { public $b; } function f(A $x, $y) { $x = new B; $y = $x; $x->a; $x->b; }" =
      some [107] := by
  decide +kernel

/-- The same in a file: behind all the assignments the property of `B` is refused. -/
example :
    errorsAt c!"<?php class A { public $a; } class B { public $b; } $x = new A; if (1) { $x = new B; } $x = new B; $x->a; $x->b;" =
      some [110] := by
  decide +kernel

end PhpLs.Linked
