import Verif.Props.VariableUses

/-!
# C77: one symbol for each variable of a function

All places of a variable in the body of a function are recorded as uses of the same symbol, so that going to the definition and
renaming have the same result at all of them (`C77_answers` in `VariableOneAnswers`).

* `C77_steady`: the walk over a tree keeps the symbol that a name stands for, unless a `catch`, a loop or a parameter there gives
  the name anew.
* `C77_one`: behind the walk every place of the variable is recorded as a use of the symbol that its name stands for now, which is the
  one it stood for before if there was one.
* `C77_body`: any two places of a variable in the body of a function are uses of one symbol, or a class around it is not found;
  `C77_parameter`: it is the symbol of the parameter if there is one.
* `C77_file`, `C77_top`, `C77_open`: the same for the references that are kept for a file and behind the message that opens it.
* `C77_violated_loop`, `C77_violated_catch`, `C77_violated_arrow`: where one variable becomes two symbols.
-/

namespace PhpLs.Linked

open Out Env

/-! ## Specification -/

/-- A node that gives the name `x` anew. -/
def renews (x : Text) : Node → Bool
  | .catchBlock _ _ _ var _ _ => var.label == some x
  | .forEachStatement _ _ _ _ (.arrayElement _ _ (.variable item)) _ _ => item.label == some x
  | .functionArgument _ name _ _ _ _ _ _ => name.label == some x
  | _ => false

/-- Outside of the functions in a tree nothing gives the name `x` anew. -/
inductive Fixed (x : Text) : Node → Prop
  | function {n : Node} : n.isFunction = true → Fixed x n
  | other {n : Node} : renews x n = false → (∀ c ∈ n.children, Fixed x c) → Fixed x n

/-- The variable `k` stands in a tree, outside of the functions and classes there, or is assigned to. -/
inductive Direct (k : Token) : Node → Prop
  | here {n : Node} : Mention k n → Direct k n
  | part {n c : Node} : closed n = false → n.isFunction = false → n.isClass = false → c ∈ n.children → Direct k c → Direct k n

/-- The name stands for what it stood for, if it stood for something. -/
def Steady (x : Text) (s s' : Env) : Prop := ∀ n, s.stands x = some n → s'.stands x = some n

/-- The place of `k` is recorded as a use of what the name `x` stands for. -/
def Noted (file : NodeId) (k : Token) (x : Text) (s : Env) : Prop :=
  ∃ n range, s.stands x = some n ∧ k.range = some range ∧ ⟨range, n⟩ ∈ s.resolver.refsOf file

/-- The places of `k` and `k'` are recorded as uses of the same symbol. -/
def Same (file : NodeId) (k k' : Token) (s : Env) : Prop :=
  ∃ n range range', k.range = some range ∧ k'.range = some range' ∧ ⟨range, n⟩ ∈ s.resolver.refsOf file ∧
    ⟨range', n⟩ ∈ s.resolver.refsOf file

/-- The trees `b` are the last children of a node in view in a tree; the names of the classes around them. -/
inductive Holds (b : List Node) : Node → List Token → Prop
  | own {n : Node} {a : List Node} : closed n = false → n.children = a ++ b → Holds b n (classNames n)
  | inner {n c : Node} {cs : List Token} : closed n = false → c ∈ n.children → Holds b c cs → Holds b n (classNames n ++ cs)

/-! ## Lemmas -/

variable {x : Text}

theorem Noted.later {file : NodeId} {k : Token} {s s' : Env} (h : Noted file k x s) (h1 : Steady x s s') (h2 : Grown true s s') :
    Noted file k x s' := by
  obtain ⟨n, range, a, b, c⟩ := h
  exact ⟨n, range, h1 n a, b, (h2.refs file).subset c⟩

theorem Noted.same {file : NodeId} {k k' : Token} {s : Env} (h : Noted file k x s) (h' : Noted file k' x s) : Same file k k' s := by
  obtain ⟨n, range, a, b, c⟩ := h
  obtain ⟨n', range', a', b', c'⟩ := h'
  rw [a] at a'
  cases a'
  exact ⟨n, range, range', b, b', c, c'⟩

theorem Same.later {file : NodeId} {k k' : Token} {s s' : Env} (h : Same file k k' s) (hg : Grown true s s') : Same file k k' s' := by
  obtain ⟨n, range, range', a, b, c, d⟩ := h
  exact ⟨n, range, range', a, b, (hg.refs file).subset c, (hg.refs file).subset d⟩

theorem Steady.refl (s : Env) : Steady x s s := fun _ h => h

theorem Steady.trans {s s1 s' : Env} (h : Steady x s s1) (h' : Steady x s1 s') : Steady x s s' := fun n hn => h' n (h n hn)

theorem Steady.ofSame {s s' : Env} (h : s'.resolver.localScopes = s.resolver.localScopes) : Steady x s s' := fun n hn => by
  unfold Env.stands at hn ⊢
  rw [h]
  exact hn

theorem Steady.ofFrame {s s' : Env} (h : Frame true true s s') : Steady x s s' := .ofSame (h.same rfl)

theorem steady_declareNew (s : Env) (file : NodeId) (token : Token) (n : NodeId) :
    OkThat (fun p : Option NodeId × Env => Steady x s p.2) (s.declareNew file token n) := by
  unfold declareNew Resolver.declareLocalIfNew
  refine OkThat.bind (Q := fun p => Steady x s { s with resolver := p.2 }) ?_ fun r hr => OkThat.ok hr
  split
  · exact OkThat.ok (.refl s)
  · exact OkThat.ok (.refl s)
  · next top rest name h1 h2 =>
    split
    · exact OkThat.bindOption fun range _ => OkThat.ok (.ofSame rfl)
    · next hnone =>
      refine OkThat.bind (Q := fun r => Steady x s { s with resolver := r }) ?_ fun r hr => OkThat.ok hr
      refine OkThat.bindOption fun range _ => OkThat.ok ?_
      intro m hm
      unfold Env.stands at hm ⊢
      rw [h1] at hm
      have hm : Dict.get? top x = some m := hm
      show Dict.get? (Dict.insert top name n) x = some m
      rw [Dict.get?_insert]
      split
      · next e => rw [e, hm] at hnone; cases hnone
      · exact hm

theorem steady_addVar (s : Env) (sym : Symbol) : OkThat (fun p : NodeId × Env => Steady x s p.2) (s.addVar sym) := by
  unfold addVar
  exact OkThat.bindOption fun _ _ => OkThat.ok (.ofSame rfl)

theorem steady_declareOver (s : Env) (file : NodeId) (token : Token) (n : NodeId) (addRef : Bool) (ht : token.label ≠ some x) :
    OkThat (fun s' : Env => Steady x s s') (s.declareOver file token n addRef) := by
  unfold declareOver
  refine OkThat.bind (Q := fun r => Steady x s { s with resolver := r }) ?_ fun r hr => OkThat.ok hr
  have key : ∀ r : Resolver, Steady x s { s with resolver := r } →
      OkThat (fun r => Steady x s { s with resolver := r }) (if addRef then r.referenceLocal file token n else .ok r) := by
    intro r h
    split
    · unfold Resolver.referenceLocal
      exact OkThat.bindOption fun range _ => OkThat.ok (h.trans (.ofSame rfl))
    · exact OkThat.ok h
  refine key _ ?_
  split
  · next top rest name h1 h2 =>
    intro m hm
    unfold Env.stands at hm ⊢
    rw [h1] at hm
    show Dict.get? (Dict.insert top name n) x = some m
    rw [Dict.get?_insert, if_neg (fun e => ht (by rw [h2, e]))]
    exact hm
  · exact .refl s

theorem steady_assign (s : Env) (token : Token) (d : Option NodeId) (file : NodeId) {β : Type} {P : β → Prop}
    {f : NodeId × Env → Option NodeId × Env → Out β}
    (h : ∀ (c : NodeId × Env) (e : Option NodeId × Env), Steady x s e.2 → OkThat P (f c e)) :
    OkThat P (do
      let sym ← assigned token d
      let c ← s.addVar sym
      let e ← c.2.declareNew file token c.1
      f c e) := by
  refine (OkThat.any _).bind fun v _ => ?_
  refine (steady_addVar (x := x) s v).bind fun c hc => ?_
  exact (steady_declareNew c.2 file token c.1).bind fun e he => h c e (hc.trans he)

def SteadyFn (x : Text) (call : Env → Node → Out (Option NodeId × Env)) : Prop :=
  ∀ s n, OkThat (fun p : Option NodeId × Env => Steady x s p.2) (call s n)

theorem SteadyFn.each {call : Env → Node → Out (Option NodeId × Env)} (hc : SteadyFn x call) (l : List Node) : ∀ s : Env,
    OkThat (fun s' : Env => Steady x s s') (l.foldlM (fun s c => do let q ← call s c; pure q.2) s) := by
  induction l with
  | nil => exact fun s => OkThat.ok (.refl s)
  | cons n l ih =>
    intro s
    rw [List.foldlM_cons]
    refine OkThat.bind (Q := fun s' => Steady x s s') ?_ fun s' h => (ih s').mono fun _ h' => h.trans h'
    exact (hc s n).bind fun q hq => OkThat.ok hq

theorem SteadyFn.opt {call : Env → Node → Out (Option NodeId × Env)} (hc : SteadyFn x call) (o : Option Node) (s : Env) :
    OkThat (fun s' : Env => Steady x s s') (match o with
      | some i => do let p ← call s i; pure p.2
      | none => pure s) := by
  cases o with
  | none => exact OkThat.ok (.refl s)
  | some n => exact (hc s n).bind fun q hq => OkThat.ok hq

theorem steady_refLocal (s : Env) (file : NodeId) (token : Token) (n : NodeId) :
    OkThat (fun s' : Env => Steady x s s') (s.refLocal file token n) :=
  (Env.frame_refLocal s file token n).mono fun _ h => .ofFrame h

theorem steady_resolve (U : Unicode) (fuel : Nat) (s : Env) (t : TypeRef) (anchor : NodeId) :
    OkThat (fun p : Option NodeId × Env => Steady x s p.2) (s.resolve U fuel t anchor) :=
  (Env.frame_resolve U fuel s t anchor).mono fun _ h => .ofFrame h

theorem steady_rootOf (U : Unicode) (file : NodeId) {call : Env → Node → Out (Option NodeId × Env)} (hc : SteadyFn x call)
    (node : Node) : ∀ (fuel : Nat) (cur : Node) (chain : List Node) (s : Env),
    OkThat (fun p : Root × Env => Steady x s p.2) (rootOf U file call node fuel cur chain s)
  | 0, _, _, _ => OkThat.deep
  | fuel + 1, cur, chain, s => by
    have ih := steady_rootOf U file hc node fuel
    unfold rootOf
    split
    · next left token right =>
      split
      · split
        · next v =>
          refine (hc s right).bind fun d hd => ?_
          refine steady_assign (x := x) d.2 v d.1 file fun c e he => ?_
          exact (ih _ chain e.2).mono fun q hq => (hd.trans he).trans hq
        · exact OkThat.ok (.refl s)
      · refine (hc s left).bind fun p hp => ?_
        exact (hc p.2 right).bind fun q hq => OkThat.ok (hp.trans hq)
    · next check qm trueArm colon falseArm =>
      refine (hc s check).bind fun p hp => ?_
      refine OkThat.bind (Q := fun q : Option NodeId × Env => Steady x s q.2) ?_ fun q hq => ?_
      · cases trueArm with
        | none => exact OkThat.ok hp
        | some t => exact (hc p.2 t).mono fun q hq => hp.trans hq
      · exact (hc q.2 falseArm).bind fun w hw => OkThat.ok (hq.trans hw)
    · exact ih _ chain s
    · exact ih _ chain s
    · exact ih _ chain s
    · exact ih _ chain s
    · next callee op ps cp =>
      refine (hc.each ps s).bind fun s' h => ?_
      exact (ih _ chain s').mono fun q hq => h.trans hq
    · next ob es cb => exact (hc.each es s).bind fun s' h => OkThat.ok h
    · exact (hc s _).bind fun p hp => OkThat.ok hp
    · exact ih _ _ s
    · exact ih _ _ s
    · next token =>
      split
      · exact OkThat.ok (.refl s)
      · next n _ =>
        refine (steady_refLocal (x := x) s file token n).bind fun s' h => ?_
        split
        · exact OkThat.ok h
        · split
          · exact OkThat.ok h
          · refine OkThat.bindOption fun sym _ => ?_
            exact (Env.frame_variableType (exact := true) (mv := true) U fuel n sym.dataTypes s').bind fun p hp =>
              OkThat.ok (h.trans (.ofFrame hp))
    · next token =>
      split
      · exact OkThat.ok (.refl s)
      · split
        · split
          · exact OkThat.ok (.refl s)
          · next c _ =>
            refine OkThat.bindOption fun sym _ => ?_
            exact (Env.frame_uniqueParent (exact := true) (mv := true) U fuel s sym c).bind fun p hp => OkThat.ok (.ofFrame hp)
        · split
          · exact OkThat.ok (.refl s)
          · exact (steady_resolve (x := x) U fuel s _ _).bind fun p hp => OkThat.ok hp
    · refine (steady_resolve (x := x) U fuel s _ _).bind fun p hp => ?_
      split
      · exact OkThat.ok hp
      · exact OkThat.ok hp
    · next array ob index cb =>
      refine (hc.opt index s).bind fun s' h => ?_
      split
      · next collection =>
        split
        · exact OkThat.ok h
        · next v _ =>
          refine (steady_refLocal (x := x) s' file collection v).bind fun s2 h2 => ?_
          refine OkThat.bindOption fun sym _ => ?_
          split
          · exact OkThat.ok (h.trans h2)
          · exact OkThat.ok (h.trans h2)
      · exact (ih _ _ s').mono fun q hq => h.trans hq
      · next array2 a index2 b =>
        refine (hc.opt index2 s').bind fun s2 h2 => ?_
        exact (ih _ _ s2).mono fun q hq => (h.trans h2).trans hq
      · exact OkThat.ok h
    · exact (hc.each node.children s).bind fun s' h => OkThat.ok h

theorem steady_memberType (U : Unicode) (H : HashOrder) (file : NodeId) : ∀ fuel : Nat, SteadyFn x (memberType U H file fuel)
  | 0 => fun _ _ => OkThat.deep
  | fuel + 1 => by
    intro s node
    unfold memberType
    refine (steady_rootOf U file (steady_memberType U H file fuel) node fuel node [] s).bind fun p hp => ?_
    split
    · exact OkThat.ok hp
    · refine OkThat.bindOption fun anc _ => OkThat.bindOption fun top _ => OkThat.bindOption fun f _ => ?_
      split
      · exact OkThat.ok hp
      · exact (Env.frame_links (exact := true) (mv := true) U H file fuel _ _ _ _ p.2).mono fun q hq => hp.trans (.ofFrame hq)

theorem steady_foreachItem (file collection : NodeId) (kv : Node) (s : Env)
    (h : ∀ a b item, kv = .arrayElement a b (.variable item) → item.label ≠ some x) :
    OkThat (fun s' : Env => Steady x s s') (foreachItem file collection kv s) := by
  unfold foreachItem
  refine OkThat.bindOption fun c _ => ?_
  split
  · refine OkThat.bindOption fun ts _ => OkThat.bindOption fun v hv => ?_
    refine (steady_addVar (x := x) s _).bind fun n hn => ?_
    exact (steady_declareOver n.2 file _ n.1 false (h _ _ _ rfl)).mono fun _ h => hn.trans h
  · exact OkThat.ok (.refl s)

theorem steady_visitArgument (U : Unicode) (file : NodeId) (fuel : Nat) (name : Token) (doc : Option Node) (parent : NodeId)
    (s : Env) (h : name.label ≠ some x) : OkThat (fun s' : Env => Steady x s s') (visitArgument U file fuel name doc parent s) := by
  unfold visitArgument
  refine (OkThat.any _).bind fun arg _ => ?_
  split
  · exact OkThat.ok (.refl s)
  · next arg =>
    refine OkThat.bindOption fun sym _ => ?_
    refine (Env.frame_resolveTypes (exact := true) (mv := true) U fuel s _ parent).bind fun p hp => ?_
    have h1 : Steady x s { p.2 with arena := p.2.arena.modify arg fun v => { v with dataTypes := p.1 } } :=
      (Steady.ofFrame hp).trans (.ofSame rfl)
    refine (steady_declareOver (x := x) _ file name arg true h).bind fun s2 h2 => ?_
    split
    · exact (steady_refLocal s2 file _ arg).mono fun _ h3 => (h1.trans h2).trans h3
    · exact OkThat.ok (h1.trans h2)

theorem steady_visitAssignment (U : Unicode) (H : HashOrder) (file : NodeId) (fuel : Nat) (left right : Node) (s : Env) :
    OkThat (fun s' : Env => Steady x s s') (visitAssignment U H file fuel left right s) := by
  unfold visitAssignment
  refine (steady_memberType (x := x) U H file fuel s right).bind fun d hd => ?_
  split
  · next v =>
    refine steady_assign (x := x) d.2 v d.1 file fun c e he => ?_
    refine OkThat.bindOption fun repr _ => ?_
    split
    · split
      · exact OkThat.bindOption fun ref _ => OkThat.ok ((hd.trans he).trans (.ofSame rfl))
      · exact OkThat.ok (hd.trans he)
    · exact OkThat.ok (hd.trans he)
  · exact (steady_memberType (x := x) U H file fuel d.2 left).bind fun p hp => OkThat.ok (hd.trans hp)

theorem steady_visitDocVar (U : Unicode) (file : NodeId) (fuel : Nat) (name : Token) (types : Option (List TypeRef))
    (parent : NodeId) (s : Env) : OkThat (fun s' : Env => Steady x s s') (visitDocVar U file fuel name types parent s) := by
  unfold visitDocVar
  refine (Env.frame_resolveTypes (exact := true) (mv := true) U fuel s _ parent).bind fun p hp => ?_
  dsimp only
  have hp : Steady x s p.2 := .ofFrame hp
  split
  · next existing _ =>
    refine OkThat.bindOption fun a ha => ?_
    refine OkThat.bind (steady_declareNew (x := x) { p.2 with arena := a } file name existing) fun q hq => OkThat.ok ?_
    exact (hp.trans (s' := { p.2 with arena := a }) (.ofSame rfl)).trans hq
  · refine OkThat.bindOption fun v hv => ?_
    refine (steady_addVar (x := x) p.2 _).bind fun c hc => ?_
    exact (steady_declareNew c.2 file name c.1).bind fun q hq => OkThat.ok ((hp.trans hc).trans hq)

/-- What `visit` does with a node that does not give the name anew. -/
theorem steady_visitName (U : Unicode) (H : HashOrder) (file : NodeId) (fuel : Nat) (node : Node) (parent : NodeId) (s : Env)
    (hr : renews x node = false) : OkThat (fun p : NextAction × Env => Steady x s p.2) (visitName U H file fuel node parent s) := by
  cases hf : node.isFunction with
  | true => exact (visit_function (mv := true) U H file fuel node parent s hf).mono fun p hp => .ofFrame hp.1
  | false =>
  cases hc : node.isClass with
  | true =>
    refine (visit_class (exact := true) (mv := true) U H file fuel node parent s hc).mono fun p hp => ?_
    rcases hp with ⟨_, hp⟩ | ⟨c, s1, _, hp, hs⟩
    · exact .ofFrame hp
    · refine (Steady.ofFrame hp).trans (.ofSame ?_)
      rw [hs]
      rfl
  | false =>
  by_cases hd : node.declares = false ∧ node.isChain = false
  · exact (Env.frame_visitName (exact := true) (mv := true) U H file fuel node parent s hc hf
      (fun _ => ⟨hd.1, fun h => by rw [hd.2] at h; cases h⟩) (fun e => nomatch e)).mono fun p hp => .ofFrame hp.1
  · unfold visitName
    split
    all_goals first
      | exact absurd ⟨rfl, rfl⟩ hd
      | skip
    · next token =>
      split
      · exact (steady_refLocal s file token _).bind fun s' h => OkThat.ok h
      · refine OkThat.bindOption fun v hv => ?_
        refine (steady_addVar (x := x) s v).bind fun c hc => ?_
        exact (steady_declareNew c.2 file token c.1).bind fun p hp => OkThat.ok (hc.trans hp)
    · exact (steady_visitDocVar U file fuel _ _ parent s).bind fun s' h => OkThat.ok h
    · refine OkThat.bindOption fun ts _ => OkThat.bindOption fun v hv => ?_
      refine (steady_addVar (x := x) s _).bind fun c hc => ?_
      exact (steady_declareOver c.2 file _ c.1 false (by simpa [renews] using hr)).bind fun s' h => OkThat.ok (hc.trans h)
    · next kv _ _ =>
      have hkv : ∀ a b item, kv = .arrayElement a b (.variable item) → item.label ≠ some x := by
        rintro a b item rfl
        simpa [renews] using hr
      split
      · split
        · exact (steady_foreachItem file _ _ s hkv).bind fun s' h => OkThat.ok h
        · exact OkThat.ok (.refl s)
      · refine (steady_memberType (x := x) U H file fuel s _).bind fun p hp => ?_
        split
        · exact (steady_foreachItem file _ _ p.2 hkv).bind fun s' h => OkThat.ok (hp.trans h)
        · exact OkThat.ok hp
      · exact OkThat.ok (.refl s)
    · exact (steady_visitArgument U file fuel _ _ parent s (by simpa [renews] using hr)).bind fun s' h => OkThat.ok h
    · next left token right =>
      split
      · exact (steady_visitAssignment U H file fuel left right s).bind fun s' h => OkThat.ok h
      · exact OkThat.ok (.refl s)
    · exact (steady_memberType U H file fuel s _).bind fun p hp => OkThat.ok hp
    · exact (steady_memberType U H file fuel s _).bind fun p hp => OkThat.ok hp
    · exact OkThat.ok (.refl s)

theorem steady_all {kids : List Node} {walk : Env → Node → Out Env}
    (h : ∀ c ∈ kids, ∀ s, OkThat (fun s' : Env => Steady x s s') (walk s c)) : ∀ s : Env,
    OkThat (fun s' : Env => Steady x s s') (kids.foldlM walk s) := by
  induction kids with
  | nil => exact fun s => OkThat.ok (.refl s)
  | cons c r ih =>
    intro s
    rw [List.foldlM_cons]
    refine (h c (List.mem_cons_self ..) s).bind fun s' h1 => ?_
    exact (ih (fun c hc => h c (List.mem_cons_of_mem _ hc)) s').mono fun _ h2 => h1.trans h2

theorem after_scopes (node : Node) (parent : NodeId) (s : Env) (hf : node.isFunction = false) :
    OkThat (fun s' : Env => s'.resolver.localScopes = s.resolver.localScopes ∧ ∀ f, s'.resolver.refsOf f = s.resolver.refsOf f)
      (Env.afterName node parent s) := by
  cases node <;> first
    | cases hf; done
    | exact OkThat.ok ⟨rfl, fun _ => rfl⟩

/-! ## The claims -/

/-- **C77, the symbol stays**: the walk over a tree keeps the symbol that a name stands for, unless something there gives the name
anew. -/
theorem C77_steady (U : Unicode) (H : HashOrder) (file : NodeId) (F : Nat) : ∀ (fuel : Nat) (node : Node) (parent : NodeId) (s : Env),
    Fixed x node → OkThat (fun s' : Env => Steady x s s') (traverse Node.children (Env.nameVisitor U H file F) fuel node parent s)
  | 0, _, _, _, _ => OkThat.deep
  | fuel + 1, node, parent, s, hx => by
    cases hf : node.isFunction with
    | true =>
      refine (walked (mv := true) U H file F false (fuel + 1) false node parent s (fun e => nomatch e) (fun e => nomatch e)
        (fun e => nomatch e)).mono fun s' h => .ofSame (h.same (by rw [hf]; rfl))
    | false =>
      cases hx with
      | function h => rw [hf] at h; cases h
      | other hr hkids =>
        unfold traverse
        refine OkThat.bind (before_other (exact := true) (mv := true) file node parent s hf) fun s1 h1 => ?_
        refine OkThat.bind (steady_visitName (x := x) U H file F node parent s1 hr) fun p hp => ?_
        refine OkThat.bind (Q := fun s3 : Env => Steady x s s3) ?_ fun s3 h3 => ?_
        · split
          · exact OkThat.ok ((Steady.ofFrame h1).trans hp)
          · exact (steady_all (fun c hc s => C77_steady U H file F fuel c _ s (hkids c hc)) p.2).mono fun s3 h3 =>
              ((Steady.ofFrame h1).trans hp).trans h3
        · exact (after_scopes node parent s3 hf).mono fun s' h => h3.trans (.ofSame h.1)

theorem noted_variable (U : Unicode) (H : HashOrder) (file : NodeId) (F : Nat) (k : Token) (parent : NodeId) (s : Env)
    (hl : k.label = some x) (hx : x ≠ c!"this") (hs : s.resolver.localScopes ≠ []) :
    OkThat (fun p : NextAction × Env => Noted file k x p.2) (Env.visitName U H file F (.variable k) parent s) := by
  intro p hp
  unfold Env.visitName at hp
  dsimp only at hp
  cases hk : s.resolver.getLocal k with
  | some n =>
    rw [hk] at hp
    obtain ⟨s1, hs1, hp⟩ := Out.bind_eq_ok hp
    cases hp
    unfold refLocal Resolver.referenceLocal at hs1
    obtain ⟨r, hr, hs1⟩ := Out.bind_eq_ok hs1
    obtain ⟨range, hrange, hr⟩ := Out.bind_eq_ok hr
    cases hr
    cases hs1
    refine ⟨n, range, ?_, Out.ofOption_ok hrange, mem_reference ..⟩
    unfold Resolver.getLocal at hk
    rw [hl] at hk
    dsimp only at hk
    rw [if_neg (fun h => hx h.2)] at hk
    show s.stands x = some n
    unfold Env.stands
    cases hsc : s.resolver.localScopes with
    | nil => exact absurd hsc hs
    | cons top rest => rw [hsc] at hk; exact hk
  | none =>
    rw [hk] at hp
    obtain ⟨v, hv, hp⟩ := Out.bind_eq_ok hp
    obtain ⟨c, hc, hp⟩ := Out.bind_eq_ok hp
    obtain ⟨q, hq, hp⟩ := Out.bind_eq_ok hp
    cases hp
    have hcr : c.2.resolver = s.resolver := by
      unfold addVar at hc
      obtain ⟨_, _, hc⟩ := Out.bind_eq_ok hc
      cases hc
      rfl
    obtain ⟨repr, hr⟩ := declareNew_some hl (by rw [hcr]; exact hs) hq
    obtain ⟨l, range, h1, h2, h3, h4, h5⟩ := declareNew_used hq hr
    rw [hl] at h1
    cases h1
    exact ⟨repr, range, h3, h2, h4⟩

theorem noted_assignment (U : Unicode) (H : HashOrder) (file : NodeId) (F : Nat) (k : Token) (r : Node) (s : Env)
    (hl : k.label = some x) :
    OkThat (fun s' : Env => Noted file k x s') (Env.visitAssignment U H file F (.variable k) r s) := by
  intro s' h
  unfold visitAssignment at h
  obtain ⟨d, hd, h⟩ := Out.bind_eq_ok h
  dsimp only at h
  obtain ⟨sym, hsym, h⟩ := Out.bind_eq_ok h
  obtain ⟨c, hc, h⟩ := Out.bind_eq_ok h
  obtain ⟨p, hp, h⟩ := Out.bind_eq_ok h
  obtain ⟨repr, hr, h⟩ := Out.bind_eq_ok h
  obtain ⟨l, range, h1, h2, h3, h4, h5⟩ := declareNew_used hp (Out.ofOption_ok hr)
  rw [hl] at h1
  cases h1
  have key : s'.resolver = p.2.resolver := by
    cases hdt : d.1 with
    | none => rw [hdt] at h; cases h; rfl
    | some dt =>
      rw [hdt] at h
      dsimp only at h
      split at h
      · obtain ⟨ref, _, h⟩ := Out.bind_eq_ok h
        cases h
        rfl
      · cases h; rfl
  refine ⟨repr, range, ?_, h2, by rw [key]; exact h4⟩
  unfold Env.stands at h3 ⊢
  rw [key]
  exact h3

theorem noted_mention (U : Unicode) (H : HashOrder) (file : NodeId) (F : Nat) (k : Token) (n : Node) (parent : NodeId) (s : Env)
    (hm : Mention k n) (hl : k.label = some x) (hx : x ≠ c!"this") (hs : s.resolver.localScopes ≠ []) :
    OkThat (fun p : NextAction × Env => Noted file k x p.2) (Env.visitName U H file F n parent s) := by
  rcases hm with rfl | ⟨op, r, hop, ht, rfl⟩
  · exact noted_variable U H file F k parent s hl hx hs
  · unfold Env.visitName
    dsimp only
    rw [if_pos hop]
    exact (noted_assignment U H file F k _ s hl).bind fun p hp => OkThat.ok hp

theorem noted_kids {kids : List Node} {walk : Env → Node → Out Env} {file : NodeId} {k : Token} {c : Node}
    (hst : ∀ c ∈ kids, ∀ s, OkThat (fun s' : Env => Steady x s s') (walk s c))
    (hgr : ∀ c s, OkThat (fun s' : Env => Grown true s s') (walk s c))
    (hne : ∀ c s, s.resolver.localScopes ≠ [] → OkThat (fun s' : Env => s'.resolver.localScopes ≠ []) (walk s c))
    (hc : ∀ s, s.resolver.localScopes ≠ [] → OkThat (fun s' : Env => Noted file k x s') (walk s c)) (hm : c ∈ kids) :
    ∀ s : Env, s.resolver.localScopes ≠ [] → OkThat (fun s' : Env => Noted file k x s') (kids.foldlM walk s) := by
  have later : ∀ (l : List Node), (∀ c ∈ l, c ∈ kids) → ∀ s : Env, Noted file k x s →
      OkThat (fun s' : Env => Noted file k x s') (l.foldlM walk s) := by
    intro l
    induction l with
    | nil => exact fun _ s h => OkThat.ok h
    | cons d l ih =>
      intro hl s h
      rw [List.foldlM_cons]
      refine OkThat.bind (Q := fun s1 => Noted file k x s1) (fun s1 e => h.later (hst d (hl d (List.mem_cons_self ..)) s s1 e)
        (hgr d s s1 e)) fun s1 h1 => ?_
      exact ih (fun c hc => hl c (List.mem_cons_of_mem _ hc)) s1 h1
  obtain ⟨a, b, rfl⟩ := List.append_of_mem hm
  intro s hs
  rw [List.foldlM_append]
  have some : ∀ (l : List Node) (s : Env), s.resolver.localScopes ≠ [] →
      OkThat (fun s' : Env => s'.resolver.localScopes ≠ []) (l.foldlM walk s) := by
    intro l
    induction l with
    | nil => exact fun s h => OkThat.ok h
    | cons d l ih =>
      intro s h
      rw [List.foldlM_cons]
      exact (hne d s h).bind fun s1 h1 => ih s1 h1
  refine (some a s hs).bind fun s1 h1 => ?_
  rw [List.foldlM_cons]
  exact (hc s1 h1).bind fun s2 h2 => later b (fun c hc => List.mem_append_right _ (List.mem_cons_of_mem _ hc)) s2 h2

theorem walk_some (U : Unicode) (H : HashOrder) (file : NodeId) (F fuel : Nat) (parent : NodeId) (n : Node) (s : Env)
    (hs : s.resolver.localScopes ≠ []) : OkThat (fun s' : Env => s'.resolver.localScopes ≠ [])
      (traverse Node.children (Env.nameVisitor U H file F) fuel n parent s) :=
  (grown_walk (mv := true) H file F fuel n parent s (fun e => nomatch e)).mono fun s' h e =>
    hs (List.length_eq_zero_iff.1 (by rw [← h.length, e]; rfl))

/-- **C77, the places**: behind the walk over a tree in which nothing gives the name anew, every place of the variable is recorded as
a use of what the name stands for then. -/
theorem C77_one (U : Unicode) (H : HashOrder) (file : NodeId) (F : Nat) (k : Token) (hl : k.label = some x) (hx : x ≠ c!"this") :
    ∀ (fuel : Nat) (node : Node) (parent : NodeId) (s : Env), Fixed x node → Direct k node → s.resolver.localScopes ≠ [] →
    OkThat (fun s' : Env => Noted file k x s') (traverse Node.children (Env.nameVisitor U H file F) fuel node parent s)
  | 0, _, _, _, _, _, _ => OkThat.deep
  | fuel + 1, node, parent, s, hfix, hd, hs => by
    have hf : node.isFunction = false := by
      cases hd with
      | here h => rcases h with rfl | ⟨_, _, _, _, rfl⟩ <;> rfl
      | part _ h => exact h
    have hkids : ∀ c ∈ node.children, Fixed x c := by
      cases hfix with
      | function h => rw [hf] at h; cases h
      | other _ h => exact h
    have fold : ∀ next s, OkThat (fun s' : Env => Steady x s s' ∧ Grown true s s') (node.children.foldlM
        (fun s c => traverse Node.children (Env.nameVisitor U H file F) fuel c next s) s) := fun next s s' e =>
      ⟨steady_all (fun c hc s => C77_steady U H file F fuel c next s (hkids c hc)) s s' e,
        .ofWalked (grown_walks (mv := true) H file F fuel next _ s (fun e => nomatch e) s' e)⟩
    unfold traverse
    refine OkThat.bind (scopes_before file node parent s hs) fun s1 hs1 => ?_
    have finish : ∀ s3, Noted file k x s3 → OkThat (fun s' : Env => Noted file k x s') (Env.afterName node parent s3) :=
      fun s3 h s' e => h.later (.ofSame (after_scopes node parent s3 hf s' e).1) (grown_after node parent s3 s' e)
    cases hd with
    | here h =>
      refine OkThat.bind (noted_mention U H file F k node parent s1 h hl hx hs1) fun p hp => ?_
      refine OkThat.bind (Q := fun s3 : Env => Noted file k x s3) ?_ finish
      split
      · exact OkThat.ok hp
      · exact (fold _ p.2).mono fun s3 h3 => hp.later h3.1 h3.2
    | part hcl hfn hic hm hin =>
      rename_i c
      refine OkThat.bind (Q := fun p : NextAction × Env => (∃ next, p.1 = .processChildren next) ∧ p.2.resolver.localScopes ≠ [])
        (fun p hp => ⟨?_, scopes_visit U H file F node parent s1 hs1 p hp⟩) fun p hp => ?_
      · rcases visit_open (mv := true) (top := file) H file F node parent s1 (.inl rfl) hcl p hp with h | ⟨c, hc, _⟩
        · exact h
        · cases node <;> first | cases hic; done | cases hc
      · obtain ⟨⟨next, hn⟩, hs2⟩ := hp
        refine OkThat.bind (Q := fun s3 : Env => Noted file k x s3) ?_ finish
        rw [hn]
        exact noted_kids (fun c hc s => C77_steady U H file F fuel c next s (hkids c hc))
          (fun c s => (grown_walk (mv := true) H file F fuel c next s (fun e => nomatch e)).mono fun _ h => .ofWalked h)
          (fun c s => walk_some U H file F fuel next c s)
          (fun s hs => C77_one U H file F k hl hx fuel c next s (hkids c hm) hin hs) hm p.2 hs2

/-- **C77, a sequence**: behind the walk over trees in which nothing gives the name anew, every place of the variable is recorded as a
use of what the name stands for then. -/
theorem C77_sequence (U : Unicode) (H : HashOrder) (file : NodeId) (F : Nat) (k : Token) (hl : k.label = some x)
    (hx : x ≠ c!"this") (fuel : Nat) (b : List Node) (c : Node) (parent : NodeId) (s : Env) (hb : ∀ c ∈ b, Fixed x c) (hc : c ∈ b)
    (hd : Direct k c) (hs : s.resolver.localScopes ≠ []) :
    OkThat (fun s' : Env => Noted file k x s')
      (b.foldlM (fun s c => traverse Node.children (Env.nameVisitor U H file F) fuel c parent s) s) :=
  noted_kids (fun c hc s => C77_steady U H file F fuel c parent s (hb c hc))
    (fun c s => (grown_walk (mv := true) H file F fuel c parent s (fun e => nomatch e)).mono fun _ h => .ofWalked h)
    (fun c s => walk_some U H file F fuel parent c s)
    (fun s hs => C77_one U H file F k hl hx fuel c parent s (hb c hc) hd hs) hc s hs

/-- What holds of the walk over the trees of a run holds of the walk over a tree with the run in view. -/
theorem walk_holds (U : Unicode) (H : HashOrder) (file : NodeId) (F : Nat) (b : List Node) (k k' : Token)
    (hrun : ∀ (fuel : Nat) (next : NodeId) (s s' : Env), s.resolver.localScopes ≠ [] →
      b.foldlM (fun s c => traverse Node.children (Env.nameVisitor U H file F) fuel c next s) s = .ok s' → Same file k k' s') :
    ∀ (fuel : Nat) (node : Node) (cs : List Token) (parent : NodeId) (s s' : Env), Holds b node cs → s.resolver.localScopes ≠ [] →
    traverse Node.children (Env.nameVisitor U H file F) fuel node parent s = .ok s' →
    Same file k k' s' ∨ ∃ c ∈ cs, Answered true file U (.one [c]) none s s'
  | 0, _, _, _, _, _, _, _, hw => nomatch hw
  | fuel + 1, node, cs, parent, s, s', hv, hs, hw => by
    revert s'
    show OkThat _ _
    unfold traverse
    refine OkThat.bind (Q := fun s1 : Env => Grown true s s1 ∧ s1.resolver.localScopes ≠ [])
      (fun s1 e => ⟨grown_before file node parent s s1 e, scopes_before file node parent s hs s1 e⟩) fun s1 h1 => ?_
    obtain ⟨h1, hs1⟩ := h1
    have hcl : closed node = false := by cases hv <;> assumption
    have hsub : ∀ d ∈ classNames node, d ∈ cs := by
      cases hv
      · exact fun d h => h
      · exact fun d h => List.mem_append_left _ h
    refine OkThat.bind (Q := fun p : NextAction × Env => ((∃ next, p.1 = .processChildren next) ∨
      ∃ c ∈ classNames node, Answered true file U (.one [c]) none s1 p.2) ∧ Grown true s1 p.2 ∧ p.2.resolver.localScopes ≠ [])
      (fun p hp => ⟨visit_open H file F node parent s1 (.inl rfl) hcl p hp,
        grown_visit (mv := true) H file F node parent s1 (fun e => nomatch e) p hp, scopes_visit U H file F node parent s1 hs1 p hp⟩)
      fun p hp => ?_
    obtain ⟨hp, hg, hs2⟩ := hp
    refine OkThat.bind (Q := fun s3 : Env => Same file k k' s3 ∨ ∃ c ∈ cs, Answered true file U (.one [c]) none s s3) ?_
      fun s3 h3 => ?_
    · rcases hp with ⟨next, hn⟩ | ⟨d, hdm, ha⟩
      · rw [hn]
        dsimp only
        cases hv with
        | own ho hk =>
          rename_i a
          rw [hk, List.foldlM_append]
          refine (grown_walks (mv := true) H file F fuel next a p.2 (fun e => nomatch e)).bind fun s4 h4 => ?_
          have hs4 : s4.resolver.localScopes ≠ [] := fun e => hs2 (List.length_eq_zero_iff.1 (by rw [← h4.length, e]; rfl))
          exact fun s5 h5 => .inl (hrun fuel next s4 s5 hs4 h5)
        | inner ho hm hin =>
          rename_i y ds
          obtain ⟨a, r, hab⟩ := List.append_of_mem hm
          rw [hab, List.foldlM_append]
          refine (grown_walks (mv := true) H file F fuel next a p.2 (fun e => nomatch e)).bind fun s4 h4 => ?_
          rw [List.foldlM_cons]
          have hs4 : s4.resolver.localScopes ≠ [] := fun e => hs2 (List.length_eq_zero_iff.1 (by rw [← h4.length, e]; rfl))
          refine OkThat.bind (fun s5 h5 => walk_holds U H file F b k k' hrun fuel y ds next s4 s5 hin hs4 h5)
            fun s5 h5 => ?_
          refine (grown_walks (mv := true) H file F fuel next r s5 (fun e => nomatch e)).mono fun s6 h6 => ?_
          have hbf := (h1.trans hg).trans (.ofWalked h4)
          have h6 := Grown.ofWalked h6
          rcases h5 with h5 | ⟨d, hdm, h5⟩
          · exact .inl (h5.later h6)
          · exact .inr ⟨d, List.mem_append_right _ hdm, (h5.before hbf).later h6⟩
      · refine OkThat.mono (P := fun s3 => Grown true p.2 s3) ?_ fun s3 h3 => .inr ⟨d, hsub d hdm, (ha.before h1).later h3⟩
        split
        · exact OkThat.ok (Grown.refl _)
        · exact (grown_walks (mv := true) H file F fuel _ _ _ (fun e => nomatch e)).mono fun _ h => .ofWalked h
    · refine (grown_after (mv := true) node parent s3).mono fun s' h' => ?_
      rcases h3 with h3 | ⟨d, hdm, h3⟩
      · exact .inl (h3.later h')
      · exact .inr ⟨d, hdm, h3.later h'⟩

/-- **C77**: any two places of a variable in the body of a function, or in any other run of statements in which nothing gives its name
anew, are recorded as uses of the same symbol, or one of the classes around them is not found. -/
theorem C77_body (U : Unicode) (H : HashOrder) (file : NodeId) (F : Nat) (b : List Node) (c c' : Node) (k k' : Token)
    (hl : k.label = some x) (hl' : k'.label = some x) (hx : x ≠ c!"this") (hb : ∀ c ∈ b, Fixed x c) (hc : c ∈ b) (hc' : c' ∈ b)
    (hd : Direct k c) (hd' : Direct k' c') (fuel : Nat) (node : Node) (cs : List Token) (parent : NodeId) (s s' : Env)
    (hv : Holds b node cs) (hs : s.resolver.localScopes ≠ [])
    (hw : traverse Node.children (Env.nameVisitor U H file F) fuel node parent s = .ok s') :
    Same file k k' s' ∨ ∃ c ∈ cs, Answered true file U (.one [c]) none s s' :=
  walk_holds U H file F b k k' (fun fuel next s s' hs hw =>
    (C77_sequence U H file F k hl hx fuel b c next s hb hc hd hs s' hw).same
      (C77_sequence U H file F k' hl' hx fuel b c' next s hb hc' hd' hs s' hw)) fuel node cs parent s s' hv hs hw

theorem declareOver_used {s s' : Env} {file n : NodeId} {token : Token} (hl : token.label = some x)
    (hs : s.resolver.localScopes ≠ []) (h : s.declareOver file token n true = .ok s') :
    s'.stands x = some n ∧ Noted file token x s' := by
  unfold declareOver Resolver.declareOrOverwriteLocal at h
  obtain ⟨r, hr, h⟩ := Out.bind_eq_ok h
  cases h
  rw [hl] at hr
  cases hsc : s.resolver.localScopes with
  | nil => exact absurd hsc hs
  | cons top rest =>
    rw [hsc] at hr
    dsimp only at hr
    rw [if_pos rfl] at hr
    unfold Resolver.referenceLocal at hr
    obtain ⟨range, hrange, hr⟩ := Out.bind_eq_ok hr
    cases hr
    have key : Dict.get? (Dict.insert top x n) x = some n := by rw [Dict.get?_insert, if_pos rfl]
    exact ⟨key, n, range, key, Out.ofOption_ok hrange, mem_reference ..⟩

theorem noted_argument (U : Unicode) (file : NodeId) (fuel : Nat) (name : Token) (doc : Option Node) (parent arg : NodeId) (s : Env)
    (hl : name.label = some x) (harg : childNamed s x = .ok (some arg)) (hs : s.resolver.localScopes ≠ []) :
    OkThat (fun s' : Env => s'.stands x = some arg ∧ Noted file name x s') (visitArgument U file fuel name doc parent s) := by
  intro s' e
  unfold visitArgument at e
  rw [hl] at e
  dsimp only at e
  rw [harg] at e
  obtain ⟨o, ho, e⟩ := Out.bind_eq_ok e
  cases ho
  dsimp only at e
  obtain ⟨sym, _, e⟩ := Out.bind_eq_ok e
  obtain ⟨p, hp, e⟩ := Out.bind_eq_ok e
  have hlen := (Env.frame_resolveTypes (exact := true) (mv := true) U fuel s _ parent p hp).same rfl
  obtain ⟨s1, hs1, e⟩ := Out.bind_eq_ok e
  have h1 : s1.stands x = some arg ∧ Noted file name x s1 := declareOver_used hl (by exact hlen ▸ hs) hs1
  split at e
  · have h2 := steady_refLocal (x := x) s1 file _ arg s' e
    have h3 := Env.frame_refLocal (exact := false) (mv := true) s1 file _ arg s' e
    exact ⟨h2 _ h1.1, h1.2.later h2 (.ofFrame h3)⟩
  · cases e; exact h1

/-- **C77, parameters**: the place of a parameter that the function has a symbol for and every place of the variable behind it, in the
other parameters, the return type and the body, are recorded as uses of that symbol, if nothing there gives its name anew. -/
theorem C77_parameter (U : Unicode) (H : HashOrder) (file : NodeId) (F : Nat) (argType : Option Node) (name : Token)
    (hasDefault : Option Token) (value : Option Node) (spread reference : Option Token) (doc : Option Node) (attributes : List Node)
    (k : Token) (hn : name.label = some x) (hl : k.label = some x) (hx : x ≠ c!"this") (fuel : Nat) (b : List Node) (c : Node)
    (parent arg : NodeId) (s s' : Env) (harg : childNamed s x = .ok (some arg)) (hb : ∀ c ∈ b, Fixed x c) (hc : c ∈ b)
    (hd : Direct k c) (hs : s.resolver.localScopes ≠ [])
    (hw : (.functionArgument argType name hasDefault value spread reference doc attributes :: b).foldlM
      (fun s c => traverse Node.children (Env.nameVisitor U H file F) fuel c parent s) s = .ok s') :
    ∃ range range', name.range = some range ∧ k.range = some range' ∧ ⟨range, arg⟩ ∈ s'.resolver.refsOf file ∧
      ⟨range', arg⟩ ∈ s'.resolver.refsOf file := by
  rw [List.foldlM_cons] at hw
  obtain ⟨s1, h1, hw⟩ := Out.bind_eq_ok hw
  have hs1 := walk_some U H file F fuel parent _ s hs s1 h1
  have key : s1.stands x = some arg ∧ Noted file name x s1 := by
    cases fuel with
    | zero => cases h1
    | succ fuel =>
      unfold traverse at h1
      obtain ⟨s2, h2, h1⟩ := Out.bind_eq_ok h1
      cases h2
      obtain ⟨p, hp, h1⟩ := Out.bind_eq_ok h1
      have hp : Env.visitName U H file F (.functionArgument argType name hasDefault value spread reference doc attributes) parent s =
          .ok p := hp
      unfold Env.visitName at hp
      dsimp only at hp
      obtain ⟨s3, h3, hp⟩ := Out.bind_eq_ok hp
      cases hp
      obtain ⟨s4, h4, h1⟩ := Out.bind_eq_ok h1
      cases h4
      cases h1
      exact noted_argument U file F name doc parent arg s hn harg hs s3 h3
  have hst := steady_all (x := x) (fun c hc s => C77_steady U H file F fuel c parent s (hb c hc)) s1 s' hw
  have hgr := Grown.ofWalked (grown_walks (mv := true) H file F fuel parent b s1 (fun e => nomatch e) s' hw)
  obtain ⟨n, range, a1, a2, a3⟩ := key.2.later hst hgr
  obtain ⟨n', range', b1, b2, b3⟩ := C77_sequence U H file F k hl hx fuel b c parent s1 hb hc hd hs1 s' hw
  rw [hst _ key.1] at a1 b1
  cases a1
  cases b1
  exact ⟨range, range', a2, b2, a3, b3⟩

/-- What two places of one symbol are in the references that are kept. -/
theorem kept_of_same {file : NodeId} {k k' : Token} {e : Env} (h : Same file k k' e) :
    ∃ range range' sym ranges, k.range = some range ∧ k'.range = some range' ∧
      Dict.get? (Backend.groupRefs (e.resolver.refsOf file)) sym = some ranges ∧ range ∈ ranges ∧ range' ∈ ranges := by
  obtain ⟨sym, range, range', h1, h2, h3, h4⟩ := h
  have hf : ∀ {r : NameRef}, r ∈ e.resolver.refsOf file → r.node = sym →
      r ∈ (e.resolver.refsOf file).filter fun r => decide (r.node = sym) :=
    fun h h' => List.mem_filter.2 ⟨h, by simp [h']⟩
  refine ⟨range, range', sym, ((e.resolver.refsOf file).filter fun r => decide (r.node = sym)).map (·.range), h1, h2, ?_,
    List.mem_map.2 ⟨_, hf h3 rfl, rfl⟩, List.mem_map.2 ⟨_, hf h4 rfl, rfl⟩⟩
  rw [C38_grouped, if_neg]
  intro h0
  have := hf h3 rfl
  rw [List.isEmpty_iff.1 h0] at this
  cases this

/-- Two places of a variable in a run of statements of a tree in which nothing gives its name anew. -/
structure Twice (ast : List Node) (cs : List Token) (k k' : Token) : Prop where
  places : ∃ (x : Text) (n : Node) (b : List Node) (c c' : Node), n ∈ ast ∧ Holds b n cs ∧ (∀ c ∈ b, Fixed x c) ∧ c ∈ b ∧ c' ∈ b ∧
    Direct k c ∧ Direct k' c' ∧ k.label = some x ∧ k'.label = some x ∧ x ≠ c!"this"

/-- **C77 for a file**: when the names of a file are resolved, the references that are kept for it have any two places of a variable
in a run of statements under the same symbol, unless the name of a class around it is looked up and not found. -/
theorem C77_file (h : Host) (path : Text) (ast : List Node) (st st' : Backend) (refs : FileRefs)
    (hr : Backend.resolveFile h path ast st = .ok (some refs, st')) :
    ∃ (file : NodeId) (s s' : Env), Dict.get? st.files path = some file ∧ s.resolver.globalScope = st.globals ∧
      refs = Backend.groupRefs (s'.resolver.refsOf file) ∧ ∀ (cs : List Token) (k k' : Token), Twice ast cs k k' →
        (∃ range range' sym ranges, k.range = some range ∧ k'.range = some range' ∧ Dict.get? refs sym = some ranges ∧
          range ∈ ranges ∧ range' ∈ ranges) ∨ ∃ c ∈ cs, Answered true file h.U (.one [c]) none s s' := by
  unfold Backend.resolveFile at hr
  split at hr
  · cases hr
  · next file hfile =>
    obtain ⟨a, ha, hr⟩ := Out.bind_eq_ok hr
    obtain ⟨e, he, hr⟩ := Out.bind_eq_ok hr
    injection hr with hr
    injection hr with hr1 hr2
    injection hr1 with hr1
    refine ⟨file, Env.mk a (Resolver.new st.globals file), e, hfile, rfl, hr1.symm, ?_⟩
    rintro cs k k' ⟨x, n, b, c, c', hn, hv, hb, hc, hc', hd, hd', hl, hl', hx⟩
    obtain ⟨l1, l2, hl12⟩ := List.append_of_mem hn
    rw [hl12, List.foldlM_append] at he
    obtain ⟨e1, he1, he⟩ := Out.bind_eq_ok he
    rw [List.foldlM_cons] at he
    obtain ⟨e2, he2, he⟩ := Out.bind_eq_ok he
    have w1 := grown_walks (mv := true) h.H file h.fuel h.fuel file l1 _ (fun e => nomatch e) e1 he1
    have g1 := Grown.ofWalked w1
    have g2 := Grown.ofWalked (grown_walks (mv := true) h.H file h.fuel h.fuel file l2 _ (fun e => nomatch e) e he)
    have hs : e1.resolver.localScopes ≠ [] := fun h0 => by
      have := w1.length
      rw [h0] at this
      cases this
    rcases C77_body h.U h.H file h.fuel b c c' k k' hl hl' hx hb hc hc' hd hd' h.fuel n cs file e1 e2 hv hs he2 with hl | ⟨c, hc, hl⟩
    · exact .inl (hr1 ▸ kept_of_same (hl.later g2))
    · exact .inr ⟨c, hc, (hl.before g1).later g2⟩

/-- **C77 for the statements of a file**: two places of a variable in the statements of a file, outside of functions and classes, are
kept under the same symbol if nothing gives its name anew. -/
theorem C77_top (h : Host) (path : Text) (ast : List Node) (st st' : Backend) (refs : FileRefs) (n n' : Node) (k k' : Token)
    (hn : n ∈ ast) (hn' : n' ∈ ast) (hl : k.label = some x) (hl' : k'.label = some x) (hx : x ≠ c!"this")
    (hb : ∀ c ∈ ast, Fixed x c) (hd : Direct k n) (hd' : Direct k' n')
    (hr : Backend.resolveFile h path ast st = .ok (some refs, st')) :
    ∃ range range' sym ranges, k.range = some range ∧ k'.range = some range' ∧ Dict.get? refs sym = some ranges ∧
      range ∈ ranges ∧ range' ∈ ranges := by
  unfold Backend.resolveFile at hr
  split at hr
  · cases hr
  · next file hfile =>
    obtain ⟨a, ha, hr⟩ := Out.bind_eq_ok hr
    obtain ⟨e, he, hr⟩ := Out.bind_eq_ok hr
    injection hr with hr
    injection hr with hr1 hr2
    injection hr1 with hr1
    have hs : (Env.mk a (Resolver.new st.globals file)).resolver.localScopes ≠ [] := fun h0 => nomatch h0
    exact hr1 ▸ kept_of_same ((C77_sequence h.U h.H file h.fuel k hl hx h.fuel ast n file _ hb hn hd hs e he).same
      (C77_sequence h.U h.H file h.fuel k' hl' hx h.fuel ast n' file _ hb hn' hd' hs e he))

/-- The references that a state keeps for a file have any two places of a variable in a run of statements of the tree under the same
symbol, or the name of a class around it is looked up and not found. -/
def OneKept (h : Host) (path : Text) (ast : List Node) (st : Backend) : Prop :=
  ∃ (file : NodeId) (s s' : Env) (refs : FileRefs), Dict.get? st.files path = some file ∧ s.resolver.globalScope = st.globals ∧
    Dict.get? st.references path = some refs ∧ ∀ (cs : List Token) (k k' : Token), Twice ast cs k k' →
      (∃ range range' sym ranges, k.range = some range ∧ k'.range = some range' ∧ Dict.get? refs sym = some ranges ∧
        range ∈ ranges ∧ range' ∈ ranges) ∨ ∃ c ∈ cs, Answered true file h.U (.one [c]) none s s'

/-- **C77 for a file that is opened**: once an indexed file is opened, the state keeps any two places of a variable in a run of
statements of its text on the disk under the same symbol, unless the name of a class around it is looked up and not found. -/
theorem C77_open (h : Host) (path source : Text) (st st' : Backend) (file : NodeId) (hfile : Dict.get? st.files path = some file)
    (hnew : Dict.get? st.opened path = none) (e : Backend.didOpen h path (some source) st = .ok st') (ast : List Node)
    (range : LspRange) (errors : List Parser.Err) (ht : Backend.sourceToAst h source = .ok (some (ast, range, errors))) :
    OneKept h path ast st' := by
  unfold Backend.didOpen at e
  obtain ⟨s, hsrc, e⟩ := Out.bind_eq_ok e
  cases hsrc
  dsimp only at e
  rw [hnew] at e
  dsimp only at e
  obtain ⟨parsed, hparsed, e⟩ := Out.bind_eq_ok e
  rw [ht] at hparsed
  cases hparsed
  obtain ⟨ds, _, e⟩ := Out.bind_eq_ok e
  obtain ⟨h1, h2, _⟩ := collectReferences_rest h path ast _ st' e
  unfold Backend.collectReferences at e
  obtain ⟨⟨o, st1⟩, hp, e⟩ := Out.bind_eq_ok e
  cases o with
  | none =>
    unfold Backend.resolveFile at hp
    have hf : Dict.get? st.files path = some file := hfile
    dsimp only at hp
    rw [hf] at hp
    dsimp only at hp
    obtain ⟨_, _, hp⟩ := Out.bind_eq_ok hp
    obtain ⟨_, _, hp⟩ := Out.bind_eq_ok hp
    injection hp with hp
    injection hp with hp
    cases hp
  | some refs =>
    obtain ⟨file', s, s', g1, g2, g3, g4⟩ := C77_file h path ast _ st1 refs hp
    injection e with e
    refine ⟨file', s, s', refs, by rw [h1]; exact g1, by rw [h2]; exact g2, ?_, g4⟩
    rw [← e]
    show Dict.get? (Dict.insert _ _ _) _ = _
    rw [Dict.get?_insert, if_pos rfl]

/-! ## A concrete case -/

/-- Checks that nothing gives the name anew. -/
def fixedIn (x : Text) : Nat → Node → Bool
  | 0, _ => false
  | fuel + 1, n => n.isFunction || (!renews x n && n.children.all fun c => fixedIn x fuel c)

theorem fixedIn_sound : ∀ (fuel : Nat) (n : Node), fixedIn x fuel n = true → Fixed x n
  | 0, _, h => nomatch h
  | fuel + 1, n, h => by
    unfold fixedIn at h
    cases hf : n.isFunction with
    | true => exact .function hf
    | false =>
      rw [hf, Bool.false_or, Bool.and_eq_true] at h
      exact .other (by simpa using h.1) fun c hc => fixedIn_sound fuel c (List.all_eq_true.1 h.2 c hc)

/-- The variables that stand in a tree. -/
def directIn : Nat → Node → List Token
  | 0, _ => []
  | fuel + 1, n => mentionsOf n ++ if closed n = false ∧ n.isFunction = false ∧ n.isClass = false then
      n.children.flatMap fun c => directIn fuel c else []

theorem directIn_sound : ∀ (fuel : Nat) (n : Node) (k : Token), k ∈ directIn fuel n → Direct k n
  | 0, _, _, h => nomatch h
  | fuel + 1, n, k, h => by
    unfold directIn at h
    rcases List.mem_append.1 h with h | h
    · exact .here (mentionsOf_sound h)
    · split at h
      · next hc =>
        obtain ⟨c, hcm, h⟩ := List.mem_flatMap.1 h
        exact .part hc.1 hc.2.1 hc.2.2 hcm (directIn_sound fuel c k h)
      · cases h

/-- The children of the nodes in view, with the names of the classes around them. -/
def runsIn : Nat → Node → List (List Node × List Token)
  | 0, _ => []
  | fuel + 1, n => if closed n = false then
      (n.children, classNames n) :: n.children.flatMap fun c => (runsIn fuel c).map fun r => (r.1, classNames n ++ r.2) else []

theorem runsIn_sound : ∀ (fuel : Nat) (n : Node) (r : List Node × List Token), r ∈ runsIn fuel n → Holds r.1 n r.2
  | 0, _, _, h => nomatch h
  | fuel + 1, n, r, h => by
    unfold runsIn at h
    split at h
    · next hc =>
      rcases List.mem_cons.1 h with h | h
      · cases h
        exact .own (a := []) hc rfl
      · obtain ⟨c, hcm, h⟩ := List.mem_flatMap.1 h
        obtain ⟨q, hq, rfl⟩ := List.mem_map.1 h
        exact .inner hc hcm (runsIn_sound fuel c q hq)
    · cases h

/-- The places of the variable `x` in the runs of statements of a tree in which nothing gives the name anew. -/
def groups (ast : List Node) (x : Text) (fuel : Nat) : List (List Token × List Token) :=
  ast.flatMap fun n => (runsIn fuel n).filterMap fun r =>
    if r.1.all (fixedIn x fuel) then
      some (r.2, r.1.flatMap fun c => (directIn fuel c).filter fun k => decide (k.label = some x)) else none

theorem groups_sound {ast : List Node} {fuel : Nat} {cs ks : List Token} {k k' : Token} (hx : x ≠ c!"this")
    (h : (cs, ks) ∈ groups ast x fuel) (hk : k ∈ ks) (hk' : k' ∈ ks) : Twice ast cs k k' := by
  obtain ⟨n, hn, h⟩ := List.mem_flatMap.1 h
  obtain ⟨r, hr, h⟩ := List.mem_filterMap.1 h
  split at h
  · next hall =>
    cases h
    obtain ⟨c, hc, hk⟩ := List.mem_flatMap.1 hk
    obtain ⟨c', hc', hk'⟩ := List.mem_flatMap.1 hk'
    obtain ⟨h1, h2⟩ := List.mem_filter.1 hk
    obtain ⟨h1', h2'⟩ := List.mem_filter.1 hk'
    exact ⟨x, n, r.1, c, c', hn, runsIn_sound fuel n r hr, fun c hc => fixedIn_sound fuel c (List.all_eq_true.1 hall c hc), hc, hc',
      directIn_sound fuel c k h1, directIn_sound fuel c' k' h1', of_decide_eq_true h2, of_decide_eq_true h2', hx⟩
  · cases h

private abbrev source : Text := c!"<?php class A { function f($y) { if ($y) { $x = 1; } else { $x = 2; } while ($x) { g($x); $x = h(); } return $x; } function g() { $x; return $x; } } $x; $x = 3;"

private def columns (x : Text) : List (List Text × List Nat) :=
  ((groups (treeOf source) x 30).map fun g => (g.1.filterMap (·.label), g.2.map (·.col))).filter fun g => g.2.length > 5

/-- In the body of `f` there are six places of `$x` (`groups_sound`): they are kept under one symbol, the two of `g` under another one
and the two behind the class (`C77_top`) under a third one; the parameter `$y` and its use are kept under one symbol (`C77_parameter`). -/
example :
    (columns c!"x").getLast? = some ([c!"A"], [43, 60, 77, 85, 90, 109]) ∧
    referencedIn c!"a" (startAndOpen [(c!"a", source)] c!"a") =
      [(c!"x", [(149, 151), (153, 155)]), (c!"x", [(130, 132), (141, 143)]), (c!"g", [(124, 125)]),
        (c!"x", [(43, 45), (60, 62), (77, 79), (85, 87), (90, 92), (109, 111)]), (c!"y", [(27, 29), (37, 39)]), (c!"f", [(25, 26)]),
        (c!"A", [(12, 13)])] := by
  decide +kernel

/-- The hypotheses of `C77_top`: nothing in the statements of the file gives `$x` anew, and there are two places. -/
example : (treeOf source).all (fixedIn c!"x" 30) = true ∧
    ((treeOf source).flatMap fun n => (directIn 30 n).map fun k => (k.label, k.col)) = [(some c!"x", 149), (some c!"x", 153)] := by
  decide +kernel

/-! ## Where it fails -/

/-- **C77 fails for loops:** behind a loop over `$x` the parameter `$x` is another symbol, so that renaming the parameter leaves the
uses behind the loop as they are. -/
theorem C77_violated_loop :
    referencedIn c!"a" (startAndOpen [(c!"a", c!"<?php function f($x, $l) { $x; foreach ($l as $x) { $x; } $x; }")] c!"a") =
      [(c!"x", [(46, 48), (52, 54), (58, 60)]), (c!"l", [(21, 23), (40, 42)]), (c!"x", [(17, 19), (27, 29)]), (c!"f", [(15, 16)])] := by
  decide +kernel

/-- **C77 fails for `catch`:** behind a `catch` with the same variable it is another symbol, and the place in the `catch` belongs to
none of them. -/
theorem C77_violated_catch :
    referencedIn c!"a" (startAndOpen [(c!"a", c!"<?php function f($x) { $x; try { } catch (E $x) { $x; } $x; }")] c!"a") =
      [(c!"x", [(50, 52), (56, 58)]), (c!"x", [(17, 19), (23, 25)]), (c!"f", [(15, 16)])] := by
  decide +kernel

/-- **C77 fails for arrow functions:** a variable that an arrow function uses before it is assigned is another symbol than the
variable of the function around it. -/
theorem C77_violated_arrow :
    referencedIn c!"a" (startAndOpen [(c!"a", c!"<?php function f() { fn() => $x; $x = 1; return fn($y) => $x; }")] c!"a") =
      [(c!"x", [(33, 35), (58, 60)]), (c!"y", [(51, 53)]), (c!"x", [(29, 31)]), (c!"f", [(15, 16)])] := by
  decide +kernel

end PhpLs.Linked
