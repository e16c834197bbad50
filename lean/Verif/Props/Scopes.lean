import Verif.NameResolveLemmas
import Verif.Runs
import Verif.KernelRfl

/-!
# C32: the scopes of variables

`traverse Node.children (nameVisitor …)` is the walk of `collect_references` over one top level node.  Its state holds the
resolver, with the stack of scopes.

The full claim does not hold: anonymous functions get no scope, an arrow function that is assigned gets none either, and
variables mentioned directly in the body or in the comment of a class are put into the scope around it.  What does hold, for all
trees and all states:

* `C32_balanced`: behind a whole file there is exactly one scope again, and the walk over any tree keeps all outer scopes.
* `C32_function_partial`: behind a named function, a method or an arrow function that is walked over, each name means what it
  meant before.
* `C32_class_partial`: the same for a class, if nothing is declared outside of its methods.
* `C32_this_partial`: behind a tree without classes `$this` means what it meant before.
* `C32_violated_closure`, `C32_violated_arrow`, `C32_violated_class`: variables that leak; `C32_violated_this`: `$this` is lost.
-/

namespace PhpLs

open Out

/-- What a walk changes. -/
structure Walked (exact keep mv : Bool) (parent : NodeId) (s s' : Env) : Prop where
  tail : s'.resolver.localScopes.tail = s.resolver.localScopes.tail
  length : s'.resolver.localScopes.length = s.resolver.localScopes.length
  same : exact = true → s'.resolver.localScopes = s.resolver.localScopes
  kept : keep = true → s'.resolver.currentClass = s.resolver.currentClass
  cls : s'.resolver.currentClass = s.resolver.currentClass ∨ s'.resolver.currentClass = none
  container : s.resolver.scopeContainer = parent → s'.resolver.scopeContainer = parent
  globals : s'.resolver.globalScope = s.resolver.globalScope
  refs : ∀ f, s.resolver.refsOf f <+: s'.resolver.refsOf f
  diagnostics : s.resolver.diagnostics <+: s'.resolver.diagnostics
  arena : Reach mv s.arena s'.arena
  cache : ∀ k v, Dict.get? s.resolver.cache k = some v → Dict.get? s'.resolver.cache k = some v

namespace Walked

variable {exact keep mv : Bool} {parent : NodeId}

theorem ofFrame {s s' : Env} (h : Frame exact mv s s') : Walked exact keep mv parent s s' :=
  ⟨h.tail, h.length, h.same, fun _ => h.cls, Or.inl h.cls, fun e => h.container.trans e, h.globals, h.refs, h.diagnostics, h.arena,
    h.cache⟩

theorem trans {s s' s'' : Env} (h : Walked exact keep mv parent s s') (h' : Walked exact keep mv parent s' s'') :
    Walked exact keep mv parent s s'' := by
  refine ⟨h'.tail.trans h.tail, h'.length.trans h.length, fun e => (h'.same e).trans (h.same e),
    fun e => (h'.kept e).trans (h.kept e), ?_, fun e => h'.container (h.container e), h'.globals.trans h.globals,
    fun f => (h.refs f).trans (h'.refs f), h.diagnostics.trans h'.diagnostics, h.arena.trans h'.arena,
    fun k v hk => h'.cache k v (h.cache k v hk)⟩
  rcases h'.cls with h1 | h1
  · rcases h.cls with h2 | h2
    · exact Or.inl (h1.trans h2)
    · exact Or.inr (h1.trans h2)
  · exact Or.inr h1

end Walked

/-- Nothing is declared outside of the functions of a tree. -/
inductive Silent : Node → Prop where
  | function {n : Node} : n.isFunction = true → Silent n
  | chain {n : Node} : n.isChain = true → Env.AssignFree n → Silent n
  | other {n : Node} : n.declares = false → n.isChain = false → (∀ c ∈ n.children, Silent c) → Silent n

/-- There is no class in a tree. -/
inductive ClassFree : Node → Prop where
  | mk {n : Node} : n.isClass = false → (∀ c ∈ n.children, ClassFree c) → ClassFree n

/-- There is no comment in a tree that names a variable. -/
inductive NoDocVar : Node → Prop where
  | mk {n : Node} : n.isDocVar = false → (∀ c ∈ n.children, NoDocVar c) → NoDocVar n

variable {exact keep mv : Bool}

/-- The children of a node. -/
private theorem walked_all {kids : List Node} {next : NodeId} {walk : Env → Node → Out Env}
    (h : ∀ c ∈ kids, ∀ s, OkThat (fun s' : Env => Walked exact keep mv next s s') (walk s c)) : ∀ s : Env,
    OkThat (fun s' : Env => Walked exact keep mv next s s') (kids.foldlM walk s) := by
  induction kids with
  | nil => exact fun s => OkThat.ok (Walked.ofFrame (Frame.refl s))
  | cons c r ih =>
    intro s
    rw [List.foldlM_cons]
    refine (h c (List.mem_cons_self ..) s).bind fun s' h1 => ?_
    exact (ih (fun c hc => h c (List.mem_cons_of_mem _ hc)) s').mono fun _ h2 => h1.trans h2

/-- What `before` does with a function. -/
structure Entered (s s' : Env) : Prop where
  scopes : s'.resolver.localScopes.tail = s.resolver.localScopes
  some : s'.resolver.localScopes ≠ []
  cls : s'.resolver.currentClass = s.resolver.currentClass
  globals : s'.resolver.globalScope = s.resolver.globalScope
  refs : ∀ f, s.resolver.refsOf f <+: s'.resolver.refsOf f
  diagnostics : s'.resolver.diagnostics = s.resolver.diagnostics
  arena : s'.arena = s.arena
  cache : ∀ k v, Dict.get? s.resolver.cache k = Option.some v → Dict.get? s'.resolver.cache k = Option.some v

private theorem entered_function (file : NodeId) (name : Token) (s : Env) :
    OkThat (fun s' : Env => Entered s s') (Env.beforeFunction file name s) := by
  unfold Env.beforeFunction
  refine OkThat.bindOption fun n _ => (OkThat.any _).bind fun c _ => ?_
  split
  · exact OkThat.ok ⟨rfl, by simp [Resolver.pushScope], rfl, rfl, fun _ => List.prefix_rfl, rfl, rfl, fun _ _ h => h⟩
  · refine OkThat.bindOption fun range _ => OkThat.ok ?_
    refine ⟨rfl, by simp [Env.addRef, Resolver.reference, Resolver.pushScope], rfl, rfl, ?_, rfl, rfl, fun _ _ h => h⟩
    exact fun f => (Resolver.Step.reference _ _ _).refs f

theorem walk_entered (file : NodeId) (node : Node) (parent : NodeId) (s : Env) (h : node.isFunction = true) :
    OkThat (fun s' : Env => Entered s s') (Env.beforeName file node parent s) := by
  unfold Env.beforeName
  split
  · exact entered_function file _ s
  · exact entered_function file _ s
  · cases h
  · cases h
  · refine OkThat.bindOption fun r _ => (OkThat.any _).bind fun c _ => ?_
    split
    · exact OkThat.ok ⟨rfl, by simp [Resolver.cloneScope], rfl, rfl, fun _ => List.prefix_rfl, rfl, rfl, fun _ _ h => h⟩
    · exact OkThat.ok ⟨rfl, by simp [Resolver.cloneScope], rfl, rfl, fun _ => List.prefix_rfl, rfl, rfl, fun _ _ h => h⟩
  · next h1 h2 h3 h4 h5 =>
    cases node <;> first | cases h; done | skip
    · exact absurd rfl (h5 _ _ _ _ _ _ _ _ _ _)
    · exact absurd rfl (h2 _ _ _ _ _ _ _ _ _ _)
    · exact absurd rfl (h1 _ _ _ _ _)

theorem before_other (file : NodeId) (node : Node) (parent : NodeId) (s : Env) (h : node.isFunction = false) :
    OkThat (fun s' : Env => Frame exact mv s s') (Env.beforeName file node parent s) := by
  have hp : ∀ name : Token, OkThat (fun s' : Env => Frame exact mv s s') (Env.beforeProperty file name s) := by
    intro name
    unfold Env.beforeProperty
    split
    · exact OkThat.ok (Frame.refl s)
    · refine (OkThat.any _).bind fun c _ => ?_
      split
      · exact OkThat.ok (Frame.refl s)
      · exact OkThat.bindOption fun r _ => OkThat.ok (Frame.addRef _ _ _ _)
  unfold Env.beforeName
  split
  · cases h
  · cases h
  · exact hp _
  · exact hp _
  · cases h
  · exact OkThat.ok (Frame.refl s)

/-- `visit` of a function hands its children the scope container. -/
theorem visit_function (U : Unicode) (H : HashOrder) (file : NodeId) (fuel : Nat) (node : Node) (parent : NodeId)
    (s : Env) (h : node.isFunction = true) :
    OkThat (fun p : NextAction × Env => Frame true mv s p.2 ∧ p.1 = .processChildren p.2.resolver.scopeContainer)
      (Env.visitName U H file fuel node parent s) := by
  cases node <;> first | cases h; done | skip
  · exact OkThat.ok ⟨Frame.refl s, rfl⟩
  · exact Env.frame_visitFunction U fuel _ parent s
  · exact OkThat.ok ⟨Frame.refl s, rfl⟩

private theorem after_function (node : Node) (parent : NodeId) (s : Env) (h : node.isFunction = true) :
    Env.afterName node parent s = .ok { s with resolver := { s.resolver.popScope with scopeContainer := parent } } := by
  cases node <;> first | cases h; done | rfl

theorem visit_class (U : Unicode) (H : HashOrder) (file : NodeId) (fuel : Nat) (node : Node) (parent : NodeId)
    (s : Env) (h : node.isClass = true) :
    OkThat (fun p : NextAction × Env => (p.1 = .abort ∧ Frame exact mv s p.2) ∨
      ∃ (c : NodeId) (s1 : Env), p.1 = .processChildren c ∧ Frame exact mv s s1 ∧
        p.2 = { s1 with resolver := s1.resolver.enterClass c }) (Env.visitName U H file fuel node parent s) := by
  cases node <;> first | cases h; done | exact Env.frame_visitClass U fuel _ parent s

private theorem after_class (node : Node) (parent : NodeId) (s : Env) (h : node.isClass = true) :
    Env.afterName node parent s = .ok { s with resolver := { s.resolver.leaveClass with scopeContainer := parent } } := by
  cases node <;> first | cases h; done | rfl

private theorem after_other (node : Node) (parent : NodeId) (s : Env) (h : node.isClass = false) (h' : node.isFunction = false) :
    Env.afterName node parent s = .ok s := by
  cases node <;> first | cases h; done | cases h'; done | rfl

private theorem class_not_function {n : Node} (h : n.isClass = true) : n.isFunction = false := by
  cases n <;> first | cases h; done | rfl

private theorem class_plain {n : Node} (h : n.isClass = true) : n.isChain = false := by
  cases n <;> first | cases h; done | rfl

private theorem silent_child {n c : Node} (h : Silent n) (hf : n.isFunction = false) (hh : n.isChain = false)
    (hc : c ∈ n.children) : Silent c := by
  cases h with
  | function h1 => rw [hf] at h1; cases h1
  | chain h1 _ => rw [hh] at h1; cases h1
  | other _ _ h1 => exact h1 c hc

private theorem free_child {n c : Node} (h : ClassFree n) (hc : c ∈ n.children) : ClassFree c := by
  cases h with
  | mk _ h1 => exact h1 c hc

private theorem noDoc_child {n c : Node} (h : NoDocVar n) (hc : c ∈ n.children) : NoDocVar c := by
  cases h with
  | mk _ h1 => exact h1 c hc

private theorem chain_kids (U : Unicode) (H : HashOrder) (file : NodeId) (fuel : Nat) (node : Node) (parent : NodeId)
    (s : Env) (h : node.isChain = true) :
    OkThat (fun p : NextAction × Env => p.1 = .abort) (Env.visitName U H file fuel node parent s) := by
  cases node <;> first | cases h; done | exact (OkThat.any _).bind fun p _ => OkThat.ok rfl

/-- The walk over a tree. -/
theorem walked (U : Unicode) (H : HashOrder) (file : NodeId) (F : Nat) (keep : Bool) : ∀ (fuel : Nat) (exact : Bool) (node : Node)
    (parent : NodeId) (s : Env),
    (exact = true → Silent node) → (keep = true → ClassFree node) → (mv = false → NoDocVar node) →
    OkThat (fun s' : Env => Walked (exact || node.isFunction) keep mv parent s s')
      (traverse Node.children (Env.nameVisitor U H file F) fuel node parent s)
  | 0, _, _, _, _, _, _, _ => OkThat.deep
  | fuel + 1, exact, node, parent, s, hs, hk, hd => by
    have ih' : ∀ (e : Bool), (e = true → exact = true) → ∀ (n : Node) (p : NodeId) (s : Env), (e = true → Silent n) →
        (keep = true → ClassFree n) → (mv = false → NoDocVar n) → OkThat (fun s' : Env => Walked e keep mv p s s')
          (traverse Node.children (Env.nameVisitor U H file F) fuel n p s) := by
      intro e he n p s h1 h2 h3
      refine (walked U H file F keep fuel e n p s h1 h2 h3).mono fun s' h => ?_
      exact { h with same := fun e' => h.same (by rw [e']; rfl) }
    unfold traverse
    by_cases hf : node.isFunction = true
    · refine OkThat.bind (walk_entered file node parent s hf) fun s1 h1 => ?_
      refine OkThat.bind (visit_function (mv := mv) U H file F node parent s1 hf) fun p hp => ?_
      refine OkThat.bind (Q := fun s3 : Env => Walked false keep mv p.2.resolver.scopeContainer p.2 s3) ?_ fun s3 h3 => ?_
      · rw [hp.2]
        exact walked_all (fun c hc s => ih' false (fun e => nomatch e) c _ s (fun e => nomatch e)
          (fun e => free_child (hk e) hc) (fun e => noDoc_child (hd e) hc)) p.2
      · have h4 := after_function node parent s3 hf
        have h5 : (Env.nameVisitor U H file F).after node parent s3 = _ := h4
        rw [h5]
        have hsame : s3.resolver.localScopes.tail = s.resolver.localScopes := by
          rw [h3.tail, hp.1.tail, h1.scopes]
        refine OkThat.ok ⟨?_, ?_, ?_, ?_, ?_, fun _ => rfl, ?_, ?_, ?_, ?_,
          fun k v hk => h3.cache k v (hp.1.cache k v (h1.cache k v hk))⟩
        · show s3.resolver.localScopes.tail.tail = _
          rw [hsame]
        · show s3.resolver.localScopes.tail.length = _
          rw [hsame]
        · intro _
          exact hsame
        · intro e
          exact (h3.kept e).trans (hp.1.cls.trans h1.cls)
        · rcases h3.cls with h | h
          · exact Or.inl (h.trans (hp.1.cls.trans h1.cls))
          · exact Or.inr h
        · exact h3.globals.trans (hp.1.globals.trans h1.globals)
        · exact fun f => ((h1.refs f).trans (hp.1.refs f)).trans (h3.refs f)
        · exact (h1.diagnostics ▸ hp.1.diagnostics).trans h3.diagnostics
        · have := hp.1.arena
          rw [h1.arena] at this
          exact this.trans h3.arena
    · have hf : node.isFunction = false := by simpa using hf
      rw [hf, Bool.or_false]
      refine OkThat.bind (before_other (exact := exact) (mv := mv) file node parent s hf) fun s1 h1 => ?_
      by_cases hc : node.isClass = true
      · refine OkThat.bind (visit_class (exact := exact) (mv := mv) U H file F node parent s1 hc) fun p hp => ?_
        have hk0 : keep = false := by
          cases hkk : keep with
          | false => rfl
          | true =>
            cases hk hkk with
            | mk h _ => rw [hc] at h; cases h
        refine OkThat.bind (Q := fun s3 : Env => ∃ q, Walked exact keep mv q s1 { s3 with resolver := s3.resolver.leaveClass }) ?_
          fun s3 h3 => ?_
        · rcases hp with ⟨ha, hfr⟩ | ⟨c, s2, ha, hfr, hs2⟩
          · rw [ha]
            refine OkThat.ok ⟨parent, ?_⟩
            exact ⟨hfr.tail, hfr.length, hfr.same, fun e => by (rw [hk0] at e; cases e), Or.inr rfl,
              fun e => hfr.container.trans e, hfr.globals, hfr.refs, hfr.diagnostics, hfr.arena, hfr.cache⟩
          · rw [ha]
            dsimp only
            refine (walked_all (fun k hkid s => ih' exact id k c s (fun e => silent_child (hs e) hf (class_plain hc) hkid)
              (fun e => free_child (hk e) hkid) (fun e => noDoc_child (hd e) hkid)) p.2).mono fun s3 h3 => ?_
            refine ⟨s3.resolver.scopeContainer, ?_⟩
            have e1 : p.2.resolver.localScopes = s2.resolver.localScopes := by rw [hs2]; rfl
            have e2 : p.2.resolver.globalScope = s2.resolver.globalScope := by rw [hs2]; rfl
            have e3 : p.2.resolver.diagnostics = s2.resolver.diagnostics := by rw [hs2]; rfl
            have e4 : p.2.arena = s2.arena := by rw [hs2]
            have e5 : ∀ f, p.2.resolver.refsOf f = s2.resolver.refsOf f := by rw [hs2]; exact fun _ => rfl
            exact ⟨by have := h3.tail; rw [e1] at this; exact this.trans hfr.tail,
              by have := h3.length; rw [e1] at this; exact this.trans hfr.length,
              fun e => by have := h3.same e; rw [e1] at this; exact this.trans (hfr.same e),
              fun e => by (rw [hk0] at e; cases e), Or.inr rfl, fun _ => rfl,
              by have := h3.globals; rw [e2] at this; exact this.trans hfr.globals,
              fun f => by have := h3.refs f; rw [e5] at this; exact (hfr.refs f).trans this,
              by have := h3.diagnostics; rw [e3] at this; exact hfr.diagnostics.trans this,
              by have := h3.arena; rw [e4] at this; exact hfr.arena.trans this,
              fun k v hk => h3.cache k v (by rw [hs2]; exact hfr.cache k v hk)⟩
        · obtain ⟨q, h3⟩ := h3
          have h4 := after_class node parent s3 hc
          have h5 : (Env.nameVisitor U H file F).after node parent s3 = _ := h4
          rw [h5]
          refine OkThat.ok ?_
          have hw := (Walked.ofFrame (exact := exact) (mv := mv) (keep := keep) (parent := q) h1).trans h3
          exact ⟨hw.tail, hw.length, hw.same, hw.kept, hw.cls, fun _ => rfl, hw.globals, hw.refs, hw.diagnostics, hw.arena, hw.cache⟩
      · have hc : node.isClass = false := by simpa using hc
        have hs2 : exact = true → node.declares = false ∧ (node.isChain = true → Env.AssignFree node) := by
          intro e
          cases hs e with
          | function h => rw [hf] at h; cases h
          | chain h h2 => exact ⟨by cases node <;> first | cases h; done | rfl, fun _ => h2⟩
          | other h1 h2 _ => exact ⟨h1, fun h => by rw [h2] at h; cases h⟩
        have hv : OkThat (fun p : NextAction × Env => (Frame exact mv s1 p.2 ∧
            (p.1 = .abort ∨ p.1 = .processChildren parent ∨ p.1 = .processChildren p.2.resolver.scopeContainer)) ∧
            (node.isChain = true → p.1 = .abort)) (Env.visitName U H file F node parent s1) := by
          intro p hp
          exact ⟨Env.frame_visitName U H file F node parent s1 hc hf hs2 (fun e => by cases hd e with | mk h _ => exact h) p hp,
            fun h => chain_kids U H file F node parent s1 h p hp⟩
        refine OkThat.bind hv fun p hp => ?_
        obtain ⟨⟨hfr, hact⟩, hch⟩ := hp
        refine OkThat.bind (Q := fun s3 : Env => Walked exact keep mv parent s s3) ?_ fun s3 h3 => ?_
        · have hbase : ∀ q, Walked exact keep mv q s p.2 := fun q => Walked.ofFrame (h1.trans hfr)
          have hkid : ∀ c ∈ node.children, p.1 ≠ .abort → (exact = true → Silent c) := by
            intro c hcm hne e
            refine silent_child (hs e) hf ?_ hcm
            cases hchain : node.isChain with
            | false => rfl
            | true => exact absurd (hch hchain) hne
          rcases hact with ha | ha | ha
          · rw [ha]
            exact OkThat.ok (hbase parent)
          · rw [ha]
            exact (walked_all (fun c hcm s => ih' exact id c parent s (hkid c hcm (by rw [ha]; exact fun h => nomatch h))
              (fun e => free_child (hk e) hcm) (fun e => noDoc_child (hd e) hcm)) p.2).mono fun s3 h3 => (hbase parent).trans h3
          · rw [ha]
            refine (walked_all (fun c hcm s => ih' exact id c _ s (hkid c hcm (by rw [ha]; exact fun h => nomatch h))
              (fun e => free_child (hk e) hcm) (fun e => noDoc_child (hd e) hcm)) p.2).mono fun s3 h3 => ?_
            have hw := (hbase p.2.resolver.scopeContainer).trans h3
            exact ⟨hw.tail, hw.length, hw.same, hw.kept, hw.cls,
              fun e => (h3.container rfl).trans ((h1.trans hfr).container.trans e),
              hw.globals, hw.refs, hw.diagnostics, hw.arena, hw.cache⟩
        · have h4 := after_other node parent s3 hc hf
          have h5 : (Env.nameVisitor U H file F).after node parent s3 = _ := h4
          rw [h5]
          exact OkThat.ok h3

/-! ## The claims -/

/-- The walk over one tree of a file (`collect_references`, `src/backend/mod.rs` 494–498). -/
abbrev walkTree (h : Host) (file : NodeId) (s : Env) (node : Node) : Out Env :=
  traverse Node.children (Env.nameVisitor h.U h.H file h.fuel) h.fuel node file s

/-- The walk over any tree leaves the scopes around the innermost one as they were, and opens none. -/
theorem C32_balanced (h : Host) (file : NodeId) (node : Node) (s s' : Env) (hw : walkTree h file s node = .ok s') :
    s'.resolver.localScopes.length = s.resolver.localScopes.length ∧
    s'.resolver.localScopes.tail = s.resolver.localScopes.tail := by
  have := walked (mv := true) h.U h.H file h.fuel false h.fuel false node file s (fun e => nomatch e) (fun e => nomatch e)
    (fun e => nomatch e) s' hw
  exact ⟨this.length, this.tail⟩

/-- Behind all trees of a file there is exactly one scope, as at the start (`collect_references`). -/
theorem C32_balanced_file (h : Host) (file : NodeId) (ast : List Node) (a : Arena Symbol) (globals : Dict Text NodeId) (s' : Env)
    (hw : ast.foldlM (walkTree h file) (Env.mk a (Resolver.new globals file)) = .ok s') :
    ∃ scope, s'.resolver.localScopes = [scope] := by
  have key : ∀ (l : List Node) (s : Env), s.resolver.localScopes.length = 1 → ∀ s', l.foldlM (walkTree h file) s = .ok s' →
      s'.resolver.localScopes.length = 1 := by
    intro l
    induction l with
    | nil => intro s hs s' e; cases e; exact hs
    | cons n r ih =>
      intro s hs s' e
      rw [List.foldlM_cons] at e
      obtain ⟨s1, h1, h2⟩ := Out.bind_eq_ok e
      exact ih s1 ((C32_balanced h file n s s1 h1).1.trans hs) s' h2
  have := key ast _ rfl s' hw
  match hl : s'.resolver.localScopes, this with
  | [x], _ => exact ⟨x, rfl⟩

/-- What a name of a variable means in a state. -/
abbrev Env.meaning (s : Env) (name : Token) : Option NodeId := s.resolver.getLocal name

private theorem same_meaning {r r' : Resolver} (h : r'.localScopes = r.localScopes) (h' : r'.currentClass = r.currentClass)
    (t : Token) : r'.getLocal t = r.getLocal t := by
  unfold Resolver.getLocal
  rw [h, h']

private theorem same_meaning' {r r' : Resolver} (h : r'.localScopes = r.localScopes) (t : Token)
    (ht : t.label ≠ some c!"this") : r'.getLocal t = r.getLocal t := by
  unfold Resolver.getLocal
  cases hl : t.label with
  | none => rfl
  | some l =>
    have : l ≠ c!"this" := fun e => ht (by rw [hl, e])
    simp only [this, and_false, if_false, h]

/-- Behind a function, a method or an arrow function each name but `$this` means what it meant before: nothing that is declared
in it is visible.  Missing: the other functions, see `C32_violated_closure`. -/
theorem C32_function_partial (h : Host) (file : NodeId) (node : Node) (s s' : Env) (hf : node.isFunction = true)
    (hw : walkTree h file s node = .ok s') (name : Token) (hn : name.label ≠ some c!"this") :
    s'.meaning name = s.meaning name := by
  have := walked (mv := true) h.U h.H file h.fuel false h.fuel false node file s (fun e => nomatch e) (fun e => nomatch e)
    (fun e => nomatch e) s' hw
  exact same_meaning' (this.same (by rw [hf]; rfl)) name hn

/-- The same for each tree that declares nothing outside of its functions, such as a class with methods.  Missing: classes with
variables outside of their methods, see `C32_violated_class`. -/
theorem C32_class_partial (h : Host) (file : NodeId) (node : Node) (s s' : Env) (hf : Silent node)
    (hw : walkTree h file s node = .ok s') (name : Token) (hn : name.label ≠ some c!"this") :
    s'.meaning name = s.meaning name := by
  have := walked (mv := true) h.U h.H file h.fuel false h.fuel true node file s (fun _ => hf) (fun e => nomatch e)
    (fun e => nomatch e) s' hw
  exact same_meaning' (this.same rfl) name hn

/-- Behind a tree without classes `$this` means what it meant before, if no name was declared; behind any tree it means that or
nothing.  Missing: trees with classes inside of methods. -/
theorem C32_this_partial (h : Host) (file : NodeId) (node : Node) (s s' : Env) (hw : walkTree h file s node = .ok s') :
    (ClassFree node → s'.resolver.currentClass = s.resolver.currentClass) ∧
    (s'.resolver.currentClass = s.resolver.currentClass ∨ s'.resolver.currentClass = none) := by
  constructor
  · intro hc
    exact (walked (mv := true) h.U h.H file h.fuel true h.fuel false node file s (fun e => nomatch e) (fun _ => hc)
      (fun e => nomatch e) s' hw).kept rfl
  · exact (walked (mv := true) h.U h.H file h.fuel false h.fuel false node file s (fun e => nomatch e) (fun e => nomatch e)
      (fun e => nomatch e) s' hw).cls

/-- Behind the walk over a top level node the symbols of variables are put into the file again. -/
theorem C32_container (h : Host) (file : NodeId) (node : Node) (s s' : Env) (hs : s.resolver.scopeContainer = file)
    (hw : walkTree h file s node = .ok s') : s'.resolver.scopeContainer = file :=
  (walked (mv := true) h.U h.H file h.fuel false h.fuel false node file s (fun e => nomatch e) (fun e => nomatch e)
    (fun e => nomatch e) s' hw).container hs

/-! ## Examples -/

/-- A check of `AssignFree`. -/
def assignFreeB : Nat → Node → Bool
  | 0, _ => false
  | fuel + 1, n => (match n with | .binary _ t _ => t.t != .assignment | _ => true) && n.children.all (assignFreeB fuel)

theorem assignFreeB_sound : ∀ (fuel : Nat) (n : Node), assignFreeB fuel n = true → Env.AssignFree n
  | 0, _, h => nomatch h
  | fuel + 1, n, h => by
    unfold assignFreeB at h
    rw [Bool.and_eq_true, List.all_eq_true] at h
    refine .mk (fun l t r e => ?_) fun c hc => assignFreeB_sound fuel c (h.2 c hc)
    subst e
    have := h.1
    simpa using this

/-- A check of `Silent`. -/
def silentB : Nat → Node → Bool
  | 0, _ => false
  | fuel + 1, n => n.isFunction || (n.isChain && assignFreeB fuel n) ||
      (!n.declares && !n.isChain && n.children.all (silentB fuel))

theorem silentB_sound : ∀ (fuel : Nat) (n : Node), silentB fuel n = true → Silent n
  | 0, _, h => nomatch h
  | fuel + 1, n, h => by
    unfold silentB at h
    simp only [Bool.or_eq_true, Bool.and_eq_true, Bool.not_eq_true', List.all_eq_true] at h
    rcases h with (h | h) | h
    · exact .function h
    · exact .chain h.1 (assignFreeB_sound fuel n h.2)
    · exact .other h.1.1 h.1.2 fun c hc => silentB_sound fuel c (h.2 c hc)

/-- A check of `ClassFree`. -/
def classFreeB : Nat → Node → Bool
  | 0, _ => false
  | fuel + 1, n => !n.isClass && n.children.all (classFreeB fuel)

theorem classFreeB_sound : ∀ (fuel : Nat) (n : Node), classFreeB fuel n = true → ClassFree n
  | 0, _, h => nomatch h
  | fuel + 1, n, h => by
    unfold classFreeB at h
    simp only [Bool.and_eq_true, Bool.not_eq_true', List.all_eq_true] at h
    exact .mk h.1 fun c hc => classFreeB_sound fuel c (h.2 c hc)

/-- A class with a method and a function: both meet the hypotheses, and the walk over the file succeeds. -/
private abbrev sample : Text :=
  c!"<?php class A { private $p = 1; public function f($a) { $x = $a; return $this->f($x); } } function g() { $x = 1; } echo $x;"

example : ((treeOf sample).map fun n => (silentB 20 n, classFreeB 20 n, n.isFunction)) =
    [(true, false, false), (true, true, true), (false, true, false)] := by decide +kernel


/-- The last `$x` is a symbol of its own, different from the two in the functions. -/
example : (refsIn c!"a.php" (startAndOpen [(c!"a.php", sample)] c!"a.php")).map (fun l => l.filter fun e =>
      decide ((0, 56) ∈ e.2 ∨ (0, 105) ∈ e.2 ∨ (0, 120) ∈ e.2)) =
    some [(⟨9, 0⟩, [(0, 120)]), (⟨8, 0⟩, [(0, 105)]), (⟨7, 0⟩, [(0, 56), (0, 81)])] := by decide +kernel

/-! ## Variables that leak -/

/-- `$x` of an anonymous function and `$x` behind it are the same symbol. -/
theorem C32_violated_closure :
    refsIn c!"a.php" (startAndOpen [(c!"a.php", c!"<?php $f = function () { $x = 1; }; echo $x;")] c!"a.php") =
      some [(⟨1, 0⟩, [(0, 25), (0, 25), (0, 41)]), (⟨2, 0⟩, [(0, 6)])] := by decide +kernel

/-- `$x` of an arrow function that is assigned and `$x` behind it are the same symbol. -/
theorem C32_violated_arrow :
    refsIn c!"a.php" (startAndOpen [(c!"a.php", c!"<?php $f = fn() => $x = 1; echo $x;")] c!"a.php") =
      some [(⟨2, 0⟩, [(0, 19), (0, 19), (0, 32)]), (⟨3, 0⟩, [(0, 6)])] := by decide +kernel

/-- `$x` in the default of a property and `$x` behind the class are the same symbol. -/
theorem C32_violated_class :
    refsIn c!"a.php" (startAndOpen [(c!"a.php", c!"<?php class A { private $p = [$x, 2]; } echo $x;")] c!"a.php") =
      some [(⟨4, 0⟩, [(0, 30), (0, 45)]), (⟨3, 0⟩, [(0, 24)]), (⟨1, 0⟩, [(0, 12)])] := by decide +kernel

/-- Behind a class inside of a method `$this` is not the class of the method any more: it is a new symbol. -/
theorem C32_violated_this :
    refsIn c!"a.php" (startAndOpen [(c!"a.php", c!"<?php class A { public function f() { class B { } $this; } }")] c!"a.php") =
      some [(⟨6, 0⟩, [(0, 50)]), (⟨3, 0⟩, [(0, 32)]), (⟨1, 0⟩, [(0, 12)])] := by decide +kernel

end PhpLs
