import Verif.Props.Scopes
import Verif.Props.ReferencesNamed
import Verif.ResolverTarget
import Verif.ArenaBelow

/-!
# C69: every class name in view is looked up

`C68` says that every recorded reference has a reason.  Here is the other direction: which class names of a tree are looked up
when the names of a file are resolved, and what happens with each of them.

* `C69_looked`: every name in view is looked up, or the class around it is not found.
* `C69_linked`: a name that is looked up is recorded as a reference to the symbol found, or reported, or it is one of the words
  that are not recorded (built-in types, `self`, `static`, `parent`).  If it was looked up before, it is recorded or reported as
  well, unless its place is one of those that are asked for on the way: the names in the head or in the data types of a symbol.
* `C69_file`: both for a whole file.
* `C69_violated_*`: names that are not in view although PHP uses them.
-/

namespace PhpLs

open Out

namespace Linked

/-! ## Specification -/

/-- The expressions that are looked through with all of their parts. -/
def other : Node → Bool
  | .binary .. | .ternary .. | .unary .. | .cloneExpr .. | .newExpr .. | .grouping .. | .call .. | .array .. | .arrayElement ..
  | .staticMember .. | .member .. | .variable .. | .literal .. | .typeRef .. | .field .. => false
  | _ => true

/-- The name `t` is in view in an expression that is looked up for its type.  Not in view are the key of an array element, the
links of a member access, an assignment to anything but a variable, and a subscript of anything but variables and members. -/
inductive Inside : Node → TypeRef → Prop
  | name {t : TypeRef} : Inside (.typeRef t) t
  | operand {l r n : Node} {k : Token} {t : TypeRef} : k.t ≠ .assignment → n ∈ [l, r] → Inside n t → Inside (.binary l k r) t
  | assigned {v k : Token} {r : Node} {t : TypeRef} : k.t = .assignment → Inside r t → Inside (.binary (.variable v) k r) t
  | arm {c b n : Node} {a : Option Node} {q k : Token} {t : TypeRef} : n ∈ c :: (a.toList ++ [b]) → Inside n t →
      Inside (.ternary c q a k b) t
  | unary {n : Node} {k : Token} {t : TypeRef} : Inside n t → Inside (.unary n k) t
  | clone {n : Node} {k : Token} {t : TypeRef} : Inside n t → Inside (.cloneExpr k n) t
  | new {n : Node} {k : Token} {t : TypeRef} : Inside n t → Inside (.newExpr k n) t
  | grouping {n : Node} {t : TypeRef} : Inside n t → Inside (.grouping n) t
  | callee {n : Node} {ps : List Node} {o c : Token} {t : TypeRef} : Inside n t → Inside (.call n o ps c) t
  | argument {n p : Node} {ps : List Node} {o c : Token} {t : TypeRef} : p ∈ ps → Inside p t → Inside (.call n o ps c) t
  | element {p : Node} {ps : List Node} {o c : Token} {t : TypeRef} : p ∈ ps → Inside p t → Inside (.array o ps c) t
  | value {n : Node} {x : Option Node} {k : Option Token} {t : TypeRef} : Inside n t → Inside (.arrayElement x k n) t
  | member {n l : Node} {k : Token} {a b : Option Token} {t : TypeRef} : Inside n t → Inside (.member n k a l b) t
  | static {n l : Node} {k : Token} {a b : Option Token} {t : TypeRef} : Inside n t → Inside (.staticMember n k a l b) t
  | subscript {n i : Node} {o c : Token} {t : TypeRef} : Inside i t → Inside (.field n o (some i) c) t
  | ofMember {n l : Node} {i : Option Node} {k o c : Token} {a b : Option Token} {t : TypeRef} : Inside n t →
      Inside (.field (.member n k a l b) o i c) t
  | ofElement {n : Node} {i i' : Option Node} {o c o' c' : Token} {t : TypeRef} : Inside (.field n o' i' c') t →
      Inside (.field (.field n o' i' c') o i c) t
  | part {n c : Node} {t : TypeRef} : other n = true → c ∈ n.children → Inside c t → Inside n t

/-- The trees whose parts are not visited. -/
def closed : Node → Bool
  | .useDeclaration .. | .typeRef .. | .variable .. | .docCommentVar .. | .functionArgument .. | .returnType ..
  | .staticMember .. | .member .. | .namespaceStatement .. => true
  | .binary _ k _ => k.t == .assignment
  | _ => false

/-- The name of a class, a trait or an interface. -/
def classNames : Node → List Token
  | .classStatement _ name .. | .traitStatement _ name .. | .interface _ name .. => [name]
  | _ => []

/-- The comment of a function. -/
def commentOf : Node → Option Node
  | .methodDefinitionStatement _ _ _ _ _ _ _ _ doc _ => doc
  | .functionDefinitionStatement _ _ _ _ _ doc => doc
  | _ => none

/-- The types a comment returns. -/
def returned : Option Node → List TypeRef
  | some (.docComment _ returnType _ _ _ _ _) => returnType.flatMap getTypeRef
  | _ => []

/-- The name `t` is in view in a tree; the names of the classes around it. -/
inductive InView : Node → List Token → TypeRef → Prop
  | name {t : TypeRef} : InView (.typeRef t) [] t
  | result {k : Token} {dt : Node} {t : TypeRef} : t ∈ getTypeRefs dt → InView (.returnType k dt) [] t
  | documented {n : Node} {t : TypeRef} : t ∈ returned (commentOf n) → InView n [] t
  | variable {k : Token} {ts : Option (List TypeRef)} {d : Text} {t : TypeRef} : t ∈ ts.getD [] →
      InView (.docCommentVar k ts d) [] t
  | access {n : Node} {t : TypeRef} : n.isChain = true → Inside n t → InView n [] t
  | assigned {l r : Node} {k : Token} {t : TypeRef} : k.t = .assignment → Inside r t → InView (.binary l k r) [] t
  | target {l r : Node} {k : Token} {t : TypeRef} : k.t = .assignment → Inside l t → InView (.binary l k r) [] t
  | part {n c : Node} {cs : List Token} {t : TypeRef} : closed n = false → c ∈ n.children → InView c cs t →
      InView n (classNames n ++ cs) t

/-- From `s` to `s'` nothing recorded and no answer is lost; if `mv` does not hold, no symbol is moved. -/
structure Grown (mv : Bool) (s s' : Env) : Prop where
  globals : s'.resolver.globalScope = s.resolver.globalScope
  refs : ∀ f, s.resolver.refsOf f <+: s'.resolver.refsOf f
  diagnostics : s.resolver.diagnostics <+: s'.resolver.diagnostics
  arena : Reach mv s.arena s'.arena
  cache : ∀ k v, Dict.get? s.resolver.cache k = some v → Dict.get? s'.resolver.cache k = some v

/-- The symbol `x` belongs to the file `top`.  Nothing is said if symbols are moved. -/
def HomeAt (mv : Bool) (top : NodeId) (a : Arena Symbol) (x : NodeId) : Prop :=
  mv = true ∨ a.Ok ∧ (∃ v, a.Has top v none) ∧ a.Live x ∧ a.Below top x

/-- Between `s` and `s'` the name `t` is looked up from a symbol of the file `top`, with this answer. -/
def Answered (mv : Bool) (top : NodeId) (U : Unicode) (t : TypeRef) (o : Option NodeId) (s s' : Env) : Prop :=
  ∃ s1 s2 anchor fuel, Grown mv s s1 ∧ HomeAt mv top s1.arena anchor ∧ Env.resolve U fuel s1 t anchor = .ok (o, s2) ∧
    Grown mv s2 s'

/-- Between `s` and `s'` the name `t` is looked up. -/
def Looked (mv : Bool) (top : NodeId) (U : Unicode) (t : TypeRef) (s s' : Env) : Prop := ∃ o, Answered mv top U t o s s'

/-- The class `c` is found in another file. -/
def Foreign (mv : Bool) (top : NodeId) (U : Unicode) (c : Token) (s s' : Env) : Prop :=
  mv = false ∧ ∃ m, Answered mv top U (.one [c]) (some m) s s' ∧ s'.arena.Ok ∧ s'.arena.Live m ∧ ¬ s'.arena.Below top m

/-! ## Lemmas -/

variable {mv : Bool} {top : NodeId}

namespace Grown

theorem refl (s : Env) : Grown mv s s := ⟨rfl, fun _ => List.prefix_rfl, List.prefix_rfl, .refl _, fun _ _ h => h⟩

theorem trans {s s' s'' : Env} (h : Grown mv s s') (h' : Grown mv s' s'') : Grown mv s s'' :=
  ⟨h'.globals.trans h.globals, fun f => (h.refs f).trans (h'.refs f), h.diagnostics.trans h'.diagnostics, h.arena.trans h'.arena,
    fun k v hk => h'.cache k v (h.cache k v hk)⟩

theorem ofFrame {exact : Bool} {s s' : Env} (h : Frame exact mv s s') : Grown mv s s' :=
  ⟨h.globals, h.refs, h.diagnostics, h.arena, h.cache⟩

theorem ofWalked {exact keep : Bool} {p : NodeId} {s s' : Env} (h : Walked exact keep mv p s s') : Grown mv s s' :=
  ⟨h.globals, h.refs, h.diagnostics, h.arena, h.cache⟩

end Grown

private theorem below_later {a b : Arena Symbol} (h : Extended a b) {r n : NodeId} (hb : a.Below r n) : b.Below r n := by
  induction hb with
  | self => exact .self
  | down _ hn ih =>
    obtain ⟨w, hw, _⟩ := h.keep _ _ _ hn
    exact .down ih hw

private theorem below_earlier {a b : Arena Symbol} (ha : a.Ok) (h : Extended a b) {r n : NodeId} (hb : b.Below r n)
    (hn : a.Live n) : a.Below r n := by
  induction hb with
  | self => exact .self
  | @down q m v _ hm ih =>
    rcases h.new _ _ _ hm with ⟨w, hw, _⟩ | ⟨h1, _⟩
    · obtain ⟨u, z, hu⟩ := hw.up
      exact .down (ih hu.live) hw
    · exact absurd hn h1

theorem HomeAt.later {a b : Arena Symbol} {x : NodeId} (h : HomeAt mv top a x) (hr : Reach mv a b) : HomeAt mv top b x := by
  rcases h with h | ⟨h1, ⟨v, h2⟩, h3, h4⟩
  · exact .inl h
  · cases mv with
    | true => exact .inl rfl
    | false =>
      have e := hr.extended h1
      obtain ⟨w, hw, _⟩ := e.keep _ _ _ h2
      exact .inr ⟨e.ok, ⟨w, hw⟩, e.live h3, below_later e h4⟩

/-- The name is asked for in the scope container. -/
abbrev Home (mv : Bool) (top : NodeId) (s : Env) : Prop := HomeAt mv top s.arena s.resolver.scopeContainer

theorem HomeAt.frame {exact : Bool} {s s' : Env} {x : NodeId} (h : HomeAt mv top s.arena x) (hf : Frame exact mv s s') :
    HomeAt mv top s'.arena x := h.later hf.arena

theorem Home.frame {exact : Bool} {s s' : Env} (h : Home mv top s) (hf : Frame exact mv s s') : Home mv top s' := by
  unfold Home
  rw [hf.container]
  exact h.later hf.arena

variable {U : Unicode} {t : TypeRef} {o : Option NodeId}

theorem Answered.before {s s1 s' : Env} (h : Answered mv top U t o s1 s') (hg : Grown mv s s1) : Answered mv top U t o s s' := by
  obtain ⟨a, b, c, d, h1, h2, h3, h4⟩ := h
  exact ⟨a, b, c, d, hg.trans h1, h2, h3, h4⟩

theorem Answered.later {s s1 s' : Env} (h : Answered mv top U t o s s1) (hg : Grown mv s1 s') : Answered mv top U t o s s' := by
  obtain ⟨a, b, c, d, h1, h2, h3, h4⟩ := h
  exact ⟨a, b, c, d, h1, h2, h3, h4.trans hg⟩

theorem Looked.before {s s1 s' : Env} (h : Looked mv top U t s1 s') (hg : Grown mv s s1) : Looked mv top U t s s' :=
  h.elim fun o h => ⟨o, h.before hg⟩

theorem Looked.later {s s1 s' : Env} (h : Looked mv top U t s s1) (hg : Grown mv s1 s') : Looked mv top U t s s' :=
  h.elim fun o h => ⟨o, h.later hg⟩

theorem Foreign.before {c : Token} {s s1 s' : Env} (h : Foreign mv top U c s1 s') (hg : Grown mv s s1) : Foreign mv top U c s s' := by
  obtain ⟨hm, m, h1, h2⟩ := h
  exact ⟨hm, m, h1.before hg, h2⟩

theorem Foreign.later {c : Token} {s s1 s' : Env} (h : Foreign mv top U c s s1) (hg : Grown mv s1 s') : Foreign mv top U c s s' := by
  obtain ⟨hm, m, h1, h2, h3, h4⟩ := h
  subst hm
  have e := hg.arena.extended h2
  exact ⟨rfl, m, h1.later hg, e.ok, e.live h3, fun hb => h4 (below_earlier h2 e hb h3)⟩

theorem looked_resolve (fuel : Nat) (s : Env) (anchor : NodeId) (h : HomeAt mv top s.arena anchor) :
    OkThat (fun p : Option NodeId × Env => Answered mv top U t p.1 s p.2) (s.resolve U fuel t anchor) :=
  fun p hp => ⟨s, p.2, anchor, fuel, Grown.refl _, h, hp, Grown.refl _⟩

/-- A function that looks up the names in view. -/
def LooksFn (mv : Bool) (top : NodeId) (U : Unicode) (t : TypeRef) (call : Env → Node → Out (Option NodeId × Env)) : Prop :=
  ∀ s n, Home mv top s → Inside n t → OkThat (fun p : Option NodeId × Env => Looked mv top U t s p.2) (call s n)

variable {call : Env → Node → Out (Option NodeId × Env)}

theorem LooksFn.each (hl : LooksFn mv top U t call) (hc : Env.FrameFn false mv call) {n : Node} (hn : Inside n t) :
    ∀ (l : List Node), n ∈ l → ∀ s : Env, Home mv top s →
    OkThat (fun s' : Env => Looked mv top U t s s') (l.foldlM (fun s c => do let q ← call s c; pure q.2) s)
  | m :: l, hm, s, hh => by
    rw [List.foldlM_cons, bind_assoc]
    rcases List.mem_cons.1 hm with rfl | hm
    · refine (hl s n hh hn).bind fun q hq => ?_
      exact (hc.each l (fun e => nomatch e) q.2).mono fun s' hs' => hq.later (.ofFrame hs')
    · refine (hc s m (fun e => nomatch e)).bind fun q hq => ?_
      exact (hl.each hc hn l hm q.2 (hh.frame hq)).mono fun s' hs' => hs'.before (.ofFrame hq)

theorem LooksFn.opt (hl : LooksFn mv top U t call) {n : Node} (hn : Inside n t) (s : Env) (hh : Home mv top s) :
    OkThat (fun s' : Env => Looked mv top U t s s') (match some n with
      | some i => do let p ← call s i; pure p.2
      | none => pure s) :=
  (hl s n hh hn).bind fun q hq => OkThat.ok hq

theorem looked_rootOf (file : NodeId) (hl : LooksFn mv top U t call) (hc : Env.FrameFn false mv call) (node : Node) :
    ∀ (fuel : Nat) (cur : Node) (chain : List Node) (s : Env), (cur = node ∨ ∃ c ∈ node.children, Inside c t) → Inside cur t →
    Home mv top s → OkThat (fun p : Env.Root × Env => Looked mv top U t s p.2) (Env.rootOf U file call node fuel cur chain s)
  | 0, _, _, _, _, _, _ => OkThat.deep
  | fuel + 1, cur, chain, s, hup, hin, hh => by
    have ih := looked_rootOf file hl hc node fuel
    have fr := fun cur chain s => Env.frame_rootOf U file hc node (fun e => nomatch e) fuel cur chain s (fun e => nomatch e)
    have down : ∀ c, c ∈ cur.children → Inside c t → (c = node ∨ ∃ c ∈ node.children, Inside c t) := by
      intro c hcm hci
      rcases hup with rfl | h
      · exact .inr ⟨c, hcm, hci⟩
      · exact .inr h
    unfold Env.rootOf
    cases hin with
    | name =>
      refine (looked_resolve fuel s _ hh).bind fun p hp => ?_
      split
      · exact OkThat.ok ⟨_, hp⟩
      · exact OkThat.ok ⟨_, hp⟩
    | operand hk hn h =>
      rename_i l r n k
      dsimp only
      rw [if_neg hk]
      rcases List.mem_cons.1 hn with rfl | hn
      · refine (hl s _ hh h).bind fun p hp => ?_
        exact (hc p.2 r (fun e => nomatch e)).bind fun q hq => OkThat.ok (hp.later (.ofFrame hq))
      · cases List.mem_singleton.1 hn
        refine (hc s l (fun e => nomatch e)).bind fun p hp => ?_
        exact (hl p.2 _ (hh.frame hp) h).bind fun q hq => OkThat.ok (hq.before (.ofFrame hp))
    | assigned hk h =>
      rename_i v k r
      dsimp only
      rw [if_pos hk]
      refine (hl s r hh h).bind fun d hd => ?_
      refine Env.frame_assign (mv := mv) d.2 v d.1 file fun c e he => ?_
      exact (fr _ chain e.2).mono fun q hq => hd.later ((Grown.ofFrame he).trans (.ofFrame hq))
    | arm hn h =>
      rename_i c b n a q k
      dsimp only
      rcases List.mem_cons.1 hn with rfl | hn
      · refine (hl s _ hh h).bind fun p hp => ?_
        refine OkThat.bind (Q := fun q : Option NodeId × Env => Frame false mv p.2 q.2) ?_ fun q hq => ?_
        · cases a with
          | none => exact OkThat.ok (Frame.refl _)
          | some a => exact hc p.2 a (fun e => nomatch e)
        · exact (hc q.2 b (fun e => nomatch e)).bind fun w hw => OkThat.ok (hp.later ((Grown.ofFrame hq).trans (.ofFrame hw)))
      · refine (hc s c (fun e => nomatch e)).bind fun p hp => ?_
        rcases List.mem_append.1 hn with hn | hn
        · obtain rfl : a = some n := by simpa using hn
          refine (hl p.2 _ (hh.frame hp) h).bind fun q hq => ?_
          exact (hc q.2 b (fun e => nomatch e)).bind fun w hw => OkThat.ok ((hq.before (.ofFrame hp)).later (.ofFrame hw))
        · cases List.mem_singleton.1 hn
          refine OkThat.bind (Q := fun q : Option NodeId × Env => Frame false mv p.2 q.2) ?_ fun q hq => ?_
          · cases a with
            | none => exact OkThat.ok (Frame.refl _)
            | some a => exact hc p.2 a (fun e => nomatch e)
          · exact (hl q.2 _ ((hh.frame hp).frame hq) h).bind fun w hw => OkThat.ok (hw.before ((Grown.ofFrame hp).trans (.ofFrame hq)))
    | unary h | clone h | new h | grouping h =>
      exact ih _ _ _ (down _ (by simp [Node.children]) h) h hh
    | member h | static h =>
      exact ih _ _ _ (down _ (by simp [Node.children]) h) h hh
    | callee h =>
      rename_i n ps ob cb
      refine (hc.each ps (fun e => nomatch e) s).bind fun s' hs' => ?_
      exact (ih _ _ _ (down _ (by simp [Node.children]) h) h (hh.frame hs')).mono fun q hq => hq.before (.ofFrame hs')
    | argument hm h =>
      rename_i n p ps ob cb
      refine (hl.each hc h ps hm s hh).bind fun s' hs' => ?_
      exact (fr _ chain s').mono fun q hq => hs'.later (.ofFrame hq)
    | element hm h => exact (hl.each hc h _ hm s hh).bind fun s' hs' => OkThat.ok hs'
    | value h => exact (hl s _ hh h).bind fun p hp => OkThat.ok hp
    | subscript h =>
      rename_i a i ob cb
      refine (hl.opt h s hh).bind fun s1 h1 => ?_
      split
      · next c =>
        split
        · exact OkThat.ok h1
        · refine (Env.frame_refLocal (exact := false) (mv := mv) s1 file _ _).bind fun s2 h2 => ?_
          refine OkThat.bindOption fun sym _ => ?_
          split
          · exact OkThat.ok (h1.later (.ofFrame h2))
          · exact OkThat.ok (h1.later (.ofFrame h2))
      · exact (fr _ _ s1).mono fun q hq => h1.later (.ofFrame hq)
      · refine (hc.opt _ s1 (fun e => nomatch e)).bind fun s2 h2 => ?_
        exact (fr _ _ s2).mono fun q hq => h1.later ((Grown.ofFrame h2).trans (.ofFrame hq))
      · exact OkThat.ok h1
    | ofMember h =>
      rename_i n l i k ob cb a b
      refine (hc.opt _ s (fun e => nomatch e)).bind fun s1 h1 => ?_
      refine (ih _ _ s1 ?_ h (hh.frame h1)).mono fun q hq => hq.before (.ofFrame h1)
      rcases hup with rfl | hup
      · exact .inr ⟨.member n k a l b, by simp [Node.children], .member h⟩
      · exact .inr hup
    | ofElement h =>
      rename_i n i i' ob cb ob' cb'
      have hup' : ∀ m, m = node ∨ ∃ c ∈ node.children, Inside c t := by
        rcases hup with rfl | hup
        · exact fun m => .inr ⟨_, by simp [Node.children], h⟩
        · exact fun m => .inr hup
      refine (hc.opt _ s (fun e => nomatch e)).bind fun s1 h1 => ?_
      cases h with
      | subscript h =>
        refine (hl.opt h s1 (hh.frame h1)).bind fun s2 h2 => ?_
        exact (fr _ _ s2).mono fun q hq => (h2.before (.ofFrame h1)).later (.ofFrame hq)
      | ofMember h =>
        refine (hc.opt _ s1 (fun e => nomatch e)).bind fun s2 h2 => ?_
        refine (ih _ _ s2 (hup' _) (.member h) ((hh.frame h1).frame h2)).mono fun q hq => hq.before ((Grown.ofFrame h1).trans (.ofFrame h2))
      | ofElement h =>
        refine (hc.opt _ s1 (fun e => nomatch e)).bind fun s2 h2 => ?_
        exact (ih _ _ s2 (hup' _) h ((hh.frame h1).frame h2)).mono fun q hq => hq.before ((Grown.ofFrame h1).trans (.ofFrame h2))
      | part ho => cases ho
    | part ho hm h =>
      have hx : ∃ c ∈ node.children, Inside c t := by
        rcases hup with rfl | h
        · exact ⟨_, hm, h⟩
        · exact h
      obtain ⟨x, hx, hxi⟩ := hx
      split <;> first | cases ho; done | skip
      exact (hl.each hc hxi _ hx s hh).bind fun s' hs' => OkThat.ok hs'

theorem looked_memberType (H : HashOrder) (file : NodeId) : ∀ fuel : Nat, LooksFn mv top U t (Env.memberType U H file fuel)
  | 0 => fun _ _ _ _ => OkThat.deep
  | fuel + 1 => by
    intro s node hh hn
    unfold Env.memberType
    refine (looked_rootOf file (looked_memberType H file fuel) (Env.frame_memberType U H file fuel) node fuel node [] s
      (.inl rfl) hn hh).bind fun p hp => ?_
    split
    · exact OkThat.ok hp
    · refine OkThat.bindOption fun anc _ => OkThat.bindOption fun top _ => OkThat.bindOption fun f _ => ?_
      split
      · exact OkThat.ok hp
      · exact (Env.frame_links (exact := false) (mv := mv) U H file fuel _ _ _ _ p.2).mono fun q hq => hp.later (.ofFrame hq)

theorem looked_each (fuel : Nat) (anchor : NodeId) : ∀ (ts : List TypeRef) (s : Env), t ∈ ts → HomeAt mv top s.arena anchor →
    OkThat (fun s' : Env => Looked mv top U t s s') (s.resolveEach U fuel ts anchor)
  | x :: ts, s, hm, hh => by
    unfold Env.resolveEach
    rw [List.foldlM_cons, bind_assoc]
    by_cases hx : x = t
    · subst hx
      refine (looked_resolve fuel s anchor hh).bind fun p hp => ?_
      exact (Env.frame_resolveEach (exact := false) (mv := mv) U fuel p.2 ts anchor).mono fun s' hs' =>
        Looked.later ⟨_, hp⟩ (.ofFrame hs')
    · refine (Env.frame_resolve (exact := false) (mv := mv) U fuel s x anchor).bind fun p hp => ?_
      have hm : t ∈ ts := (List.mem_cons.1 hm).resolve_left fun e => hx e.symm
      exact (looked_each fuel anchor ts p.2 hm (hh.frame hp)).mono fun s' hs' => hs'.before (.ofFrame hp)

theorem grown_types (fuel : Nat) (anchor : NodeId) : ∀ (ts : List TypeRef) (acc : List SymRef × Env),
    OkThat (fun p : List SymRef × Env => Grown mv acc.2 p.2) (ts.foldlM (fun (acc : List SymRef × Env) t => do
      let p ← acc.2.resolve U fuel t anchor
      let ref ← .ofOption (match p.1 with
        | some n => SymRef.toNode t n
        | none => SymRef.toType t)
      pure (acc.1 ++ [ref], p.2)) acc)
  | [], acc => OkThat.ok (Grown.refl _)
  | x :: ts, acc => by
    rw [List.foldlM_cons, bind_assoc]
    refine (Env.frame_resolve (exact := false) (mv := mv) U fuel acc.2 x anchor).bind fun p hp => ?_
    rw [bind_assoc]
    refine OkThat.bindOption fun ref _ => ?_
    exact (grown_types fuel anchor ts (acc.1 ++ [ref], p.2)).mono fun q hq => (Grown.ofFrame hp).trans hq

theorem looked_types (fuel : Nat) (anchor : NodeId) : ∀ (ts : List TypeRef) (acc : List SymRef × Env), t ∈ ts →
    HomeAt mv top acc.2.arena anchor → OkThat (fun p : List SymRef × Env => Looked mv top U t acc.2 p.2) (ts.foldlM (fun (acc : List SymRef × Env) t => do
      let p ← acc.2.resolve U fuel t anchor
      let ref ← .ofOption (match p.1 with
        | some n => SymRef.toNode t n
        | none => SymRef.toType t)
      pure (acc.1 ++ [ref], p.2)) acc)
  | x :: ts, acc, hm, hh => by
    rw [List.foldlM_cons, bind_assoc]
    by_cases hx : x = t
    · subst hx
      refine (looked_resolve fuel acc.2 anchor hh).bind fun p hp => ?_
      rw [bind_assoc]
      refine OkThat.bindOption fun ref _ => ?_
      exact (grown_types fuel anchor ts (acc.1 ++ [ref], p.2)).mono fun q hq => Looked.later ⟨_, hp⟩ hq
    · refine (Env.frame_resolve (exact := false) (mv := mv) U fuel acc.2 x anchor).bind fun p hp => ?_
      rw [bind_assoc]
      refine OkThat.bindOption fun ref _ => ?_
      have hm : t ∈ ts := (List.mem_cons.1 hm).resolve_left fun e => hx e.symm
      exact (looked_types fuel anchor ts (acc.1 ++ [ref], p.2) hm (hh.frame hp)).mono fun q hq => hq.before (.ofFrame hp)

theorem looked_docVar (file : NodeId) (fuel : Nat) (name : Token) (types : Option (List TypeRef)) (parent : NodeId) (s : Env)
    (hmv : mv = true) (ht : t ∈ types.getD []) :
    OkThat (fun s' : Env => Looked mv top U t s s') (Env.visitDocVar U file fuel name types parent s) := by
  unfold Env.visitDocVar
  refine OkThat.bind (looked_types (mv := mv) (top := top) fuel parent _ ([], s) ht (.inl hmv)) fun p hp => ?_
  dsimp only
  split
  · next existing _ =>
    refine OkThat.bindOption fun a ha => ?_
    refine OkThat.bind (Env.frame_declareNew (mv := mv) { p.2 with arena := a } file name existing) fun q hq => OkThat.ok ?_
    refine hp.later (Grown.trans (s' := { p.2 with arena := a }) ?_ (.ofFrame hq))
    exact ⟨rfl, fun _ => List.prefix_rfl, List.prefix_rfl, Reach.move hmv (.types existing _ (.refl _)) ha, fun _ _ h => h⟩
  · refine OkThat.bindOption fun v hv => ?_
    refine (Env.frame_addVar (exact := false) (mv := mv) p.2 hv p.1).bind fun c hc => ?_
    exact (Env.frame_declareNew (mv := mv) c.2 file name c.1).bind fun q hq => OkThat.ok (hp.later ((Grown.ofFrame hc).trans (.ofFrame hq)))

theorem grown_before (file : NodeId) (node : Node) (parent : NodeId) (s : Env) :
    OkThat (fun s' : Env => Grown mv s s') (Env.beforeName file node parent s) := by
  cases h : node.isFunction with
  | true => exact (walk_entered file node parent s h).mono fun s' h => ⟨h.globals, h.refs, by rw [h.diagnostics]; exact List.prefix_rfl, by rw [h.arena]; exact .refl _, h.cache⟩
  | false => exact (before_other (exact := false) (mv := mv) file node parent s h).mono fun s' h => .ofFrame h

theorem grown_visit (H : HashOrder) (file : NodeId) (fuel : Nat) (node : Node) (parent : NodeId) (s : Env)
    (hd : mv = false → node.isDocVar = false) :
    OkThat (fun p : NextAction × Env => Grown mv s p.2) (Env.visitName U H file fuel node parent s) := by
  cases hf : node.isFunction with
  | true => exact (visit_function (mv := mv) U H file fuel node parent s hf).mono fun p hp => .ofFrame hp.1
  | false =>
    cases hc : node.isClass with
    | true =>
      refine (visit_class (exact := false) (mv := mv) U H file fuel node parent s hc).mono fun p hp => ?_
      rcases hp with ⟨_, hp⟩ | ⟨c, s1, _, hp, he⟩
      · exact .ofFrame hp
      · rw [he]
        exact ⟨hp.globals, hp.refs, hp.diagnostics, hp.arena, hp.cache⟩
    | false =>
      exact (Env.frame_visitName (exact := false) (mv := mv) U H file fuel node parent s hc hf (fun e => nomatch e)
        hd).mono fun p hp => .ofFrame hp.1

theorem grown_after (node : Node) (parent : NodeId) (s : Env) : OkThat (fun s' : Env => Grown mv s s')
    (Env.afterName node parent s) := by
  have h : ∀ r : Resolver, r.globalScope = s.resolver.globalScope → r.documentReferences = s.resolver.documentReferences →
      r.diagnostics = s.resolver.diagnostics → r.cache = s.resolver.cache → Grown mv s { s with resolver := r } := by
    intro r h1 h2 h3 h4
    refine ⟨h1, fun f => ?_, ?_, .refl _, fun k v hk => by show Dict.get? r.cache k = _; rw [h4]; exact hk⟩
    · show s.resolver.refsOf f <+: r.refsOf f
      unfold Resolver.refsOf
      rw [h2]
      exact List.prefix_rfl
    · show s.resolver.diagnostics <+: r.diagnostics
      rw [h3]
      exact List.prefix_rfl
  unfold Env.afterName
  dsimp only
  split
  all_goals first
    | exact OkThat.ok (Grown.refl _)
    | exact OkThat.ok (h _ rfl rfl rfl rfl)

theorem grown_walk (H : HashOrder) (file : NodeId) (F fuel : Nat) (node : Node) (parent : NodeId) (s : Env)
    (hd : mv = false → NoDocVar node) :
    OkThat (fun s' : Env => Walked false false mv parent s s')
      (traverse Node.children (Env.nameVisitor U H file F) fuel node parent s) := by
  refine (walked (mv := mv) U H file F false fuel false node parent s (fun e => nomatch e) (fun e => nomatch e) hd).mono fun s' h => ?_
  exact { h with same := fun e => nomatch e }

theorem grown_walks (H : HashOrder) (file : NodeId) (F fuel : Nat) (parent : NodeId) : ∀ (l : List Node) (s : Env),
    (mv = false → ∀ n ∈ l, NoDocVar n) → OkThat (fun s' : Env => Walked false false mv parent s s')
      (l.foldlM (fun s c => traverse Node.children (Env.nameVisitor U H file F) fuel c parent s) s)
  | [], s, _ => OkThat.ok (.ofFrame (Frame.refl s))
  | n :: l, s, hd => by
    rw [List.foldlM_cons]
    refine (grown_walk H file F fuel n parent s fun e => hd e n (List.mem_cons_self ..)).bind fun s1 h1 => ?_
    exact (grown_walks H file F fuel parent l s1 fun e m hm => hd e m (List.mem_cons_of_mem _ hm)).mono fun s' h' => h1.trans h'

theorem lives_walks (H : HashOrder) (file : NodeId) (F fuel : Nat) (parent : NodeId) (l : List Node) {s : Env} (h : s.Lives) :
    OkThat (fun s' : Env => s'.Lives)
      (l.foldlM (fun s c => traverse Node.children (Env.nameVisitor U H file F) fuel c parent s) s) :=
  OkThat.foldlM (P := fun s' : Env => s'.Lives)
    (fun s' c h' => (Env.up_traverse U H file F fuel c parent s' h').mono fun _ h4 => h4.lives) _ _ h

private theorem home_child {s : Env} (h : Home mv top s) (name : Text) :
    OkThat (fun o : Option NodeId => ∀ m, o = some m → HomeAt mv top s.arena m) (Env.childNamed s name) := by
  unfold Env.childNamed
  refine OkThat.bindOption fun cs hcs => OkThat.ok fun m hm => ?_
  obtain ⟨c, hc, rfl⟩ := Option.map_eq_some_iff.1 hm
  rcases h with h | ⟨h1, h2, h3, h4⟩
  · exact .inl h
  · obtain ⟨v, q, hv⟩ := h3.has
    obtain ⟨l, e1, e2⟩ := Arena.has_children h1 hv
    rw [hcs] at e1
    cases e1
    have := (e2 c.1 c.2).1 (List.mem_of_find?_eq_some hc)
    exact .inr ⟨h1, h2, this.live, h4.down this⟩

private theorem home_function (file : NodeId) (name : Token) (s : Env) (h : Home mv top s) :
    OkThat (fun s' : Env => Home mv top s') (Env.beforeFunction file name s) := by
  unfold Env.beforeFunction
  refine OkThat.bindOption fun n _ => ?_
  refine OkThat.bind (home_child (s := { s with resolver := s.resolver.pushScope }) h n) fun c hc => ?_
  split
  · exact OkThat.ok h
  · exact OkThat.bindOption fun range _ => OkThat.ok (hc _ rfl)

/-- In front of a node the scope container is one of the file. -/
theorem home_before (file : NodeId) (node : Node) (parent : NodeId) (s : Env) (h : Home mv top s) :
    OkThat (fun s' : Env => Home mv top s') (Env.beforeName file node parent s) := by
  cases hf : node.isFunction with
  | false => exact (before_other (exact := false) (mv := mv) file node parent s hf).mono fun s' h' => h.frame h'
  | true =>
    unfold Env.beforeName
    split
    · exact home_function file _ s h
    · exact home_function file _ s h
    · cases hf
    · cases hf
    · refine OkThat.bindOption fun r _ => ?_
      refine OkThat.bind (home_child (s := { s with resolver := s.resolver.cloneScope }) h (afName r)) fun c hc => ?_
      split
      · exact OkThat.ok h
      · exact OkThat.ok (hc _ rfl)
    · exact OkThat.ok h

/-- A node whose parts are visited, unless it is a class that is not found. -/
theorem visit_open (H : HashOrder) (file : NodeId) (fuel : Nat) (node : Node) (parent : NodeId) (s : Env)
    (hh : HomeAt mv top s.arena parent) (h : closed node = false) :
    OkThat (fun p : NextAction × Env => (∃ next, p.1 = .processChildren next) ∨
        ∃ c ∈ classNames node, Answered mv top U (.one [c]) none s p.2) (Env.visitName U H file fuel node parent s) := by
  have hcl : ∀ name : Token, OkThat (fun p : NextAction × Env => (∃ next, p.1 = .processChildren next) ∨
      ∃ c ∈ [name], Answered mv top U (.one [c]) none s p.2) (Env.visitClass U fuel name parent s) := by
    intro name
    unfold Env.visitClass
    refine (looked_resolve fuel s parent hh).bind fun p hp => ?_
    split
    · exact OkThat.ok (.inl ⟨_, rfl⟩)
    · next hn =>
      rw [hn] at hp
      exact OkThat.ok (.inr ⟨name, List.mem_singleton.2 rfl, hp⟩)
  unfold Env.visitName
  split
  · cases h
  · cases h
  · exact hcl _
  · exact hcl _
  · exact hcl _
  · exact (Env.frame_visitFunction (exact := false) (mv := mv) U fuel _ parent s).mono fun p hp => .inl ⟨_, hp.2⟩
  · exact (Env.frame_visitFunction (exact := false) (mv := mv) U fuel _ parent s).mono fun p hp => .inl ⟨_, hp.2⟩
  · exact OkThat.ok (.inl ⟨_, rfl⟩)
  · exact OkThat.ok (.inl ⟨_, rfl⟩)
  · cases h
  · cases h
  · refine OkThat.bindOption fun ts _ => OkThat.bindOption fun v hv => (OkThat.any _).bind fun c _ => ?_
    exact (OkThat.any _).bind fun s' _ => OkThat.ok (.inl ⟨_, rfl⟩)
  · split
    · split
      · exact (OkThat.any _).bind fun s' _ => OkThat.ok (.inl ⟨_, rfl⟩)
      · exact OkThat.ok (.inl ⟨_, rfl⟩)
    · refine (OkThat.any _).bind fun p _ => ?_
      split
      · exact (OkThat.any _).bind fun s' _ => OkThat.ok (.inl ⟨_, rfl⟩)
      · exact OkThat.ok (.inl ⟨_, rfl⟩)
    · exact OkThat.ok (.inl ⟨_, rfl⟩)
  · cases h
  · cases h
  · next l k r =>
    have hk : ¬ k.t = .assignment := by simpa [closed] using h
    rw [if_neg hk]
    exact OkThat.ok (.inl ⟨_, rfl⟩)
  · cases h
  · cases h
  · cases h
  · exact OkThat.ok (.inl ⟨_, rfl⟩)

/-- The parts of a node are visited from a symbol of the file, unless the node is a class that is found in another file. -/
theorem visit_home (H : HashOrder) (file : NodeId) (fuel : Nat) (node : Node) (parent : NodeId) (s : Env)
    (hd : mv = false → node.isDocVar = false) (hl : mv = false → s.Lives) (hh : HomeAt mv top s.arena parent) (hs : Home mv top s)
    (hc : mv = true ∨ node.isFunction = true ∨ s.resolver.scopeContainer = parent) :
    OkThat (fun p : NextAction × Env => ∀ next, p.1 = .processChildren next →
      HomeAt mv top p.2.arena next ∧ (mv = true ∨ p.2.resolver.scopeContainer = next) ∨
        ∃ c ∈ classNames node, Foreign mv top U c s p.2) (Env.visitName U H file fuel node parent s) := by
  cases hf : node.isFunction with
  | true =>
    refine (visit_function (mv := mv) U H file fuel node parent s hf).mono fun p hp next hn => ?_
    rw [hp.2] at hn
    injection hn with hn
    subst hn
    exact .inl ⟨hs.frame hp.1, .inr rfl⟩
  | false =>
    cases hcl : node.isClass with
    | true =>
      have key : ∀ name : Token, OkThat (fun p : NextAction × Env => ∀ next, p.1 = .processChildren next →
          HomeAt mv top p.2.arena next ∧ (mv = true ∨ p.2.resolver.scopeContainer = next) ∨
            ∃ c ∈ [name], Foreign mv top U c s p.2) (Env.visitClass U fuel name parent s) := by
        intro name
        unfold Env.visitClass
        refine OkThat.bind (Q := fun p : Option NodeId × Env => Answered mv top U (.one [name]) p.1 s p.2 ∧ Frame false mv s p.2 ∧
          (mv = false → Env.UpAns s p)) (fun p hp => ⟨looked_resolve fuel s parent hh p hp,
            Env.frame_resolve (exact := false) (mv := mv) U fuel s _ parent p hp,
            fun e => Env.up_resolve U fuel (hl e) _ parent p hp⟩) fun p hp => ?_
        obtain ⟨h1, h2, h3⟩ := hp
        split
        · next c hcn =>
          rw [hcn] at h1
          refine OkThat.ok fun next hn => ?_
          injection hn with hn
          subst hn
          cases mv with
          | true => exact .inl ⟨.inl rfl, .inl rfl⟩
          | false =>
            obtain ⟨h3, h4⟩ := h3 rfl
            have hlive := h4 c hcn
            by_cases hb : p.2.arena.Below top c
            · rcases hh.frame h2 with e | ⟨_, e, _⟩
              · cases e
              · exact .inl ⟨.inr ⟨h3.lives.arena, e, hlive, hb⟩, .inr rfl⟩
            · refine .inr ⟨name, List.mem_singleton.2 rfl, rfl, c, ?_, h3.lives.arena, hlive, hb⟩
              exact h1.later ⟨rfl, fun _ => List.prefix_rfl, List.prefix_rfl, .refl _, fun _ _ h => h⟩
        · exact OkThat.ok fun next hn => nomatch hn
      cases node <;> first | cases hcl; done | exact key _
    | false =>
      refine (Env.frame_visitName (exact := false) (mv := mv) U H file fuel node parent s hcl hf (fun e => nomatch e)
        hd).mono fun p hp next hn => .inl ?_
      have hc : mv = true ∨ s.resolver.scopeContainer = parent := by
        rcases hc with e | e | e
        · exact .inl e
        · rw [hf] at e; cases e
        · exact .inr e
      rcases hp.2 with e | e | e
      · rw [e] at hn; cases hn
      · rw [e] at hn
        injection hn with hn
        subst hn
        exact ⟨hh.frame hp.1, hc.imp_right fun e => hp.1.container.trans e⟩
      · rw [e] at hn
        injection hn with hn
        subst hn
        exact ⟨hs.frame hp.1, .inr rfl⟩

theorem looked_function (fuel : Nat) (doc : Option Node) (parent : NodeId) (s : Env) (hh : HomeAt mv top s.arena parent)
    (h : t ∈ returned doc) :
    OkThat (fun p : NextAction × Env => Looked mv top U t s p.2) (Env.visitFunction U fuel doc parent s) := by
  unfold Env.visitFunction
  unfold returned at h
  split at h
  · exact (looked_each fuel parent _ s h hh).bind fun s' hs' => OkThat.ok hs'
  · cases h

theorem looked_assignment (H : HashOrder) (file : NodeId) (fuel : Nat) (l r : Node) (s : Env) (hh : Home mv top s)
    (h : Inside r t ∨ Inside l t) :
    OkThat (fun s' : Env => Looked mv top U t s s') (Env.visitAssignment U H file fuel l r s) := by
  unfold Env.visitAssignment
  rcases h with h | h
  · refine (looked_memberType H file fuel s r hh h).bind fun d hd => ?_
    split
    · next v =>
      refine Env.frame_assign (mv := mv) d.2 v d.1 file fun c e he => ?_
      refine OkThat.bindOption fun repr _ => ?_
      split
      · split
        · refine OkThat.bindOption fun ref _ => OkThat.ok ?_
          refine hd.later (Grown.trans (.ofFrame he) ?_)
          exact ⟨rfl, fun _ => List.prefix_rfl, List.prefix_rfl, .types _ _ (.refl _), fun _ _ h => h⟩
        · exact OkThat.ok (hd.later (.ofFrame he))
      · exact OkThat.ok (hd.later (.ofFrame he))
    · refine (Env.frame_memberType (exact := false) (mv := mv) U H file fuel d.2 l (fun e => nomatch e)).bind fun p hp => ?_
      exact OkThat.ok (hd.later (.ofFrame hp))
  · refine (Env.frame_memberType (exact := false) (mv := mv) U H file fuel s r (fun e => nomatch e)).bind fun d hd => ?_
    split
    · cases h with
      | part ho => cases ho
    · exact (looked_memberType H file fuel d.2 l (hh.frame hd) h).bind fun p hp => OkThat.ok (hp.before (.ofFrame hd))

/-! ## The claims -/

/-- Every name in view is looked up, or one of the classes around it is not found or found in another file. -/
theorem looked_walk (U : Unicode) (H : HashOrder) (file : NodeId) (F : Nat) (t : TypeRef) : ∀ (fuel : Nat) (node : Node)
    (cs : List Token) (parent : NodeId) (s s' : Env), InView node cs t → (mv = false → NoDocVar node) → (mv = false → s.Lives) →
    HomeAt mv top s.arena parent → (mv = true ∨ s.resolver.scopeContainer = parent) →
    traverse Node.children (Env.nameVisitor U H file F) fuel node parent s = .ok s' →
    Looked mv top U t s s' ∨ ∃ c ∈ cs, Answered mv top U (.one [c]) none s s' ∨ Foreign mv top U c s s'
  | 0, _, _, _, _, _, _, _, _, _, _, hw => nomatch hw
  | fuel + 1, node, cs, parent, s, s', hv, hd, hl, hh, hpc, hw => by
    revert s'
    show OkThat _ _
    have hkid : mv = false → ∀ c ∈ node.children, NoDocVar c := fun e => by
      cases hd e with
      | mk _ h => exact h
    have hdv : mv = false → node.isDocVar = false := fun e => by
      cases hd e with
      | mk h _ => exact h
    have hs : Home mv top s := by
      rcases hpc with e | e
      · exact .inl e
      · unfold Home
        rw [e]
        exact hh
    unfold traverse
    refine OkThat.bind (Q := fun s1 : Env => Grown mv s s1 ∧ Home mv top s1 ∧ (mv = false → s1.Lives) ∧
      (mv = true ∨ node.isFunction = true ∨ s1.resolver.scopeContainer = parent)) (fun s1 e => ⟨grown_before file node parent s s1 e,
        home_before file node parent s hs s1 e, fun m => (Env.up_beforeName file node parent (hl m) s1 e).lives, ?_⟩)
      fun s1 h1 => ?_
    · rcases hpc with m | m
      · exact .inl m
      · cases hf : node.isFunction with
        | true => exact .inr (.inl rfl)
        | false => exact .inr (.inr ((before_other (exact := false) (mv := mv) file node parent s hf s1 e).container.trans m))
    obtain ⟨h1, hs1, hl1, hc1⟩ := h1
    have hh1 := hh.later h1.arena
    have direct : OkThat (fun p : NextAction × Env => Looked mv top U t s1 p.2) (Env.visitName U H file F node parent s1) →
        OkThat (fun s' => Looked mv top U t s s' ∨ ∃ c ∈ cs, Answered mv top U (.one [c]) none s s' ∨ Foreign mv top U c s s') (do
          let r ← (Env.nameVisitor U H file F).visit node parent s1
          let s ← (match r.1 with
            | .abort => pure r.2
            | .processChildren next => node.children.foldlM
              (fun s c => traverse Node.children (Env.nameVisitor U H file F) fuel c next s) r.2)
          (Env.nameVisitor U H file F).after node parent s) := by
      intro h
      refine OkThat.bind h fun p hp => ?_
      refine OkThat.bind (Q := fun s3 : Env => Grown mv p.2 s3) ?_ fun s3 h3 => ?_
      · split
        · exact OkThat.ok (Grown.refl _)
        · exact (grown_walks H file F fuel _ _ _ hkid).mono fun _ h => .ofWalked h
      · exact (grown_after node parent s3).mono fun s' h' => .inl ((hp.before h1).later (h3.trans h'))
    cases hv with
    | name => exact direct ((looked_resolve F s1 parent hh1).bind fun p hp => OkThat.ok ⟨_, hp⟩)
    | result ht => exact direct ((looked_each F parent _ s1 ht hh1).bind fun s' hs' => OkThat.ok hs')
    | documented ht =>
      refine direct ?_
      cases node <;> first | exact looked_function F _ parent s1 hh1 ht | cases ht
    | «variable» ht =>
      have hmv : mv = true := by
        cases mv with
        | true => rfl
        | false => exact absurd (hdv rfl) (by simp [Node.isDocVar])
      exact direct ((looked_docVar file F _ _ parent s1 hmv ht).bind fun s' hs' => OkThat.ok hs')
    | access hch ht =>
      refine direct ?_
      cases node <;> first
        | exact (looked_memberType H file F s1 _ hs1 ht).bind fun p hp => OkThat.ok hp
        | cases hch
    | assigned hk ht =>
      refine direct ?_
      unfold Env.visitName
      dsimp only
      rw [if_pos hk]
      exact (looked_assignment H file F _ _ s1 hs1 (.inl ht)).bind fun p hp => OkThat.ok hp
    | target hk ht =>
      refine direct ?_
      unfold Env.visitName
      dsimp only
      rw [if_pos hk]
      exact (looked_assignment H file F _ _ s1 hs1 (.inr ht)).bind fun p hp => OkThat.ok hp
    | part hc hm hin =>
      rename_i x ds
      refine OkThat.bind (Q := fun p : NextAction × Env => ((∃ next, p.1 = .processChildren next) ∨
        ∃ c ∈ classNames node, Answered mv top U (.one [c]) none s1 p.2) ∧ Grown mv s1 p.2 ∧ (mv = false → p.2.Lives) ∧
        ∀ next, p.1 = .processChildren next → HomeAt mv top p.2.arena next ∧ (mv = true ∨ p.2.resolver.scopeContainer = next) ∨
          ∃ c ∈ classNames node, Foreign mv top U c s1 p.2)
        (fun p hp => ⟨visit_open H file F node parent s1 hh1 hc p hp, grown_visit H file F node parent s1 hdv p hp,
          fun m => (Env.up_visitName U H file F node parent (hl1 m) p hp).lives,
          visit_home H file F node parent s1 hdv hl1 hh1 hs1 hc1 p hp⟩) fun p hp => ?_
      obtain ⟨hp, hg, hl2, hn2⟩ := hp
      refine OkThat.bind (Q := fun s3 : Env => Looked mv top U t s s3 ∨
        ∃ c ∈ classNames node ++ ds, Answered mv top U (.one [c]) none s s3 ∨ Foreign mv top U c s s3) ?_ fun s3 h3 => ?_
      · rcases hp with ⟨next, hn⟩ | ⟨c, hcm, ha⟩
        · rw [hn]
          dsimp only
          rcases hn2 next hn with ⟨hn3, hn4⟩ | ⟨c, hcm, ha⟩
          · obtain ⟨a, b, hab⟩ := List.append_of_mem hm
            have hka : mv = false → ∀ n ∈ a, NoDocVar n := fun e n hn => hkid e n (by rw [hab]; exact List.mem_append_left _ hn)
            have hkb : mv = false → ∀ n ∈ b, NoDocVar n := fun e n hn =>
              hkid e n (by rw [hab]; exact List.mem_append_right _ (List.mem_cons_of_mem _ hn))
            rw [hab, List.foldlM_append]
            refine OkThat.bind (Q := fun s4 : Env => Walked false false mv next p.2 s4 ∧ (mv = false → s4.Lives))
              (fun s4 e => ⟨grown_walks H file F fuel next a p.2 hka s4 e, fun m => lives_walks H file F fuel next a (hl2 m) s4 e⟩)
              fun s4 h4 => ?_
            obtain ⟨h4, hl4⟩ := h4
            rw [List.foldlM_cons]
            refine OkThat.bind (fun s5 h5 => looked_walk U H file F t fuel x ds next s4 s5 hin (fun e => hkid e x hm) hl4
              (hn3.later h4.arena) (hn4.imp_right fun e => h4.container e) h5) fun s5 h5 => ?_
            refine (grown_walks H file F fuel next b s5 hkb).mono fun s6 h6 => ?_
            have hb := (h1.trans hg).trans (.ofWalked h4)
            have h6 := Grown.ofWalked h6
            rcases h5 with h5 | ⟨c, hcm, h5 | h5⟩
            · exact .inl ((h5.before hb).later h6)
            · exact .inr ⟨c, List.mem_append_right _ hcm, .inl ((h5.before hb).later h6)⟩
            · exact .inr ⟨c, List.mem_append_right _ hcm, .inr ((h5.before hb).later h6)⟩
          · refine (grown_walks H file F fuel next node.children p.2 hkid).mono fun s3 h3 => ?_
            exact .inr ⟨c, List.mem_append_left _ hcm, .inr ((ha.before h1).later (.ofWalked h3))⟩
        · refine OkThat.mono (P := fun s3 => Grown mv p.2 s3) ?_ fun s3 h3 =>
            .inr ⟨c, List.mem_append_left _ hcm, .inl ((ha.before h1).later h3)⟩
          split
          · exact OkThat.ok (Grown.refl _)
          · exact (grown_walks H file F fuel _ _ _ hkid).mono fun _ h => .ofWalked h
      · refine (grown_after (mv := mv) node parent s3).mono fun s' h' => ?_
        rcases h3 with h3 | ⟨c, hcm, h3 | h3⟩
        · exact .inl (h3.later h')
        · exact .inr ⟨c, hcm, .inl (h3.later h')⟩
        · exact .inr ⟨c, hcm, .inr (h3.later h')⟩

/-- Every name in view is looked up, or one of the classes around it is not found. -/
theorem C69_looked (U : Unicode) (H : HashOrder) (file : NodeId) (F : Nat) (t : TypeRef) (fuel : Nat) (node : Node)
    (cs : List Token) (parent : NodeId) (s s' : Env) (hv : InView node cs t)
    (hw : traverse Node.children (Env.nameVisitor U H file F) fuel node parent s = .ok s') :
    Looked true file U t s s' ∨ ∃ c ∈ cs, Answered true file U (.one [c]) none s s' := by
  rcases looked_walk (mv := true) (top := file) U H file F t fuel node cs parent s s' hv (fun e => nomatch e) (fun e => nomatch e)
    (.inl rfl) (.inl rfl) hw with h | ⟨c, hc, h | ⟨h, _⟩⟩
  · exact .inl h
  · exact .inr ⟨c, hc, h⟩
  · cases h

/-- What becomes of a name that is looked up.

* Built-in types are not looked for, and `self`, `static` and `parent` are not recorded.
* Any other name is recorded in the file of the place it is asked from, as a reference to the symbol the global table has for it,
  or it is reported there.  If no symbol is moved, this is the file `top`.
* If the place has been asked for before, it is in the references with the answer, or reported, all the same, unless it is one of
  the places of `Named.Quiet`: names in the head of a symbol or in its data types, which may have been asked for on the way. -/
inductive Fate (w : Named.World) (mv : Bool) (top : NodeId) (U : Unicode) (t : TypeRef) (o : Option NodeId) (s s' : Env) : Prop
  | builtin : (t.isBuiltin || t.isEmpty) = true → o = none → Fate w mv top U t o s s'
  | relative : Resolver.plainRef t = false → Fate w mv top U t o s s'
  | recorded (a : Arena Symbol) (anchor file : NodeId) (ρ : NodeRange) (n : NodeId) : Reach mv s.arena a →
      Resolver.keyOf a t anchor = some (file, ρ) → (mv = true ∨ file = top) →
      Resolver.target U a s.resolver.globalScope t anchor = some (some n) → o = some n →
      ⟨ρ, n⟩ ∈ s'.resolver.refsOf file → Fate w mv top U t o s s'
  | reported (a : Arena Symbol) (anchor file : NodeId) (ρ : NodeRange) (f : Symbol) (m : Text) : Reach mv s.arena a →
      Resolver.keyOf a t anchor = some (file, ρ) → (mv = true ∨ file = top) → a.get? file = some f →
      Resolver.target U a s.resolver.globalScope t anchor = some none → o = none →
      ⟨f.plainName, m, ρ, .error⟩ ∈ s'.resolver.diagnostics → Fate w mv top U t o s s'
  | recordedBefore (a : Arena Symbol) (anchor file : NodeId) (ρ : NodeRange) (n : NodeId) : Reach mv s.arena a →
      Resolver.keyOf a t anchor = some (file, ρ) → (mv = true ∨ file = top) → o = some n →
      (∃ k, (k, n) ∈ w.globals) → ⟨ρ, n⟩ ∈ s'.resolver.refsOf file → Fate w mv top U t o s s'
  | reportedBefore (a : Arena Symbol) (anchor file : NodeId) (ρ : NodeRange) (f m : Text) : Reach mv s.arena a →
      Resolver.keyOf a t anchor = some (file, ρ) → (mv = true ∨ file = top) → Named.NameOf s'.arena file f → o = none →
      ⟨f, m, ρ, .error⟩ ∈ s'.resolver.diagnostics → Fate w mv top U t o s s'
  | quiet (ρ : NodeRange) : t.range = some ρ → Named.Quiet w ρ → Fate w mv top U t o s s'

private theorem climb_last {a : Arena Symbol} (ha : a.Ok) : ∀ (l : List NodeId) (i j : NodeId), Arena.Climb a (i :: l) →
    (i :: l).getLast? = some j → ∀ (r : NodeId) (v : Symbol), a.Has r v none → r ∈ i :: l → j = r
  | [], i, j, _, hj, r, v, _, hm => by
    cases hj
    exact (List.mem_singleton.1 hm).symm
  | k :: l, i, j, hc, hj, r, v, hr, hm => by
    obtain ⟨⟨w, hw⟩, hc⟩ := hc
    rw [List.getLast?_cons_cons] at hj
    refine climb_last ha l k j hc hj r v hr ?_
    rcases List.mem_cons.1 hm with rfl | hm
    · cases (hr.unique ha hw rfl).2.2
    · exact hm

private theorem home_key {a : Arena Symbol} {t : TypeRef} {anchor : NodeId} {k : NodeId × NodeRange}
    (h : HomeAt mv top a anchor) (hk : Resolver.keyOf a t anchor = some k) : mv = true ∨ k.1 = top := by
  rcases h with h | ⟨h1, ⟨v, h2⟩, h3, h4⟩
  · exact .inl h
  · right
    obtain ⟨w, p, hw⟩ := h3.has
    obtain ⟨l, e1, e2, _, e4⟩ := Arena.mem_ancestors h1 hw
    unfold Resolver.keyOf at hk
    rw [e1] at hk
    cases hj : (anchor :: l).getLast? with
    | none => rw [Option.bind_eq_bind, Option.bind_some, hj] at hk; cases hk
    | some j =>
      rw [Option.bind_eq_bind, Option.bind_some, hj] at hk
      cases hr : t.range with
      | none => rw [hr] at hk; cases hk
      | some ρ =>
        rw [hr] at hk
        cases hk
        exact climb_last h1 l anchor j e4 hj top v h2 ((e2 top).2 h4)

private theorem lookup_fate {U : Unicode} {a : Arena Symbol} {r : Resolver} {t : TypeRef} {file : NodeId} {fileName name : Text}
    {range : NodeRange} {joined : Text} :
    OkThat (fun p => (∃ n, (match Resolver.lookupGlobal U r.globalScope joined name with
          | none => some none
          | some (n, _) => (a.get? n).map fun _ => some n) = some (some n) ∧ p.1 = some n ∧ ⟨range, n⟩ ∈ p.2.refsOf file) ∨
        (match Resolver.lookupGlobal U r.globalScope joined name with
          | none => some none
          | some (n, _) => (a.get? n).map fun _ => some n) = some none ∧ p.1 = none ∧
          ∃ m, ⟨fileName, m, range, .error⟩ ∈ p.2.diagnostics)
      (Resolver.lookup U a r t file fileName name range joined true) := by
  unfold Resolver.lookup
  cases h : Resolver.lookupGlobal U r.globalScope joined name with
  | none => exact OkThat.ok (.inr ⟨rfl, rfl, _, List.mem_append_right _ (List.mem_singleton.2 rfl)⟩)
  | some p =>
    obtain ⟨n, c⟩ := p
    simp only
    cases hg : a.get? n with
    | none => simp [OkThat]
    | some s =>
      intro z hz
      simp only [Out.ofOption_some, Out.bind_ok, Out.pure_eq, Out.ok.injEq] at hz
      subst hz
      refine .inl ⟨n, rfl, rfl, ?_⟩
      have h1 : ⟨range, n⟩ ∈ (r.reference file ⟨range, n⟩).refsOf file := by
        simp only [Resolver.reference, Resolver.refsOf, Dict.get?_insert]
        simp
      split
      · exact h1
      · exact h1

/-- The fate of a name that is looked up. -/
theorem C69_linked (w : Named.World) (mv : Bool) (top : NodeId) (U : Unicode) (t : TypeRef) (o : Option NodeId) (s s' : Env)
    (hw : Named.Inv w s') (h : Answered mv top U t o s s') : Fate w mv top U t o s s' := by
  obtain ⟨s1, s2, anchor, fuel, h1, hh, h2, h3⟩ := h
  unfold Env.resolve at h2
  obtain ⟨q, hq, he⟩ := Out.bind_eq_ok h2
  clear h2
  have h2 := hq
  injection he with he
  injection he with he1 he2
  subst he1 he2
  cases fuel with
  | zero => cases h2
  | succ fuel =>
    by_cases hb : (t.isBuiltin || t.isEmpty) = true
    · unfold Resolver.resolveTypeRef at h2
      rw [if_pos hb] at h2
      injection h2 with h2
      exact .builtin hb (by rw [← h2])
    by_cases hp : Resolver.plainRef t = false
    · exact .relative hp
    rw [Bool.not_eq_false] at hp
    unfold Resolver.resolveTypeRef at h2
    rw [if_neg hb] at h2
    obtain ⟨ancestors, ha, h2⟩ := Out.bind_eq_ok h2
    obtain ⟨file, hf, h2⟩ := Out.bind_eq_ok h2
    obtain ⟨fs, hfs, h2⟩ := Out.bind_eq_ok h2
    obtain ⟨root, hr, h2⟩ := Out.bind_eq_ok h2
    obtain ⟨name, hn, h2⟩ := Out.bind_eq_ok h2
    obtain ⟨range, hra, h2⟩ := Out.bind_eq_ok h2
    have ha := Out.ofOption_ok ha
    have hf := Out.ofOption_ok hf
    have hfs := Out.ofOption_ok hfs
    have hr := Out.ofOption_ok hr
    have hn := Out.ofOption_ok hn
    have hra := Out.ofOption_ok hra
    rw [hn] at hr
    have hkey : Resolver.keyOf s1.arena t anchor = some (file, range) := by simp [Resolver.keyOf, ha, hf, hra]
    split at h2
    · next c hc =>
      injection h2 with h2
      have hc' : Dict.get? s'.resolver.cache (file, range) = some q.1 := h3.cache _ _ (by rw [← h2]; exact hc)
      rcases hw.known.told _ (Dict.get?_mem hc') with ht | ht
      · exact .quiet range hra ht
      · cases ho : q.1 with
        | some n =>
          rw [ho] at ht
          exact .recordedBefore s1.arena anchor file range n h1.arena hkey (home_key hh hkey) rfl
            (hw.known.cache _ (Dict.get?_mem hc') n ho) ht
        | none =>
          rw [ho] at ht
          obtain ⟨f, m, e1, e2⟩ := ht
          exact .reportedBefore s1.arena anchor file range f m h1.arena hkey (home_key hh hkey) e1 rfl e2
    · have hne : ¬ (name = c!"self" ∨ name = c!"static") ∧ ¬ name = c!"parent" := by
        unfold Resolver.plainRef at hp
        rw [hr] at hp
        simp only [Bool.not_eq_true', Bool.or_eq_false_iff, decide_eq_false_iff_not] at hp
        exact ⟨fun e => e.elim hp.1.1 hp.1.2, hp.2⟩
      rw [if_neg hne.1, if_neg hne.2] at h2
      unfold Resolver.resolveName at h2
      obtain ⟨imports, hi, h2⟩ := Out.bind_eq_ok h2
      obtain ⟨anchorSymbol, has, h2⟩ := Out.bind_eq_ok h2
      obtain ⟨cs, hcs, h2⟩ := Out.bind_eq_ok h2
      obtain ⟨joined, hj, h2⟩ := Out.bind_eq_ok h2
      have hi := Out.ofOption_ok hi
      have has := Out.ofOption_ok has
      have hcs := Out.ofOption_ok hcs
      have hj := Out.ofOption_ok hj
      have ht : Resolver.target U s1.arena s1.resolver.globalScope t anchor =
          (match Resolver.lookupGlobal U s1.resolver.globalScope joined name with
            | none => some none
            | some (n, _) => (s1.arena.get? n).map fun _ => some n) := by
        unfold Resolver.target
        simp only [ha, hf, hfs, hr, hi, has, hcs, hj, Option.bind_eq_bind, Option.bind_some]
        cases Resolver.lookupGlobal U s1.resolver.globalScope joined name <;> rfl
      rcases lookup_fate q h2 with ⟨n, e1, e2, e3⟩ | ⟨e1, e2, m, e3⟩
      · exact .recorded s1.arena anchor file range n h1.arena hkey (home_key hh hkey) (by rw [← h1.globals, ht]; exact e1) e2 ((h3.refs file).subset e3)
      · exact .reported s1.arena anchor file range fs m h1.arena hkey (home_key hh hkey) hfs (by rw [← h1.globals, ht]; exact e1) e2
          (h3.diagnostics.subset e3)

private theorem told_kept (x : Text) (y : Diagnostic) : ∀ (l : List Notification) (d : Dict Text (List Diagnostic)),
    (∃ ds, Dict.get? d x = some ds ∧ y ∈ ds) →
    ∃ ds, Dict.get? (l.foldl (fun d n => Dict.push d n.file (Diagnostic.ofNotification n)) d) x = some ds ∧ y ∈ ds
  | [], _, h => h
  | n :: l, d, ⟨ds, h1, h2⟩ => by
    refine told_kept x y l _ ?_
    by_cases hx : n.file = x
    · exact ⟨ds ++ [Diagnostic.ofNotification n], by simp [Dict.push, Dict.get?_insert, hx, h1], List.mem_append_left _ h2⟩
    · refine ⟨ds, ?_, h2⟩
      unfold Dict.push
      rw [Dict.get?_insert, if_neg (by first | exact hx | exact Ne.symm hx)]
      exact h1

theorem told_all : ∀ (l : List Notification) (d : Dict Text (List Diagnostic)), ∀ x ∈ l,
    ∃ ds, Dict.get? (l.foldl (fun d n => Dict.push d n.file (Diagnostic.ofNotification n)) d) x.file = some ds ∧
      Diagnostic.ofNotification x ∈ ds
  | n :: l, d, x, hx => by
    rcases List.mem_cons.1 hx with rfl | hx
    · exact told_kept _ _ l _ ⟨_, by unfold Dict.push; rw [Dict.get?_insert, if_pos rfl], List.mem_append_right _ (List.mem_singleton.2 rfl)⟩
    · exact told_all l _ x hx

/-- **C69 for a file**: when the names of a file are resolved, then every name in view has one of these fates, or a class around it
is not found, which has one of these fates too. -/
theorem C69_file (h : Host) (path : Text) (ast : List Node) (st st' : Backend) (hs : Backend.Safe h.U st)
    (refs : FileRefs) (hr : Backend.resolveFile h path ast st = .ok (some refs, st')) :
    ∃ (file : NodeId) (s s' : Env), Dict.get? st.files path = some file ∧ s.resolver.globalScope = st.globals ∧
      s.resolver.cache = [] ∧ refs = Backend.groupRefs (s'.resolver.refsOf file) ∧
      (∀ d ∈ s'.resolver.diagnostics, ∃ ds, Dict.get? st'.diagnostics d.file = some ds ∧ Diagnostic.ofNotification d ∈ ds) ∧
      ∀ (n : Node) (cs : List Token) (t : TypeRef), n ∈ ast → InView n cs t →
        (∃ o, Fate (worldOf h ast st) true file h.U t o s s') ∨
          ∃ c ∈ cs, Fate (worldOf h ast st) true file h.U (.one [c]) none s s' := by
  unfold Backend.resolveFile at hr
  split at hr
  · cases hr
  · next file hfile =>
    obtain ⟨a, ha, hr⟩ := Out.bind_eq_ok hr
    obtain ⟨e, he, hr⟩ := Out.bind_eq_ok hr
    injection hr with hr
    injection hr with hr1 hr2
    injection hr1 with hr1
    refine ⟨file, Env.mk a (Resolver.new st.globals file), e, hfile, rfl, rfl, hr1.symm, ?_, ?_⟩
    · subst hr2
      exact told_all e.resolver.diagnostics st.diagnostics
    · intro n cs t hn hv
      have hw := named_file h path ast st hs file hfile a ha e he
      obtain ⟨l1, l2, hl⟩ := List.append_of_mem hn
      rw [hl, List.foldlM_append] at he
      obtain ⟨e1, he1, he⟩ := Out.bind_eq_ok he
      rw [List.foldlM_cons] at he
      obtain ⟨e2, he2, he⟩ := Out.bind_eq_ok he
      have g1 := Grown.ofWalked (grown_walks (mv := true) h.H file h.fuel h.fuel file l1 _ (fun e => nomatch e) e1 he1)
      have g2 := Grown.ofWalked (grown_walks (mv := true) h.H file h.fuel h.fuel file l2 _ (fun e => nomatch e) e he)
      rcases C69_looked h.U h.H file h.fuel t h.fuel n cs file e1 e2 hv he2 with ⟨o, hl⟩ | ⟨c, hc, hl⟩
      · exact .inl ⟨o, C69_linked _ _ _ _ _ _ _ _ hw ((hl.before g1).later g2)⟩
      · exact .inr ⟨c, hc, C69_linked _ _ _ _ _ _ _ _ hw ((hl.before g1).later g2)⟩

/-! ## Cases -/

/-- Some of the names in view in an expression. -/
def insideOf : Nat → Node → List TypeRef
  | 0, _ => []
  | fuel + 1, n =>
    match n with
    | .typeRef t => [t]
    | .binary l k r => if k.t = .assignment then [] else insideOf fuel l ++ insideOf fuel r
    | .newExpr _ n => insideOf fuel n
    | .unary n _ => insideOf fuel n
    | .grouping n => insideOf fuel n
    | .call n _ ps _ => insideOf fuel n ++ ps.flatMap (insideOf fuel)
    | .array _ es _ => es.flatMap (insideOf fuel)
    | .arrayElement _ _ v => insideOf fuel v
    | .member n .. => insideOf fuel n
    | .staticMember n .. => insideOf fuel n
    | n => if other n then n.children.flatMap (insideOf fuel) else []

theorem insideOf_sound : ∀ (fuel : Nat) (n : Node) (t : TypeRef), t ∈ insideOf fuel n → Inside n t
  | 0, _, _, h => nomatch h
  | fuel + 1, n, t, h => by
    have ih := insideOf_sound fuel
    unfold insideOf at h
    split at h
    · rw [List.mem_singleton.1 h]
      exact .name
    · split at h
      · cases h
      · next hk =>
        rcases List.mem_append.1 h with h | h
        · exact .operand hk (List.mem_cons_self ..) (ih _ _ h)
        · exact .operand hk (List.mem_cons_of_mem _ (List.mem_cons_self ..)) (ih _ _ h)
    · exact .new (ih _ _ h)
    · exact .unary (ih _ _ h)
    · exact .grouping (ih _ _ h)
    · rcases List.mem_append.1 h with h | h
      · exact .callee (ih _ _ h)
      · obtain ⟨p, hp, h⟩ := List.mem_flatMap.1 h
        exact .argument hp (ih _ _ h)
    · obtain ⟨p, hp, h⟩ := List.mem_flatMap.1 h
      exact .element hp (ih _ _ h)
    · exact .value (ih _ _ h)
    · exact .member (ih _ _ h)
    · exact .static (ih _ _ h)
    · split at h
      · next ho =>
        obtain ⟨p, hp, h⟩ := List.mem_flatMap.1 h
        exact .part ho hp (ih _ _ h)
      · cases h

/-- Some of the names in view in a tree, with the names of the classes around them. -/
def namesOf : Nat → Node → List (List Token × TypeRef)
  | 0, _ => []
  | fuel + 1, n =>
    (match n with
      | .typeRef t => [([], t)]
      | .returnType _ dt => (getTypeRefs dt).map fun t => ([], t)
      | .docCommentVar _ ts _ => (ts.getD []).map fun t => ([], t)
      | .binary _ k r => if k.t = .assignment then (insideOf fuel r).map fun t => ([], t) else []
      | _ => []) ++
    (if n.isChain then (insideOf fuel n).map fun t => ([], t) else []) ++
    (returned (commentOf n)).map (fun t => ([], t)) ++
    (if closed n then [] else (n.children.flatMap (namesOf fuel)).map fun x => (classNames n ++ x.1, x.2))

theorem namesOf_sound : ∀ (fuel : Nat) (n : Node) (x : List Token × TypeRef), x ∈ namesOf fuel n → InView n x.1 x.2
  | 0, _, _, h => nomatch h
  | fuel + 1, n, x, h => by
    unfold namesOf at h
    simp only [List.mem_append] at h
    rcases h with ((h | h) | h) | h
    · split at h
      · rw [List.mem_singleton.1 h]
        exact .name
      · obtain ⟨t, ht, rfl⟩ := List.mem_map.1 h
        exact .result ht
      · obtain ⟨t, ht, rfl⟩ := List.mem_map.1 h
        exact .variable ht
      · split at h
        · next hk =>
          obtain ⟨t, ht, rfl⟩ := List.mem_map.1 h
          exact .assigned hk (insideOf_sound _ _ _ ht)
        · cases h
      · cases h
    · split at h
      · next hc =>
        obtain ⟨t, ht, rfl⟩ := List.mem_map.1 h
        exact .access hc (insideOf_sound _ _ _ ht)
      · cases h
    · obtain ⟨t, ht, rfl⟩ := List.mem_map.1 h
      exact .documented ht
    · split at h
      · cases h
      · next hc =>
        obtain ⟨y, hy, rfl⟩ := List.mem_map.1 h
        obtain ⟨m, hm, hy⟩ := List.mem_flatMap.1 hy
        exact .part (by simpa using hc) hm (namesOf_sound fuel m y hy)

private abbrev viewed : List (Text × Text) :=
  [(c!"a", c!"<?php class A extends P { /** @return Q */ function m(): Q { $x = new P([Q::class]); Q::K; } } $y = new A;"),
    (c!"b", c!"<?php class P {} class Q { const K = 1; }")]

private abbrev viewedTree : List Node := treeOf c!"<?php class A extends P { /** @return Q */ function m(): Q { $x = new P([Q::class]); Q::K; } } $y = new A;"

/-- The hypotheses of `C69_file` are met by a file with a class. -/
example : ∃ st refs st', Backend.Safe plainHost.U st ∧ Backend.resolveFile plainHost c!"a" viewedTree st = .ok (some refs, st') := by
  have hb : (match startWith viewed with
      | .ok st => (match Backend.resolveFile plainHost c!"a" viewedTree st with
        | .ok (some _, _) => true
        | _ => false)
      | _ => false) = true := by decide +kernel
  split at hb
  · next st e =>
    split at hb
    · next refs st' h => exact ⟨st, refs, st', (Backend.Serving.workspace viewed .start e).clean.toSafe, h⟩
    · cases hb
  · cases hb

/-- The names in view, by their columns: the parent, the return types in the comment and in the code, the names in the right side
of the assignment, the name of the class of the constant, and the name behind the class. -/
example : (viewedTree.flatMap (namesOf 30)).map (fun x => (x.1.filterMap (·.label), x.2.range.map (·.startCol))) =
    [([c!"A"], some 22), ([c!"A"], some 38), ([c!"A"], some 38), ([c!"A"], some 57), ([c!"A"], some 70), ([c!"A"], some 73),
      ([c!"A"], some 85), ([], some 104)] := by
  decide +kernel

/-- Each of them is recorded. -/
example : referencedIn c!"a" (startAndOpen viewed c!"a") =
    [(c!"y", [(95, 97)]), (c!"A", [(12, 13), (104, 105)]), (c!"K", [(88, 89)]),
      (c!"Q", [(38, 39), (57, 58), (73, 74), (85, 86)]), (c!"x", [(61, 63)]), (c!"P", [(22, 23), (70, 71)]), (c!"m", [(52, 53)])] := by
  decide +kernel

private abbrev early : List (Text × Text) :=
  [(c!"a", c!"<?php function f() { (new B)->x; } class B extends C { } class C { public $x; }")]

/-- **C69 fails for names that were asked for on the way:** when members of `B` are looked for before `B` is declared, then the names
in the head of `B` and of its parent are looked up without being recorded, and they are remembered.  Neither `class B` nor
`extends C` nor `class C` is a reference.  When the class `B` is renamed where it is used, its declaration keeps the old name. -/
theorem C69_violated_remembered :
    referencedIn c!"a" (startAndOpen early c!"a") = [(c!"x", [(30, 31), (74, 76)]), (c!"B", [(26, 27)]), (c!"f", [(15, 16)])] ∧
    (match startAndOpen early c!"a" with
      | .ok st => (match Backend.rename plainHost (fun p => Dict.get? early p) ⟨0, 26⟩ c!"a" st with
        | .ok p => p.1
        | _ => none)
      | _ => none) = some [(c!"a", [⟨⟨0, 26⟩, ⟨0, 27⟩⟩])] := by
  decide +kernel

/-- **C69 fails for names that are not in view:** the key of an array on the right side of an assignment, what is assigned to a
property in an argument there, and the arguments of a call with a subscript there. -/
theorem C69_violated_expressions :
    referencedIn c!"a" (startAndOpen [(c!"a", c!"<?php class C { const K = 1; } $a = [C::K => 1];")] c!"a") =
      [(c!"a", [(31, 33)]), (c!"C", [(12, 13)])] ∧
    referencedIn c!"a" (startAndOpen [(c!"a", c!"<?php class C { } $y = g($x->a = new C);")] c!"a") =
      [(c!"y", [(18, 20)]), (c!"C", [(12, 13)])] ∧
    referencedIn c!"a" (startAndOpen [(c!"a", c!"<?php class C { } $y = g(new C)[0];")] c!"a") =
      [(c!"y", [(18, 20)]), (c!"C", [(12, 13)])] := by
  decide +kernel

/-- **C69 fails for declarations that are not in view:** the default value of a parameter, the types of a `catch`, and the traits of
a class. -/
theorem C69_violated_declarations :
    referencedIn c!"a" (startAndOpen [(c!"a", c!"<?php class C { const K = 1; } function f($x = C::K) { }")] c!"a") =
      [(c!"x", [(42, 44)]), (c!"f", [(40, 41)]), (c!"C", [(12, 13)])] ∧
    referencedIn c!"a" (startAndOpen [(c!"a", c!"<?php class C { } try { } catch (C $e) { }")] c!"a") = [(c!"C", [(12, 13)])] ∧
    referencedIn c!"a" (startAndOpen [(c!"a", c!"<?php trait C { } class D { use C; }")] c!"a") =
      [(c!"D", [(24, 25)]), (c!"C", [(12, 13)])] := by
  decide +kernel

end Linked

end PhpLs
