import Verif.Props.VariableOne

/-!
# C77: places in member accesses and right sides

`C77_accessed`: once its name stands for a symbol, every place of a variable in a member access or in an assignment, outside of
functions and classes, is recorded as a use of this symbol.
-/

namespace PhpLs.Linked

open Out Env

/-! ## Specification -/

/-- The place of the token is recorded as a use of the symbol that its name stands for before. -/
def Hit (file : NodeId) (k : Token) (y : Text) (s s' : Env) : Prop :=
  ∀ m, s.stands y = some m → ∃ range, k.range = some range ∧ ⟨range, m⟩ ∈ s'.resolver.refsOf file

/-- The name keeps its symbol, and what is recorded stays. -/
structure Along (y : Text) (s s' : Env) : Prop where
  steady : Steady y s s'
  grown : Grown true s s'

/-- The variable `k` is in view in a member access or an assignment in a tree, outside of the functions and classes there. -/
inductive Within (k : Token) : Node → Prop
  | here {n : Node} : Access k n → Within k n
  | part {n c : Node} : closed n = false → n.isFunction = false → n.isClass = false → c ∈ n.children → Within k c → Within k n

/-! ## Lemmas -/

variable {file : NodeId} {x : Token} {y : Text} {call : Env → Node → Out (Option NodeId × Env)}

theorem Along.refl (s : Env) : Along y s s := ⟨.refl s, .refl s⟩

theorem Along.trans {s s1 s' : Env} (h : Along y s s1) (h' : Along y s1 s') : Along y s s' :=
  ⟨h.1.trans h'.1, h.2.trans h'.2⟩

theorem Along.ofFrame {s s' : Env} (h : Frame true true s s') : Along y s s' := ⟨.ofFrame h, .ofFrame h⟩

theorem Hit.before {s s1 s' : Env} (h : Hit file x y s1 s') (ha : Along y s s1) : Hit file x y s s' :=
  fun m hm => h m (ha.1 m hm)

theorem Hit.later {s s1 s' : Env} (h : Hit file x y s s1) (ha : Along y s1 s') : Hit file x y s s' := fun m hm => by
  obtain ⟨range, h1, h2⟩ := h m hm
  exact ⟨range, h1, (ha.2.refs file).subset h2⟩

theorem Hit.none (hy : x.label = some y) (ht : y ≠ c!"this") {s : Env} (hk : s.resolver.getLocal x = none) : Hit file x y s s :=
  fun m hm => by
    rw [getLocal_of_stands hy hm (.inl ht)] at hk
    cases hk

theorem hit_refLocal (hy : x.label = some y) (ht : y ≠ c!"this") {s s' : Env} {n : NodeId} (hk : s.resolver.getLocal x = some n)
    (h : s.refLocal file x n = .ok s') : Hit file x y s s' := by
  intro m hm
  rw [getLocal_of_stands hy hm (.inl ht)] at hk
  cases hk
  unfold refLocal Resolver.referenceLocal at h
  obtain ⟨r, hr, h⟩ := Out.bind_eq_ok h
  obtain ⟨range, hrange, hr⟩ := Out.bind_eq_ok hr
  cases hr
  cases h
  exact ⟨range, Out.ofOption_ok hrange, mem_reference ..⟩

theorem hit_variable (hy : x.label = some y) (ht : y ≠ c!"this") (U : Unicode) (file : NodeId)
    (call : Env → Node → Out (Option NodeId × Env)) (node : Node) (fuel : Nat) (chain : List Node) (s : Env) :
    OkThat (fun p : Env.Root × Env => Hit file x y s p.2) (Env.rootOf U file call node (fuel + 1) (.variable x) chain s) := by
  unfold Env.rootOf
  dsimp only
  cases hk : s.resolver.getLocal x with
  | none => exact OkThat.ok (.none hy ht hk)
  | some n =>
    refine OkThat.bind (Q := fun s2 : Env => Hit file x y s s2) (fun s2 e => hit_refLocal hy ht hk e) fun s2 h2 => ?_
    split
    · exact OkThat.ok h2
    · split
      · exact OkThat.ok h2
      · refine OkThat.bindOption fun sym _ => ?_
        exact (Env.frame_variableType (exact := true) (mv := true) U fuel n _ s2).bind fun p hp => OkThat.ok (h2.later (.ofFrame hp))

def AlongFn (y : Text) (call : Env → Node → Out (Option NodeId × Env)) : Prop :=
  ∀ s n, OkThat (fun p : Option NodeId × Env => Along y s p.2) (call s n)

theorem AlongFn.frame (hc : AlongFn y call) : SteadyFn y call := fun s n p e => (hc s n p e).1

theorem AlongFn.each (hc : AlongFn y call) (l : List Node) : ∀ s : Env,
    OkThat (fun s' : Env => Along y s s') (l.foldlM (fun s c => do let q ← call s c; pure q.2) s) := by
  induction l with
  | nil => exact fun s => OkThat.ok (.refl s)
  | cons n l ih =>
    intro s
    rw [List.foldlM_cons]
    refine OkThat.bind (Q := fun s' => Along y s s') ?_ fun s' h => (ih s').mono fun _ h' => h.trans h'
    exact (hc s n).bind fun q hq => OkThat.ok hq

theorem AlongFn.opt (hc : AlongFn y call) (o : Option Node) (s : Env) :
    OkThat (fun s' : Env => Along y s s') (match o with
      | some i => do let p ← call s i; pure p.2
      | none => pure s) := by
  cases o with
  | none => exact OkThat.ok (.refl s)
  | some n => exact (hc s n).bind fun q hq => OkThat.ok hq

theorem along_refLocal (s : Env) (file : NodeId) (token : Token) (n : NodeId) :
    OkThat (fun s' : Env => Along y s s') (s.refLocal file token n) :=
  (Env.frame_refLocal s file token n).mono fun _ h => .ofFrame h

theorem along_assign (s : Env) (token : Token) (d : Option NodeId) (file : NodeId) {β : Type} {P : β → Prop}
    {f : NodeId × Env → Option NodeId × Env → Out β}
    (h : ∀ (c : NodeId × Env) (e : Option NodeId × Env), Along y s e.2 → OkThat P (f c e)) :
    OkThat P (do
      let sym ← assigned token d
      let c ← s.addVar sym
      let e ← c.2.declareNew file token c.1
      f c e) := by
  have h1 := steady_assign (x := y) s token d file (P := fun p : (NodeId × Env) × (Option NodeId × Env) => Steady y s p.2.2)
    (f := fun c e => .ok (c, e)) fun c e he => OkThat.ok he
  have h2 := Env.frame_assign (mv := true) s token d file (P := fun p : (NodeId × Env) × (Option NodeId × Env) => Frame false true s p.2.2)
    (f := fun c e => .ok (c, e)) fun c e he => OkThat.ok he
  intro r hr
  obtain ⟨sym, e1, hr⟩ := Out.bind_eq_ok hr
  obtain ⟨c, e2, hr⟩ := Out.bind_eq_ok hr
  obtain ⟨e, e3, hr⟩ := Out.bind_eq_ok hr
  have key : (do
      let sym ← assigned token d
      let c ← s.addVar sym
      let e ← c.2.declareNew file token c.1
      .ok (c, e)) = .ok (c, e) := by
    rw [e1]
    show (do
      let c ← s.addVar sym
      let e ← c.2.declareNew file token c.1
      .ok (c, e)) = _
    rw [e2]
    show (do
      let e ← c.2.declareNew file token c.1
      .ok (c, e)) = _
    rw [e3]
    rfl
  exact h c e ⟨h1 _ key, .ofFrame (h2 _ key)⟩ r hr

theorem along_memberType (U : Unicode) (H : HashOrder) (file : NodeId) (fuel : Nat) : AlongFn y (memberType U H file fuel) :=
  fun s n p e => ⟨steady_memberType U H file fuel s n p e,
    .ofFrame (Env.frame_memberType (exact := false) (mv := true) U H file fuel s n (fun e => nomatch e) p e)⟩

theorem along_rootOf (U : Unicode) (file : NodeId) (hc : AlongFn y call) (hf : Env.FrameFn false true call) (node : Node) (fuel : Nat)
    (cur : Node) (chain : List Node) (s : Env) :
    OkThat (fun p : Root × Env => Along y s p.2) (rootOf U file call node fuel cur chain s) :=
  fun p e => ⟨steady_rootOf U file hc.frame node fuel cur chain s p e,
    .ofFrame (Env.frame_rootOf U file hf node (fun e => nomatch e) fuel cur chain s (fun e => nomatch e) p e)⟩

/-- A function that records the place of the variable. -/
def HitFn (file : NodeId) (x : Token) (y : Text) (call : Env → Node → Out (Option NodeId × Env)) : Prop :=
  ∀ s n, Uses n x → OkThat (fun p : Option NodeId × Env => Hit file x y s p.2) (call s n)

theorem HitFn.each (hl : HitFn file x y call) (hc : AlongFn y call) {n : Node} (hn : Uses n x) :
    ∀ (l : List Node), n ∈ l → ∀ s : Env,
    OkThat (fun s' : Env => Hit file x y s s') (l.foldlM (fun s c => do let q ← call s c; pure q.2) s)
  | m :: l, hm, s => by
    rw [List.foldlM_cons, bind_assoc]
    rcases List.mem_cons.1 hm with rfl | hm
    · refine (hl s n hn).bind fun q hq => ?_
      exact (hc.each l q.2).mono fun s' hs' => hq.later hs'
    · refine (hc s m).bind fun q hq => ?_
      exact (hl.each hc hn l hm q.2).mono fun s' hs' => hs'.before hq

theorem HitFn.opt (hl : HitFn file x y call) {n : Node} (hn : Uses n x) (s : Env) :
    OkThat (fun s' : Env => Hit file x y s s') (match some n with
      | some i => do let p ← call s i; pure p.2
      | none => pure s) :=
  (hl s n hn).bind fun _ hq => OkThat.ok hq

theorem hit_rootOf (hy : x.label = some y) (ht : y ≠ c!"this") (U : Unicode) (hl : HitFn file x y call) (hc : AlongFn y call) (hf : Env.FrameFn false true call) (node : Node) :
    ∀ (fuel : Nat) (cur : Node) (chain : List Node) (s : Env), (cur = node ∨ ∃ c ∈ node.children, Uses c x) → Uses cur x →
    OkThat (fun p : Env.Root × Env => Hit file x y s p.2) (Env.rootOf U file call node fuel cur chain s)
  | 0, _, _, _, _, _ => OkThat.deep
  | fuel + 1, cur, chain, s, hup, hin => by
    have ih := hit_rootOf hy ht U hl hc hf node fuel
    have fr := fun cur chain s => along_rootOf U file hc hf node fuel cur chain s
    have down : ∀ c, c ∈ cur.children → Uses c x → (c = node ∨ ∃ c ∈ node.children, Uses c x) := by
      intro c hcm hci
      rcases hup with rfl | h
      · exact .inr ⟨c, hcm, hci⟩
      · exact .inr h
    unfold Env.rootOf
    cases hin with
    | here => exact hit_variable hy ht U file call node fuel chain s
    | target hk =>
      dsimp only
      rw [if_pos hk]
      refine (hc s _).bind fun d hd => ?_
      refine along_assign (y := y) d.2 x d.1 file fun c e he => ?_
      cases fuel with
      | zero => exact OkThat.deep
      | succ fuel => exact (hit_variable hy ht U file call node fuel chain e.2).mono fun q hq => (hq.before he).before hd
    | subscripted =>
      refine (hc.opt _ s).bind fun s1 h1 => ?_
      dsimp only
      cases hk : s1.resolver.getLocal x with
      | none => exact OkThat.ok ((Hit.none hy ht hk).before h1)
      | some n =>
        refine OkThat.bind (Q := fun s2 : Env => Hit file x y s1 s2) (fun s2 e => hit_refLocal hy ht hk e) fun s2 h2 => ?_
        refine OkThat.bindOption fun sym _ => ?_
        split
        · exact OkThat.ok (h2.before h1)
        · exact OkThat.ok (h2.before h1)
    | operand hk hn h =>
      rename_i l r n k
      dsimp only
      rw [if_neg hk]
      rcases List.mem_cons.1 hn with rfl | hn
      · refine (hl s _ h).bind fun p hp => ?_
        exact (hc p.2 r).bind fun q hq => OkThat.ok (hp.later hq)
      · cases List.mem_singleton.1 hn
        refine (hc s l).bind fun p hp => ?_
        exact (hl p.2 _ h).bind fun q hq => OkThat.ok (hq.before hp)
    | assigned hk h =>
      rename_i v k r
      dsimp only
      rw [if_pos hk]
      refine (hl s r h).bind fun d hd => ?_
      refine along_assign (y := y) d.2 v d.1 file fun c e he => ?_
      exact (fr _ chain e.2).mono fun q hq => hd.later (Along.trans he hq)
    | arm hn h =>
      rename_i c b n a q k
      dsimp only
      rcases List.mem_cons.1 hn with rfl | hn
      · refine (hl s _ h).bind fun p hp => ?_
        refine OkThat.bind (Q := fun q : Option NodeId × Env => Along y p.2 q.2) ?_ fun q hq => ?_
        · cases a with
          | none => exact OkThat.ok (Along.refl _)
          | some a => exact hc p.2 a
        · exact (hc q.2 b).bind fun w hw => OkThat.ok (hp.later (Along.trans hq hw))
      · refine (hc s c).bind fun p hp => ?_
        rcases List.mem_append.1 hn with hn | hn
        · obtain rfl : a = some n := by simpa using hn
          refine (hl p.2 _ h).bind fun q hq => ?_
          exact (hc q.2 b).bind fun w hw => OkThat.ok ((hq.before hp).later hw)
        · cases List.mem_singleton.1 hn
          refine OkThat.bind (Q := fun q : Option NodeId × Env => Along y p.2 q.2) ?_ fun q hq => ?_
          · cases a with
            | none => exact OkThat.ok (Along.refl _)
            | some a => exact hc p.2 a
          · exact (hl q.2 _ h).bind fun w hw => OkThat.ok (hw.before (Along.trans hp hq))
    | unary h | clone h | new h | grouping h =>
      exact ih _ _ _ (down _ (by simp [Node.children]) h) h
    | member h | static h =>
      exact ih _ _ _ (down _ (by simp [Node.children]) h) h
    | callee h =>
      rename_i n ps ob cb
      refine (hc.each ps s).bind fun s' hs' => ?_
      exact (ih _ _ _ (down _ (by simp [Node.children]) h) h).mono fun q hq => hq.before hs'
    | argument hm h =>
      rename_i n p ps ob cb
      refine (hl.each hc h ps hm s).bind fun s' hs' => ?_
      exact (fr _ chain s').mono fun q hq => hs'.later hq
    | element hm h => exact (hl.each hc h _ hm s).bind fun s' hs' => OkThat.ok hs'
    | value h => exact (hl s _ h).bind fun p hp => OkThat.ok hp
    | subscript h =>
      rename_i a i ob cb
      refine (hl.opt h s).bind fun s1 h1 => ?_
      split
      · next c =>
        split
        · exact OkThat.ok h1
        · refine (along_refLocal (y := y) s1 file _ _).bind fun s2 h2 => ?_
          refine OkThat.bindOption fun sym _ => ?_
          split
          · exact OkThat.ok (h1.later h2)
          · exact OkThat.ok (h1.later h2)
      · exact (fr _ _ s1).mono fun q hq => h1.later hq
      · refine (hc.opt _ s1).bind fun s2 h2 => ?_
        exact (fr _ _ s2).mono fun q hq => h1.later (Along.trans h2 hq)
      · exact OkThat.ok h1
    | ofMember h =>
      rename_i n l i k ob cb a b
      refine (hc.opt _ s).bind fun s1 h1 => ?_
      refine (ih _ _ s1 ?_ h).mono fun q hq => hq.before h1
      rcases hup with rfl | hup
      · exact .inr ⟨.member n k a l b, by simp [Node.children], .member h⟩
      · exact .inr hup
    | ofElement h =>
      rename_i n i i' ob cb ob' cb'
      have hup' : ∀ m, m = node ∨ ∃ c ∈ node.children, Uses c x := by
        rcases hup with rfl | hup
        · exact fun m => .inr ⟨_, by simp [Node.children], h⟩
        · exact fun m => .inr hup
      refine (hc.opt _ s).bind fun s1 h1 => ?_
      cases h with
      | subscript h =>
        refine (hl.opt h s1).bind fun s2 h2 => ?_
        exact (fr _ _ s2).mono fun q hq => (h2.before h1).later hq
      | ofMember h =>
        refine (hc.opt _ s1).bind fun s2 h2 => ?_
        refine (ih _ _ s2 (hup' _) (.member h)).mono fun q hq => hq.before (Along.trans h1 h2)
      | subscripted =>
        refine (hc.opt _ s1).bind fun s2 h2 => ?_
        exact (ih _ _ s2 (hup' _) .here).mono fun q hq => hq.before (Along.trans h1 h2)
      | ofElement h =>
        refine (hc.opt _ s1).bind fun s2 h2 => ?_
        exact (ih _ _ s2 (hup' _) h).mono fun q hq => hq.before (Along.trans h1 h2)
      | part ho => cases ho
    | part ho hm h =>
      have hx : ∃ c ∈ node.children, Uses c x := by
        rcases hup with rfl | h
        · exact ⟨_, hm, h⟩
        · exact h
      obtain ⟨x, hx, hxi⟩ := hx
      split <;> first | cases ho; done | skip
      exact (hl.each hc hxi _ hx s).bind fun s' hs' => OkThat.ok hs'

theorem hit_memberType (hy : x.label = some y) (ht : y ≠ c!"this") (U : Unicode) (H : HashOrder) : ∀ fuel : Nat, HitFn file x y (Env.memberType U H file fuel)
  | 0 => fun _ _ _ => OkThat.deep
  | fuel + 1 => by
    intro s node hn
    unfold Env.memberType
    refine (hit_rootOf hy ht U (hit_memberType hy ht U H fuel) (along_memberType U H file fuel) (Env.frame_memberType U H file fuel) node fuel node [] s
      (.inl rfl) hn).bind fun p hp => ?_
    split
    · exact OkThat.ok hp
    · refine OkThat.bindOption fun anc _ => OkThat.bindOption fun top _ => OkThat.bindOption fun f _ => ?_
      split
      · exact OkThat.ok hp
      · exact (Env.frame_links (exact := true) (mv := true) U H file fuel _ _ _ _ p.2).mono fun q hq => hp.later (.ofFrame hq)

/-- A tree with the variable in view is walked through. -/
theorem hit_access (hy : x.label = some y) (ht : y ≠ c!"this") (U : Unicode) (H : HashOrder) (F : Nat) (n : Node) (parent : NodeId) (s : Env) (h : Access x n) :
    OkThat (fun p : NextAction × Env => Hit file x y s p.2) (Env.visitName U H file F n parent s) := by
  rcases h with ⟨hch, hu⟩ | ⟨l, op, r, hop, rfl, hu⟩
  · cases n <;> first
      | exact (hit_memberType hy ht U H F s _ hu).bind fun p hp => OkThat.ok hp
      | cases hch
  · unfold Env.visitName
    dsimp only
    rw [if_pos hop]
    refine OkThat.bind (Q := fun s' : Env => Hit file x y s s') ?_ fun s' hs' => OkThat.ok hs'
    unfold Env.visitAssignment
    rcases hu with hu | ⟨hu, hne⟩
    · refine (hit_memberType hy ht U H F s r hu).bind fun d hd => ?_
      split
      · next v =>
        refine along_assign (y := y) d.2 v d.1 file fun c e he => ?_
        refine OkThat.bindOption fun repr _ => ?_
        split
        · split
          · refine OkThat.bindOption fun ref _ => OkThat.ok ?_
            refine hd.later (Along.trans he ⟨.ofSame rfl, ?_⟩)
            exact ⟨rfl, fun _ => List.prefix_rfl, List.prefix_rfl, .types _ _ (.refl _), fun _ _ h => h⟩
          · exact OkThat.ok (hd.later he)
        · exact OkThat.ok (hd.later he)
      · refine (along_memberType (y := y) U H file F d.2 l).bind fun p hp => ?_
        exact OkThat.ok (hd.later hp)
    · refine (along_memberType (y := y) U H file F s r).bind fun d hd => ?_
      split
      · next v => exact absurd rfl (hne v)
      · exact (hit_memberType hy ht U H F d.2 l hu).bind fun p hp => OkThat.ok (hp.before hd)


theorem along_walk (U : Unicode) (H : HashOrder) (file : NodeId) (F fuel : Nat) (node : Node) (parent : NodeId) (s : Env)
    (h : Fixed y node) : OkThat (fun s' : Env => Along y s s') (traverse Node.children (Env.nameVisitor U H file F) fuel node parent s) :=
  fun s' e => ⟨C77_steady U H file F fuel node parent s h s' e,
    .ofWalked (grown_walk (mv := true) H file F fuel node parent s (fun e => nomatch e) s' e)⟩

theorem along_walks (U : Unicode) (H : HashOrder) (file : NodeId) (F fuel : Nat) (parent : NodeId) : ∀ (l : List Node) (s : Env),
    (∀ n ∈ l, Fixed y n) → OkThat (fun s' : Env => Along y s s')
      (l.foldlM (fun s c => traverse Node.children (Env.nameVisitor U H file F) fuel c parent s) s)
  | [], s, _ => OkThat.ok (.refl s)
  | n :: l, s, h => by
    rw [List.foldlM_cons]
    refine (along_walk U H file F fuel n parent s (h n (List.mem_cons_self ..))).bind fun s1 h1 => ?_
    exact (along_walks U H file F fuel parent l s1 fun m hm => h m (List.mem_cons_of_mem _ hm)).mono fun s' h' => h1.trans h'

theorem isFunction_of_access {n : Node} (h : Access x n) : n.isFunction = false := by
  rcases h with ⟨h, _⟩ | ⟨_, _, _, _, rfl, _⟩
  · cases n <;> first | rfl | cases h
  · rfl

/-! ## The claims -/

/-- **C77, accesses**: behind the walk over a tree in which nothing gives the name anew, every place of the variable in a member access
or in an assignment is recorded as a use of the symbol that the name stood for before. -/
theorem C77_accessed (U : Unicode) (H : HashOrder) (file : NodeId) (F : Nat) (hy : x.label = some y) (ht : y ≠ c!"this") :
    ∀ (fuel : Nat) (node : Node) (parent : NodeId) (s : Env), Fixed y node → Within x node →
    OkThat (fun s' : Env => Hit file x y s s') (traverse Node.children (Env.nameVisitor U H file F) fuel node parent s)
  | 0, _, _, _, _, _ => OkThat.deep
  | fuel + 1, node, parent, s, hfix, hd => by
    have hf : node.isFunction = false := by
      cases hd with
      | here h => exact isFunction_of_access h
      | part _ h => exact h
    obtain ⟨hr, hkids⟩ : renews y node = false ∧ ∀ c ∈ node.children, Fixed y c := by
      cases hfix with
      | function h => rw [hf] at h; cases h
      | other h1 h2 => exact ⟨h1, h2⟩
    unfold traverse
    refine OkThat.bind (Q := fun s1 : Env => Along y s s1)
      (fun s1 e => .ofFrame (before_other (exact := true) (mv := true) file node parent s hf s1 e)) fun s1 h1 => ?_
    have finish : ∀ s3, Hit file x y s s3 → OkThat (fun s' : Env => Hit file x y s s') (Env.afterName node parent s3) :=
      fun s3 h s' e => h.later ⟨.ofSame (after_scopes node parent s3 hf s' e).1, grown_after node parent s3 s' e⟩
    cases hd with
    | here h =>
      refine OkThat.bind (hit_access hy ht U H F node parent s1 h) fun p hp => ?_
      refine OkThat.bind (Q := fun s3 : Env => Hit file x y s s3) ?_ finish
      split
      · exact OkThat.ok (hp.before h1)
      · exact (along_walks U H file F fuel _ _ p.2 hkids).mono fun s3 h3 => (hp.before h1).later h3
    | part hcl hfn hic hm hin =>
      rename_i c
      refine OkThat.bind (Q := fun p : NextAction × Env => (∃ next, p.1 = .processChildren next) ∧ Along y s1 p.2)
        (fun p hp => ⟨?_, steady_visitName (x := y) U H file F node parent s1 hr p hp,
          grown_visit (mv := true) H file F node parent s1 (fun e => nomatch e) p hp⟩) fun p hp => ?_
      · rcases visit_open (mv := true) (top := file) H file F node parent s1 (.inl rfl) hcl p hp with h | ⟨c, hc, _⟩
        · exact h
        · cases node <;> first | cases hic; done | cases hc
      · obtain ⟨⟨next, hn⟩, h2⟩ := hp
        refine OkThat.bind (Q := fun s3 : Env => Hit file x y s s3) ?_ finish
        rw [hn]
        dsimp only
        obtain ⟨a, b, hab⟩ := List.append_of_mem hm
        rw [hab] at hkids ⊢
        rw [List.foldlM_append]
        refine (along_walks U H file F fuel next a p.2 fun c hc => hkids c (List.mem_append_left _ hc)).bind fun s4 h4 => ?_
        rw [List.foldlM_cons]
        refine (C77_accessed U H file F hy ht fuel c next s4 (hkids c (by simp)) hin).bind fun s5 h5 => ?_
        refine (along_walks U H file F fuel next b s5 fun c hc => hkids c (by simp [hc])).mono fun s6 h6 => ?_
        exact (h5.before ((h1.trans h2).trans h4)).later h6

/-- **C77, accesses behind a place**: in a run of statements in which nothing gives the name anew, a place of the variable and a place
in a member access or an assignment in a later statement are recorded as uses of the same symbol. -/
theorem C77_then (U : Unicode) (H : HashOrder) (file : NodeId) (F : Nat) (k : Token) (hk : k.label = some y) (hy : x.label = some y)
    (ht : y ≠ c!"this") (fuel : Nat) (a b : List Node) (c d : Node) (parent : NodeId) (s s' : Env)
    (hfix : ∀ c ∈ a ++ d :: b, Fixed y c) (hc : c ∈ a) (hkc : Direct k c) (hxd : Within x d) (hs : s.resolver.localScopes ≠ [])
    (hw : (a ++ d :: b).foldlM (fun s c => traverse Node.children (Env.nameVisitor U H file F) fuel c parent s) s = .ok s') :
    Same file k x s' := by
  rw [List.foldlM_append] at hw
  obtain ⟨s1, h1, hw⟩ := Out.bind_eq_ok hw
  rw [List.foldlM_cons] at hw
  obtain ⟨s2, h2, hw⟩ := Out.bind_eq_ok hw
  obtain ⟨n, range, a1, a2, a3⟩ :=
    C77_sequence U H file F k hk ht fuel a c parent s (fun c hc => hfix c (List.mem_append_left _ hc)) hc hkc hs s1 h1
  have hd := hfix d (by simp)
  have g2 := along_walk U H file F fuel d parent s1 hd s2 h2
  have g3 := along_walks U H file F fuel parent b s2 (fun c hc => hfix c (by simp [hc])) s' hw
  obtain ⟨range', b1, b2⟩ := C77_accessed U H file F hy ht fuel d parent s1 hd hxd s2 h2 n a1
  exact ⟨n, range, range', a2, b1, ((g2.trans g3).grown.refs file).subset a3, (g3.grown.refs file).subset b2⟩

/-- **C77, accesses in a body**: the same for the body of a function, or any other run of statements in a tree, unless the name of a
class around it is looked up and not found. -/
theorem C77_then_body (U : Unicode) (H : HashOrder) (file : NodeId) (F : Nat) (k : Token) (hk : k.label = some y)
    (hy : x.label = some y) (ht : y ≠ c!"this") (fuel : Nat) (a b : List Node) (c d node : Node) (cs : List Token) (parent : NodeId)
    (s s' : Env) (hfix : ∀ c ∈ a ++ d :: b, Fixed y c) (hc : c ∈ a) (hkc : Direct k c) (hxd : Within x d)
    (hv : Holds (a ++ d :: b) node cs) (hs : s.resolver.localScopes ≠ [])
    (hw : traverse Node.children (Env.nameVisitor U H file F) fuel node parent s = .ok s') :
    Same file k x s' ∨ ∃ c ∈ cs, Answered true file U (.one [c]) none s s' :=
  walk_holds U H file F _ k x (fun fuel next s s' hs hw => C77_then U H file F k hk hy ht fuel a b c d next s s' hfix hc hkc hxd hs hw)
    fuel node cs parent s s' hv hs hw

/-- **C77, accesses in a file**: a place of a variable in the statements of a file and a place in a member access or an assignment in a
later statement, outside of functions and classes, are kept under the same symbol if nothing gives its name anew. -/
theorem C77_then_top (h : Host) (path : Text) (a b : List Node) (c d : Node) (st st' : Backend) (refs : FileRefs) (k : Token)
    (hk : k.label = some y) (hy : x.label = some y) (ht : y ≠ c!"this") (hfix : ∀ c ∈ a ++ d :: b, Fixed y c) (hc : c ∈ a)
    (hkc : Direct k c) (hxd : Within x d) (hr : Backend.resolveFile h path (a ++ d :: b) st = .ok (some refs, st')) :
    ∃ range range' sym ranges, k.range = some range ∧ x.range = some range' ∧ Dict.get? refs sym = some ranges ∧
      range ∈ ranges ∧ range' ∈ ranges := by
  unfold Backend.resolveFile at hr
  split at hr
  · cases hr
  · next file hfile =>
    obtain ⟨r, ha, hr⟩ := Out.bind_eq_ok hr
    obtain ⟨e, he, hr⟩ := Out.bind_eq_ok hr
    injection hr with hr
    injection hr with hr1 hr2
    injection hr1 with hr1
    have hs : (Env.mk r (Resolver.new st.globals file)).resolver.localScopes ≠ [] := fun h0 => nomatch h0
    exact hr1 ▸ kept_of_same (C77_then h.U h.H file h.fuel k hk hy ht h.fuel a b c d file _ e hfix hc hkc hxd hs he)

/-! ## A concrete case -/

/-- The variables in view in the member accesses and assignments of a tree. -/
def withinIn : Nat → Node → List Token
  | 0, _ => []
  | fuel + 1, n => accessesOf n ++ if closed n = false ∧ n.isFunction = false ∧ n.isClass = false then
      n.children.flatMap fun c => withinIn fuel c else []

theorem withinIn_sound : ∀ (fuel : Nat) (n : Node) (k : Token), k ∈ withinIn fuel n → Within k n
  | 0, _, _, h => nomatch h
  | fuel + 1, n, k, h => by
    unfold withinIn at h
    rcases List.mem_append.1 h with h | h
    · exact .here (accessesOf_sound h)
    · split at h
      · next hc =>
        obtain ⟨c, hcm, h⟩ := List.mem_flatMap.1 h
        exact .part hc.1 hc.2.1 hc.2.2 hcm (withinIn_sound fuel c k h)
      · cases h

private abbrev source : Text := c!"<?php $x = f(); if ($x) { $x->a($x)->b(); } $z = $x->c; $x[0]->d;"

/-- In the first statement `$x` is assigned to, in the others there are five more places: one where it stands and the others in
accesses and on the right side of an assignment.  All of them are kept under one symbol. -/
example :
    (treeOf source).all (fixedIn c!"x" 30) = true ∧
    ((treeOf source).map fun n => ((directIn 30 n).map (·.col), (withinIn 30 n).map (·.col))) =
      [([6], []), ([20], [26, 32]), ([44], [49]), ([], [56])] ∧
    referencedIn c!"a" (startAndOpen [(c!"a", source)] c!"a") =
      [(c!"x", [(6, 8), (20, 22), (32, 34), (26, 28), (49, 51), (56, 58)]), (c!"z", [(44, 46)])] := by
  decide +kernel

end PhpLs.Linked
