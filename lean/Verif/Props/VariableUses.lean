import Verif.Props.ReferencesLooked
import Verif.Props.VariableTypes

/-!
# C76: every variable in view is recorded

Which variables of a tree are recorded as uses of a symbol when the names of a file are resolved.

* `C76_seen`: every variable in view is recorded as a use of the symbol that its name stands for at this place, or a class around
  it is not found.
* `C76_accessed`: every variable in view in a member access or in an assignment is recorded, or its name stands for nothing there,
  or a class around it is not found.
* `C76_file`: the same for a whole file and the references that are kept for it.
* `C76_open`, `C76_change`: the same for the state behind the message that opens a file and the one that changes it.
-/

namespace PhpLs.Linked

open Out Env

/-! ## Specification -/

/-- The variable `x` is in view in an expression that is looked up for its type (the same places as `Inside` for names). -/
inductive Uses : Node → Token → Prop
  | here {x : Token} : Uses (.variable x) x
  | target {x k : Token} {r : Node} : k.t = .assignment → Uses (.binary (.variable x) k r) x
  | subscripted {x o c : Token} {i : Option Node} : Uses (.field (.variable x) o i c) x
  | operand {l r n : Node} {k : Token} {x : Token} : k.t ≠ .assignment → n ∈ [l, r] → Uses n x → Uses (.binary l k r) x
  | assigned {v k : Token} {r : Node} {x : Token} : k.t = .assignment → Uses r x → Uses (.binary (.variable v) k r) x
  | arm {c b n : Node} {a : Option Node} {q k : Token} {x : Token} : n ∈ c :: (a.toList ++ [b]) → Uses n x →
      Uses (.ternary c q a k b) x
  | unary {n : Node} {k : Token} {x : Token} : Uses n x → Uses (.unary n k) x
  | clone {n : Node} {k : Token} {x : Token} : Uses n x → Uses (.cloneExpr k n) x
  | new {n : Node} {k : Token} {x : Token} : Uses n x → Uses (.newExpr k n) x
  | grouping {n : Node} {x : Token} : Uses n x → Uses (.grouping n) x
  | callee {n : Node} {ps : List Node} {o c : Token} {x : Token} : Uses n x → Uses (.call n o ps c) x
  | argument {n p : Node} {ps : List Node} {o c : Token} {x : Token} : p ∈ ps → Uses p x → Uses (.call n o ps c) x
  | element {p : Node} {ps : List Node} {o c : Token} {x : Token} : p ∈ ps → Uses p x → Uses (.array o ps c) x
  | value {n : Node} {e : Option Node} {k : Option Token} {x : Token} : Uses n x → Uses (.arrayElement e k n) x
  | member {n l : Node} {k : Token} {a b : Option Token} {x : Token} : Uses n x → Uses (.member n k a l b) x
  | static {n l : Node} {k : Token} {a b : Option Token} {x : Token} : Uses n x → Uses (.staticMember n k a l b) x
  | subscript {n i : Node} {o c : Token} {x : Token} : Uses i x → Uses (.field n o (some i) c) x
  | ofMember {n l : Node} {i : Option Node} {k o c : Token} {a b : Option Token} {x : Token} : Uses n x →
      Uses (.field (.member n k a l b) o i c) x
  | ofElement {n : Node} {i i' : Option Node} {o c o' c' : Token} {x : Token} : Uses (.field n o' i' c') x →
      Uses (.field (.field n o' i' c') o i c) x
  | part {n c : Node} {x : Token} : other n = true → c ∈ n.children → Uses c x → Uses n x

/-- One of the trees with the property is in view in a tree; the names of the classes around it. -/
inductive Reaches (leaf : Node → Prop) : Node → List Token → Prop
  | here {n : Node} : leaf n → Reaches leaf n []
  | part {n c : Node} {cs : List Token} : closed n = false → c ∈ n.children → Reaches leaf c cs → Reaches leaf n (classNames n ++ cs)

/-- A variable, or an assignment to it. -/
def Mention (k : Token) (n : Node) : Prop :=
  n = .variable k ∨ ∃ op r, op.t = .assignment ∧ k.label ≠ some c!"this" ∧ n = .binary (.variable k) op r

/-- A member access or an assignment with the variable in view. -/
def Access (k : Token) (n : Node) : Prop :=
  n.isChain = true ∧ Uses n k ∨
    ∃ l op r, op.t = .assignment ∧ n = .binary l op r ∧ (Uses r k ∨ Uses l k ∧ ∀ v, l ≠ .variable v)

/-- Between `s` and `s'` the place of the variable `k` is recorded as a use of the symbol that its name stands for. -/
def Recorded (file : NodeId) (k : Token) (s s' : Env) : Prop :=
  ∃ s1 range n, Grown true s s1 ∧ s1.resolver.getLocal k = some n ∧ k.range = some range ∧ ⟨range, n⟩ ∈ s1.resolver.refsOf file ∧
    Grown true s1 s'

/-- Between `s` and `s'` the variable `k` is come across, and its name stands for nothing. -/
def Unknown (k : Token) (s s' : Env) : Prop :=
  ∃ s1, Grown true s s1 ∧ s1.resolver.getLocal k = none ∧ Grown true s1 s'

/-- The variable is recorded, or its name stands for nothing. -/
def Met (file : NodeId) (k : Token) (s s' : Env) : Prop := Recorded file k s s' ∨ Unknown k s s'

/-! ## Lemmas -/

theorem Recorded.before {file : NodeId} {k : Token} {s s1 s' : Env} (h : Recorded file k s1 s') (hg : Grown true s s1) :
    Recorded file k s s' := by
  obtain ⟨a, b, c, h1, h2⟩ := h
  exact ⟨a, b, c, hg.trans h1, h2⟩

theorem Recorded.later {file : NodeId} {k : Token} {s s1 s' : Env} (h : Recorded file k s s1) (hg : Grown true s1 s') :
    Recorded file k s s' := by
  obtain ⟨a, b, c, h1, h2, h3, h4, h5⟩ := h
  exact ⟨a, b, c, h1, h2, h3, h4, h5.trans hg⟩

theorem Met.before {file : NodeId} {k : Token} {s s1 s' : Env} (h : Met file k s1 s') (hg : Grown true s s1) : Met file k s s' := by
  rcases h with h | ⟨a, h1, h2⟩
  · exact .inl (h.before hg)
  · exact .inr ⟨a, hg.trans h1, h2⟩

theorem Met.later {file : NodeId} {k : Token} {s s1 s' : Env} (h : Met file k s s1) (hg : Grown true s1 s') : Met file k s s' := by
  rcases h with h | ⟨a, h1, h2, h3⟩
  · exact .inl (h.later hg)
  · exact .inr ⟨a, h1, h2, h3.trans hg⟩

/-- A variable that is declared is recorded. -/
theorem declareNew_used {s : Env} {file c repr : NodeId} {v : Token} {p : Option NodeId × Env} (h : s.declareNew file v c = .ok p)
    (hr : p.1 = some repr) : ∃ label range, v.label = some label ∧ v.range = some range ∧ p.2.stands label = some repr ∧
      ⟨range, repr⟩ ∈ p.2.resolver.refsOf file ∧ p.2.resolver.currentClass = s.resolver.currentClass := by
  unfold declareNew Resolver.declareLocalIfNew at h
  obtain ⟨q, hq, h⟩ := Out.bind_eq_ok h
  cases h
  split at hq
  · cases hq; cases hr
  · cases hq; cases hr
  · next top rest name h1 h2 =>
    split at hq
    · next node hnode =>
      obtain ⟨range, hrange, hq⟩ := Out.bind_eq_ok hq
      cases hq
      cases hr
      refine ⟨name, range, h2, Out.ofOption_ok hrange, ?_, mem_reference .., rfl⟩
      simp only [stands, Resolver.reference, h1]
      exact hnode
    · obtain ⟨r1, hr1, hq⟩ := Out.bind_eq_ok hq
      unfold Resolver.referenceLocal at hr1
      obtain ⟨range, hrange, hr1⟩ := Out.bind_eq_ok hr1
      cases hr1
      cases hq
      cases hr
      refine ⟨name, range, h2, Out.ofOption_ok hrange, ?_, mem_reference .., rfl⟩
      simp [stands, Resolver.reference, Dict.get?_insert]

theorem getLocal_of_stands {s : Env} {k : Token} {label : Text} {n : NodeId} (hl : k.label = some label)
    (hs : s.stands label = some n) (h : label ≠ c!"this" ∨ k.t ≠ .variable ∨ s.resolver.currentClass = none) :
    s.resolver.getLocal k = some n := by
  unfold Resolver.getLocal
  rw [hl]
  have : (if k.t = .variable ∧ label = c!"this" then s.resolver.currentClass else none) = none := by
    split
    · next hc => rcases h with h | h | h
                 · exact absurd hc.2 h
                 · exact absurd hc.1 h
                 · exact h
    · rfl
  dsimp only
  rw [this]
  unfold stands at hs
  cases hsc : s.resolver.localScopes with
  | nil => rw [hsc] at hs; cases hs
  | cons top rest => rw [hsc] at hs; exact hs

theorem recorded_variable (U : Unicode) (H : HashOrder) (file : NodeId) (F : Nat) (k : Token) (parent : NodeId) (s : Env)
    (hl : k.label ≠ none) (hs : s.resolver.localScopes ≠ []) :
    OkThat (fun p : NextAction × Env => Recorded file k s p.2) (Env.visitName U H file F (.variable k) parent s) := by
  intro p hp
  have hg := grown_visit (mv := true) (U := U) H file F (.variable k) parent s (fun e => nomatch e) p hp
  unfold Env.visitName at hp
  dsimp only at hp
  cases hk : s.resolver.getLocal k with
  | some n =>
    rw [hk] at hp
    obtain ⟨s1, hs1, hp⟩ := Out.bind_eq_ok hp
    cases hp
    unfold refLocal Resolver.referenceLocal at hs1
    obtain ⟨r, hr, hs1⟩ := Out.bind_eq_ok hs1
    obtain ⟨range, hrange, hr⟩ := Out.bind_eq_ok hr
    cases hr
    cases hs1
    exact ⟨_, range, n, hg, hk, Out.ofOption_ok hrange, mem_reference .., Grown.refl _⟩
  | none =>
    rw [hk] at hp
    obtain ⟨v, hv, hp⟩ := Out.bind_eq_ok hp
    obtain ⟨c, hc, hp⟩ := Out.bind_eq_ok hp
    obtain ⟨q, hq, hp⟩ := Out.bind_eq_ok hp
    cases hp
    obtain ⟨label, hlabel⟩ := Option.ne_none_iff_exists'.1 hl
    have hcr : c.2.resolver = s.resolver := by
      unfold addVar at hc
      obtain ⟨_, _, hc⟩ := Out.bind_eq_ok hc
      cases hc
      rfl
    obtain ⟨repr, hr⟩ := declareNew_some hlabel (by rw [hcr]; exact hs) hq
    obtain ⟨l, range, h1, h2, h3, h4, h5⟩ := declareNew_used hq hr
    refine ⟨_, range, repr, hg, getLocal_of_stands h1 h3 ?_, h2, h4, Grown.refl _⟩
    rw [h5, hcr]
    unfold Resolver.getLocal at hk
    rw [h1] at hk
    dsimp only at hk
    by_cases h6 : k.t = .variable ∧ l = c!"this"
    · rw [if_pos h6] at hk
      cases hcl : s.resolver.currentClass with
      | none => exact .inr (.inr rfl)
      | some c => rw [hcl] at hk; cases hk
    · by_cases h7 : k.t = .variable
      · exact .inl fun h8 => h6 ⟨h7, h8⟩
      · exact .inr (.inl h7)

theorem recorded_assignment (U : Unicode) (H : HashOrder) (file : NodeId) (F : Nat) (k : Token) (r : Node) (s : Env)
    (ht : k.label ≠ some c!"this") :
    OkThat (fun s' : Env => Recorded file k s s') (Env.visitAssignment U H file F (.variable k) r s) := by
  intro s' h
  have hg := Env.frame_visitAssignment (mv := true) U H file F (.variable k) r s s' h
  unfold visitAssignment at h
  obtain ⟨d, hd, h⟩ := Out.bind_eq_ok h
  dsimp only at h
  obtain ⟨sym, hsym, h⟩ := Out.bind_eq_ok h
  obtain ⟨c, hc, h⟩ := Out.bind_eq_ok h
  obtain ⟨p, hp, h⟩ := Out.bind_eq_ok h
  obtain ⟨repr, hr, h⟩ := Out.bind_eq_ok h
  obtain ⟨l, range, h1, h2, h3, h4, h5⟩ := declareNew_used hp (Out.ofOption_ok hr)
  have key : s'.resolver = p.2.resolver := by
    cases hdt : d.1 with
    | none => rw [hdt] at h; cases h; rfl
    | some dt =>
      rw [hdt] at h
      dsimp only at h
      split at h
      · obtain ⟨ref, _, h⟩ := Out.bind_eq_ok h
        cases h
        rfl
      · cases h; rfl
  refine ⟨s', range, repr, .ofFrame hg, ?_, h2, by rw [key]; exact h4, Grown.refl _⟩
  rw [key]
  exact getLocal_of_stands h1 h3 (.inl fun e => ht (h1.trans (congrArg some e)))

theorem scopes_before (file : NodeId) (node : Node) (parent : NodeId) (s : Env) (hs : s.resolver.localScopes ≠ []) :
    OkThat (fun s' : Env => s'.resolver.localScopes ≠ []) (Env.beforeName file node parent s) := by
  cases h : node.isFunction with
  | true => exact (walk_entered file node parent s h).mono fun s' h => h.some
  | false =>
    exact (before_other (exact := false) (mv := true) file node parent s h).mono fun s' h e =>
      hs (List.length_eq_zero_iff.1 (by rw [← h.length, e]; rfl))

theorem scopes_visit (U : Unicode) (H : HashOrder) (file : NodeId) (F : Nat) (node : Node) (parent : NodeId) (s : Env)
    (hs : s.resolver.localScopes ≠ []) :
    OkThat (fun p : NextAction × Env => p.2.resolver.localScopes ≠ []) (Env.visitName U H file F node parent s) := by
  have fr : ∀ {b : Bool} {s' : Env}, Frame b true s s' → s'.resolver.localScopes ≠ [] := fun h e =>
    hs (List.length_eq_zero_iff.1 (by rw [← h.length, e]; rfl))
  cases hf : node.isFunction with
  | true => exact (visit_function (mv := true) U H file F node parent s hf).mono fun p hp => fr hp.1
  | false =>
    cases hcl : node.isClass with
    | true =>
      have key : ∀ name : Token, OkThat (fun p : NextAction × Env => p.2.resolver.localScopes ≠ [])
          (Env.visitClass U F name parent s) := by
        intro name
        unfold Env.visitClass
        refine (Env.frame_resolve (exact := false) (mv := true) U F s _ parent).bind fun p hp => ?_
        have h1 : p.2.resolver.localScopes ≠ [] := fr hp
        split
        · exact OkThat.ok h1
        · exact OkThat.ok h1
      cases node <;> first | cases hcl; done | exact key _
    | false =>
      exact (Env.frame_visitName (exact := false) (mv := true) U H file F node parent s hcl hf (fun e => nomatch e)
        (fun e => nomatch e)).mono fun p hp => fr hp.1

theorem recorded_refLocal {s s' : Env} {file n : NodeId} {k : Token} (hk : s.resolver.getLocal k = some n)
    (h : s.refLocal file k n = .ok s') : Recorded file k s s' := by
  have hg := Env.frame_refLocal (exact := false) (mv := true) s file k n s' h
  unfold refLocal Resolver.referenceLocal at h
  obtain ⟨r, hr, h⟩ := Out.bind_eq_ok h
  obtain ⟨range, hrange, hr⟩ := Out.bind_eq_ok hr
  cases hr
  cases h
  exact ⟨_, range, n, .ofFrame hg, hk, Out.ofOption_ok hrange, mem_reference .., Grown.refl _⟩

theorem met_variable (U : Unicode) (file : NodeId) (call : Env → Node → Out (Option NodeId × Env)) (node : Node) (fuel : Nat)
    (x : Token) (chain : List Node) (s : Env) :
    OkThat (fun p : Env.Root × Env => Met file x s p.2) (Env.rootOf U file call node (fuel + 1) (.variable x) chain s) := by
  unfold Env.rootOf
  dsimp only
  cases hk : s.resolver.getLocal x with
  | none => exact OkThat.ok (.inr ⟨s, Grown.refl _, hk, Grown.refl _⟩)
  | some n =>
    refine OkThat.bind (Q := fun s2 : Env => Met file x s s2) (fun s2 e => .inl (recorded_refLocal hk e)) fun s2 h2 => ?_
    split
    · exact OkThat.ok h2
    · split
      · exact OkThat.ok h2
      · refine OkThat.bindOption fun sym _ => ?_
        exact (Env.frame_variableType (exact := false) (mv := true) U fuel n _ s2).bind fun p hp => OkThat.ok (h2.later (.ofFrame hp))

/-- A function that looks up the names in view. -/
def MeetsFn (file : NodeId) (x : Token) (call : Env → Node → Out (Option NodeId × Env)) : Prop :=
  ∀ s n, Uses n x → OkThat (fun p : Option NodeId × Env => Met file x s p.2) (call s n)

variable {file : NodeId} {x : Token} {call : Env → Node → Out (Option NodeId × Env)}

theorem MeetsFn.each (hl : MeetsFn file x call) (hc : Env.FrameFn false true call) {n : Node} (hn : Uses n x) :
    ∀ (l : List Node), n ∈ l → ∀ s : Env,
    OkThat (fun s' : Env => Met file x s s') (l.foldlM (fun s c => do let q ← call s c; pure q.2) s)
  | m :: l, hm, s => by
    rw [List.foldlM_cons, bind_assoc]
    rcases List.mem_cons.1 hm with rfl | hm
    · refine (hl s n hn).bind fun q hq => ?_
      exact (hc.each l (fun e => nomatch e) q.2).mono fun s' hs' => hq.later (.ofFrame hs')
    · refine (hc s m (fun e => nomatch e)).bind fun q hq => ?_
      exact (hl.each hc hn l hm q.2).mono fun s' hs' => hs'.before (.ofFrame hq)

theorem MeetsFn.opt (hl : MeetsFn file x call) {n : Node} (hn : Uses n x) (s : Env) :
    OkThat (fun s' : Env => Met file x s s') (match some n with
      | some i => do let p ← call s i; pure p.2
      | none => pure s) :=
  (hl s n hn).bind fun _ hq => OkThat.ok hq

theorem met_rootOf (U : Unicode) (hl : MeetsFn file x call) (hc : Env.FrameFn false true call) (node : Node) :
    ∀ (fuel : Nat) (cur : Node) (chain : List Node) (s : Env), (cur = node ∨ ∃ c ∈ node.children, Uses c x) → Uses cur x →
    OkThat (fun p : Env.Root × Env => Met file x s p.2) (Env.rootOf U file call node fuel cur chain s)
  | 0, _, _, _, _, _ => OkThat.deep
  | fuel + 1, cur, chain, s, hup, hin => by
    have ih := met_rootOf U hl hc node fuel
    have fr := fun cur chain s => Env.frame_rootOf U file hc node (fun e => nomatch e) fuel cur chain s (fun e => nomatch e)
    have down : ∀ c, c ∈ cur.children → Uses c x → (c = node ∨ ∃ c ∈ node.children, Uses c x) := by
      intro c hcm hci
      rcases hup with rfl | h
      · exact .inr ⟨c, hcm, hci⟩
      · exact .inr h
    unfold Env.rootOf
    cases hin with
    | here => exact met_variable U file call node fuel x chain s
    | target hk =>
      dsimp only
      rw [if_pos hk]
      refine (hc s _ (fun e => nomatch e)).bind fun d hd => ?_
      refine Env.frame_assign (mv := true) d.2 x d.1 file fun c e he => ?_
      cases fuel with
      | zero => exact OkThat.deep
      | succ fuel => exact (met_variable U file call node fuel x chain e.2).mono fun q hq => (hq.before (.ofFrame he)).before (.ofFrame hd)
    | subscripted =>
      refine (hc.opt _ s (fun e => nomatch e)).bind fun s1 h1 => ?_
      dsimp only
      cases hk : s1.resolver.getLocal x with
      | none => exact OkThat.ok (.inr ⟨s1, .ofFrame h1, hk, Grown.refl _⟩)
      | some n =>
        refine OkThat.bind (Q := fun s2 : Env => Met file x s1 s2) (fun s2 e => .inl (recorded_refLocal hk e)) fun s2 h2 => ?_
        refine OkThat.bindOption fun sym _ => ?_
        split
        · exact OkThat.ok (h2.before (.ofFrame h1))
        · exact OkThat.ok (h2.before (.ofFrame h1))
    | operand hk hn h =>
      rename_i l r n k
      dsimp only
      rw [if_neg hk]
      rcases List.mem_cons.1 hn with rfl | hn
      · refine (hl s _ h).bind fun p hp => ?_
        exact (hc p.2 r (fun e => nomatch e)).bind fun q hq => OkThat.ok (hp.later (.ofFrame hq))
      · cases List.mem_singleton.1 hn
        refine (hc s l (fun e => nomatch e)).bind fun p hp => ?_
        exact (hl p.2 _ h).bind fun q hq => OkThat.ok (hq.before (.ofFrame hp))
    | assigned hk h =>
      rename_i v k r
      dsimp only
      rw [if_pos hk]
      refine (hl s r h).bind fun d hd => ?_
      refine Env.frame_assign (mv := true) d.2 v d.1 file fun c e he => ?_
      exact (fr _ chain e.2).mono fun q hq => hd.later ((Grown.ofFrame he).trans (.ofFrame hq))
    | arm hn h =>
      rename_i c b n a q k
      dsimp only
      rcases List.mem_cons.1 hn with rfl | hn
      · refine (hl s _ h).bind fun p hp => ?_
        refine OkThat.bind (Q := fun q : Option NodeId × Env => Frame false true p.2 q.2) ?_ fun q hq => ?_
        · cases a with
          | none => exact OkThat.ok (Frame.refl _)
          | some a => exact hc p.2 a (fun e => nomatch e)
        · exact (hc q.2 b (fun e => nomatch e)).bind fun w hw => OkThat.ok (hp.later ((Grown.ofFrame hq).trans (.ofFrame hw)))
      · refine (hc s c (fun e => nomatch e)).bind fun p hp => ?_
        rcases List.mem_append.1 hn with hn | hn
        · obtain rfl : a = some n := by simpa using hn
          refine (hl p.2 _ h).bind fun q hq => ?_
          exact (hc q.2 b (fun e => nomatch e)).bind fun w hw => OkThat.ok ((hq.before (.ofFrame hp)).later (.ofFrame hw))
        · cases List.mem_singleton.1 hn
          refine OkThat.bind (Q := fun q : Option NodeId × Env => Frame false true p.2 q.2) ?_ fun q hq => ?_
          · cases a with
            | none => exact OkThat.ok (Frame.refl _)
            | some a => exact hc p.2 a (fun e => nomatch e)
          · exact (hl q.2 _ h).bind fun w hw => OkThat.ok (hw.before ((Grown.ofFrame hp).trans (.ofFrame hq)))
    | unary h | clone h | new h | grouping h =>
      exact ih _ _ _ (down _ (by simp [Node.children]) h) h
    | member h | static h =>
      exact ih _ _ _ (down _ (by simp [Node.children]) h) h
    | callee h =>
      rename_i n ps ob cb
      refine (hc.each ps (fun e => nomatch e) s).bind fun s' hs' => ?_
      exact (ih _ _ _ (down _ (by simp [Node.children]) h) h).mono fun q hq => hq.before (.ofFrame hs')
    | argument hm h =>
      rename_i n p ps ob cb
      refine (hl.each hc h ps hm s).bind fun s' hs' => ?_
      exact (fr _ chain s').mono fun q hq => hs'.later (.ofFrame hq)
    | element hm h => exact (hl.each hc h _ hm s).bind fun s' hs' => OkThat.ok hs'
    | value h => exact (hl s _ h).bind fun p hp => OkThat.ok hp
    | subscript h =>
      rename_i a i ob cb
      refine (hl.opt h s).bind fun s1 h1 => ?_
      split
      · next c =>
        split
        · exact OkThat.ok h1
        · refine (Env.frame_refLocal (exact := false) (mv := true) s1 file _ _).bind fun s2 h2 => ?_
          refine OkThat.bindOption fun sym _ => ?_
          split
          · exact OkThat.ok (h1.later (.ofFrame h2))
          · exact OkThat.ok (h1.later (.ofFrame h2))
      · exact (fr _ _ s1).mono fun q hq => h1.later (.ofFrame hq)
      · refine (hc.opt _ s1 (fun e => nomatch e)).bind fun s2 h2 => ?_
        exact (fr _ _ s2).mono fun q hq => h1.later ((Grown.ofFrame h2).trans (.ofFrame hq))
      · exact OkThat.ok h1
    | ofMember h =>
      rename_i n l i k ob cb a b
      refine (hc.opt _ s (fun e => nomatch e)).bind fun s1 h1 => ?_
      refine (ih _ _ s1 ?_ h).mono fun q hq => hq.before (.ofFrame h1)
      rcases hup with rfl | hup
      · exact .inr ⟨.member n k a l b, by simp [Node.children], .member h⟩
      · exact .inr hup
    | ofElement h =>
      rename_i n i i' ob cb ob' cb'
      have hup' : ∀ m, m = node ∨ ∃ c ∈ node.children, Uses c x := by
        rcases hup with rfl | hup
        · exact fun m => .inr ⟨_, by simp [Node.children], h⟩
        · exact fun m => .inr hup
      refine (hc.opt _ s (fun e => nomatch e)).bind fun s1 h1 => ?_
      cases h with
      | subscript h =>
        refine (hl.opt h s1).bind fun s2 h2 => ?_
        exact (fr _ _ s2).mono fun q hq => (h2.before (.ofFrame h1)).later (.ofFrame hq)
      | ofMember h =>
        refine (hc.opt _ s1 (fun e => nomatch e)).bind fun s2 h2 => ?_
        refine (ih _ _ s2 (hup' _) (.member h)).mono fun q hq => hq.before ((Grown.ofFrame h1).trans (.ofFrame h2))
      | subscripted =>
        refine (hc.opt _ s1 (fun e => nomatch e)).bind fun s2 h2 => ?_
        exact (ih _ _ s2 (hup' _) .here).mono fun q hq => hq.before ((Grown.ofFrame h1).trans (.ofFrame h2))
      | ofElement h =>
        refine (hc.opt _ s1 (fun e => nomatch e)).bind fun s2 h2 => ?_
        exact (ih _ _ s2 (hup' _) h).mono fun q hq => hq.before ((Grown.ofFrame h1).trans (.ofFrame h2))
      | part ho => cases ho
    | part ho hm h =>
      have hx : ∃ c ∈ node.children, Uses c x := by
        rcases hup with rfl | h
        · exact ⟨_, hm, h⟩
        · exact h
      obtain ⟨x, hx, hxi⟩ := hx
      split <;> first | cases ho; done | skip
      exact (hl.each hc hxi _ hx s).bind fun s' hs' => OkThat.ok hs'

theorem met_memberType (U : Unicode) (H : HashOrder) : ∀ fuel : Nat, MeetsFn file x (Env.memberType U H file fuel)
  | 0 => fun _ _ _ => OkThat.deep
  | fuel + 1 => by
    intro s node hn
    unfold Env.memberType
    refine (met_rootOf U (met_memberType U H fuel) (Env.frame_memberType U H file fuel) node fuel node [] s
      (.inl rfl) hn).bind fun p hp => ?_
    split
    · exact OkThat.ok hp
    · refine OkThat.bindOption fun anc _ => OkThat.bindOption fun top _ => OkThat.bindOption fun f _ => ?_
      split
      · exact OkThat.ok hp
      · exact (Env.frame_links (exact := false) (mv := true) U H file fuel _ _ _ _ p.2).mono fun q hq => hp.later (.ofFrame hq)

/-- A tree with the variable in view is walked through. -/
theorem met_access (U : Unicode) (H : HashOrder) (F : Nat) (k : Token) (n : Node) (parent : NodeId) (s : Env) (h : Access k n) :
    OkThat (fun p : NextAction × Env => Met file k s p.2) (Env.visitName U H file F n parent s) := by
  rcases h with ⟨hch, hu⟩ | ⟨l, op, r, hop, rfl, hu⟩
  · cases n <;> first
      | exact (met_memberType U H F s _ hu).bind fun p hp => OkThat.ok hp
      | cases hch
  · unfold Env.visitName
    dsimp only
    rw [if_pos hop]
    refine OkThat.bind (Q := fun s' : Env => Met file k s s') ?_ fun s' hs' => OkThat.ok hs'
    unfold Env.visitAssignment
    rcases hu with hu | ⟨hu, hne⟩
    · refine (met_memberType U H F s r hu).bind fun d hd => ?_
      split
      · next v =>
        refine Env.frame_assign (mv := true) d.2 v d.1 file fun c e he => ?_
        refine OkThat.bindOption fun repr _ => ?_
        split
        · split
          · refine OkThat.bindOption fun ref _ => OkThat.ok ?_
            refine hd.later (Grown.trans (.ofFrame he) ?_)
            exact ⟨rfl, fun _ => List.prefix_rfl, List.prefix_rfl, .types _ _ (.refl _), fun _ _ h => h⟩
          · exact OkThat.ok (hd.later (.ofFrame he))
        · exact OkThat.ok (hd.later (.ofFrame he))
      · refine (Env.frame_memberType (exact := false) (mv := true) U H file F d.2 l (fun e => nomatch e)).bind fun p hp => ?_
        exact OkThat.ok (hd.later (.ofFrame hp))
    · refine (Env.frame_memberType (exact := false) (mv := true) U H file F s r (fun e => nomatch e)).bind fun d hd => ?_
      split
      · next v => exact absurd rfl (hne v)
      · exact (met_memberType U H F d.2 l hu).bind fun p hp => OkThat.ok (hp.before (.ofFrame hd))

/-! ## The claims -/

/-- What holds of each visit of a tree with a property holds of the walk over a tree in which one is in view, unless one of the
classes around it is not found. -/
theorem walk_reaches (U : Unicode) (H : HashOrder) (file : NodeId) (F : Nat) (leaf : Node → Prop) (P : Env → Env → Prop)
    (hP : ∀ s s1 s2 s', Grown true s s1 → P s1 s2 → Grown true s2 s' → P s s')
    (hleaf : ∀ n parent s, leaf n → s.resolver.localScopes ≠ [] →
      OkThat (fun p : NextAction × Env => P s p.2) (Env.visitName U H file F n parent s)) : ∀ (fuel : Nat)
    (node : Node) (cs : List Token) (parent : NodeId) (s s' : Env), Reaches leaf node cs → s.resolver.localScopes ≠ [] →
    traverse Node.children (Env.nameVisitor U H file F) fuel node parent s = .ok s' →
    P s s' ∨ ∃ c ∈ cs, Answered true file U (.one [c]) none s s'
  | 0, _, _, _, _, _, _, _, hw => nomatch hw
  | fuel + 1, node, cs, parent, s, s', hv, hs, hw => by
    revert s'
    show OkThat _ _
    unfold traverse
    refine OkThat.bind (Q := fun s1 : Env => Grown true s s1 ∧ s1.resolver.localScopes ≠ [])
      (fun s1 e => ⟨grown_before file node parent s s1 e, scopes_before file node parent s hs s1 e⟩) fun s1 h1 => ?_
    obtain ⟨h1, hs1⟩ := h1
    have direct : OkThat (fun p : NextAction × Env => P s1 p.2) (Env.visitName U H file F node parent s1) →
        OkThat (fun s' => P s s' ∨ ∃ c ∈ cs, Answered true file U (.one [c]) none s s') (do
          let r ← (Env.nameVisitor U H file F).visit node parent s1
          let s ← (match r.1 with
            | .abort => pure r.2
            | .processChildren next => node.children.foldlM
              (fun s c => traverse Node.children (Env.nameVisitor U H file F) fuel c next s) r.2)
          (Env.nameVisitor U H file F).after node parent s) := by
      intro h
      refine OkThat.bind h fun p hp => ?_
      refine OkThat.bind (Q := fun s3 : Env => Grown true p.2 s3) ?_ fun s3 h3 => ?_
      · split
        · exact OkThat.ok (Grown.refl _)
        · exact (grown_walks (mv := true) H file F fuel _ _ _ (fun e => nomatch e)).mono fun _ h => .ofWalked h
      · exact (grown_after node parent s3).mono fun s' h' => .inl (hP _ _ _ _ h1 hp (h3.trans h'))
    cases hv with
    | here h => exact direct (hleaf node parent s1 h hs1)
    | part hc hm hin =>
      rename_i x ds
      refine OkThat.bind (Q := fun p : NextAction × Env => ((∃ next, p.1 = .processChildren next) ∨
        ∃ c ∈ classNames node, Answered true file U (.one [c]) none s1 p.2) ∧ Grown true s1 p.2 ∧ p.2.resolver.localScopes ≠ [])
        (fun p hp => ⟨visit_open H file F node parent s1 (.inl rfl) hc p hp,
          grown_visit (mv := true) H file F node parent s1 (fun e => nomatch e) p hp, scopes_visit U H file F node parent s1 hs1 p hp⟩)
        fun p hp => ?_
      obtain ⟨hp, hg, hs2⟩ := hp
      refine OkThat.bind (Q := fun s3 : Env => P s s3 ∨
        ∃ c ∈ classNames node ++ ds, Answered true file U (.one [c]) none s s3) ?_ fun s3 h3 => ?_
      · rcases hp with ⟨next, hn⟩ | ⟨c, hcm, ha⟩
        · rw [hn]
          dsimp only
          obtain ⟨a, b, hab⟩ := List.append_of_mem hm
          rw [hab, List.foldlM_append]
          refine (grown_walks (mv := true) H file F fuel next a p.2 (fun e => nomatch e)).bind fun s4 h4 => ?_
          rw [List.foldlM_cons]
          have hs4 : s4.resolver.localScopes ≠ [] := fun e => hs2 (List.length_eq_zero_iff.1 (by rw [← h4.length, e]; rfl))
          refine OkThat.bind (fun s5 h5 => walk_reaches U H file F leaf P hP hleaf fuel x ds next s4 s5 hin hs4 h5) fun s5 h5 => ?_
          refine (grown_walks (mv := true) H file F fuel next b s5 (fun e => nomatch e)).mono fun s6 h6 => ?_
          have hb := (h1.trans hg).trans (.ofWalked h4)
          have h6 := Grown.ofWalked h6
          rcases h5 with h5 | ⟨c, hcm, h5⟩
          · exact .inl (hP _ _ _ _ hb h5 h6)
          · exact .inr ⟨c, List.mem_append_right _ hcm, (h5.before hb).later h6⟩
        · refine OkThat.mono (P := fun s3 => Grown true p.2 s3) ?_ fun s3 h3 =>
            .inr ⟨c, List.mem_append_left _ hcm, (ha.before h1).later h3⟩
          split
          · exact OkThat.ok (Grown.refl _)
          · exact (grown_walks (mv := true) H file F fuel _ _ _ (fun e => nomatch e)).mono fun _ h => .ofWalked h
      · refine (grown_after (mv := true) node parent s3).mono fun s' h' => ?_
        rcases h3 with h3 | ⟨c, hcm, h3⟩
        · exact .inl (hP _ _ _ _ (Grown.refl _) h3 h')
        · exact .inr ⟨c, hcm, h3.later h'⟩

/-- **C76**: every variable in view is recorded as a use of the symbol that its name stands for at this place, or one of the classes
around it is not found. -/
theorem C76_seen (U : Unicode) (H : HashOrder) (file : NodeId) (F : Nat) (k : Token) (hl : k.label ≠ none) (fuel : Nat)
    (node : Node) (cs : List Token) (parent : NodeId) (s s' : Env) (hv : Reaches (Mention k) node cs)
    (hs : s.resolver.localScopes ≠ []) (hw : traverse Node.children (Env.nameVisitor U H file F) fuel node parent s = .ok s') :
    Recorded file k s s' ∨ ∃ c ∈ cs, Answered true file U (.one [c]) none s s' := by
  refine walk_reaches U H file F (Mention k) (Recorded file k) (fun s s1 s2 s' h1 h2 h3 => (h2.before h1).later h3) ?_ fuel node cs
    parent s s' hv hs hw
  rintro n parent s (rfl | ⟨op, r, hop, ht, rfl⟩) hs
  · exact recorded_variable U H file F k parent s hl hs
  · unfold Env.visitName
    dsimp only
    rw [if_pos hop]
    exact (recorded_assignment U H file F k _ s ht).bind fun p hp => OkThat.ok hp

/-- **C76 for expressions**: every variable in view in a member access or in an assignment is recorded as a use of the symbol that
its name stands for at this place, or it stands for nothing there, or one of the classes around it is not found. -/
theorem C76_accessed (U : Unicode) (H : HashOrder) (file : NodeId) (F : Nat) (k : Token) (fuel : Nat)
    (node : Node) (cs : List Token) (parent : NodeId) (s s' : Env) (hv : Reaches (Access k) node cs)
    (hs : s.resolver.localScopes ≠ []) (hw : traverse Node.children (Env.nameVisitor U H file F) fuel node parent s = .ok s') :
    Recorded file k s s' ∨ Unknown k s s' ∨ ∃ c ∈ cs, Answered true file U (.one [c]) none s s' := by
  rcases walk_reaches U H file F (Access k) (Met file k) (fun s s1 s2 s' h1 h2 h3 => (h2.before h1).later h3)
    (fun n parent s h _ => met_access U H F k n parent s h) fuel node cs parent s s' hv hs hw with (h | h) | h
  · exact .inl h
  · exact .inr (.inl h)
  · exact .inr (.inr h)

/-- What is recorded is kept. -/
theorem kept_of_recorded {file : NodeId} {k : Token} {s e : Env} (h : Recorded file k s e) :
    ∃ range sym ranges, k.range = some range ∧ Dict.get? (Backend.groupRefs (e.resolver.refsOf file)) sym = some ranges ∧
      range ∈ ranges := by
  obtain ⟨_, range, sym, _, _, h1, h2, h3⟩ := h
  have hm := (h3.refs file).subset h2
  have hf : (⟨range, sym⟩ : NameRef) ∈ (e.resolver.refsOf file).filter fun r => decide (r.node = sym) :=
    List.mem_filter.2 ⟨hm, by simp⟩
  refine ⟨range, sym, ((e.resolver.refsOf file).filter fun r => decide (r.node = sym)).map (·.range), h1, ?_,
    List.mem_map.2 ⟨_, hf, rfl⟩⟩
  rw [C38_grouped, if_neg]
  intro h0
  rw [List.isEmpty_iff.1 h0] at hf
  cases hf

/-- **C76 for a file**: when the names of a file are resolved, the references that are kept for it have the place of every variable
in view, unless the name of a class around it is looked up and not found; for a variable in view in a member access or in an
assignment this holds unless its name stands for nothing there. -/
theorem C76_file (h : Host) (path : Text) (ast : List Node) (st st' : Backend) (refs : FileRefs)
    (hr : Backend.resolveFile h path ast st = .ok (some refs, st')) :
    ∃ (file : NodeId) (s s' : Env), Dict.get? st.files path = some file ∧ s.resolver.globalScope = st.globals ∧
      refs = Backend.groupRefs (s'.resolver.refsOf file) ∧
      ∀ (n : Node) (cs : List Token) (k : Token), n ∈ ast →
        (Reaches (Mention k) n cs → k.label ≠ none →
          (Recorded file k s s' ∧ ∃ range sym ranges, k.range = some range ∧ Dict.get? refs sym = some ranges ∧ range ∈ ranges) ∨
            ∃ c ∈ cs, Answered true file h.U (.one [c]) none s s') ∧
        (Reaches (Access k) n cs →
          (Recorded file k s s' ∧ ∃ range sym ranges, k.range = some range ∧ Dict.get? refs sym = some ranges ∧ range ∈ ranges) ∨
            Unknown k s s' ∨ ∃ c ∈ cs, Answered true file h.U (.one [c]) none s s') := by
  unfold Backend.resolveFile at hr
  split at hr
  · cases hr
  · next file hfile =>
    obtain ⟨a, ha, hr⟩ := Out.bind_eq_ok hr
    obtain ⟨e, he, hr⟩ := Out.bind_eq_ok hr
    injection hr with hr
    injection hr with hr1 hr2
    injection hr1 with hr1
    refine ⟨file, Env.mk a (Resolver.new st.globals file), e, hfile, rfl, hr1.symm, ?_⟩
    intro n cs k hn
    obtain ⟨l1, l2, hl12⟩ := List.append_of_mem hn
    rw [hl12, List.foldlM_append] at he
    obtain ⟨e1, he1, he⟩ := Out.bind_eq_ok he
    rw [List.foldlM_cons] at he
    obtain ⟨e2, he2, he⟩ := Out.bind_eq_ok he
    have w1 := grown_walks (mv := true) h.H file h.fuel h.fuel file l1 _ (fun e => nomatch e) e1 he1
    have g1 := Grown.ofWalked w1
    have g2 := Grown.ofWalked (grown_walks (mv := true) h.H file h.fuel h.fuel file l2 _ (fun e => nomatch e) e he)
    have hs : e1.resolver.localScopes ≠ [] := fun h0 => by
      have := w1.length
      rw [h0] at this
      cases this
    constructor
    · intro hv hl
      rcases C76_seen h.U h.H file h.fuel k hl h.fuel n cs file e1 e2 hv hs he2 with hl | ⟨c, hc, hl⟩
      · have hl := (hl.before g1).later g2
        exact .inl ⟨hl, hr1 ▸ kept_of_recorded hl⟩
      · exact .inr ⟨c, hc, (hl.before g1).later g2⟩
    · intro hv
      rcases C76_accessed h.U h.H file h.fuel k h.fuel n cs file e1 e2 hv hs he2 with hl | hl | ⟨c, hc, hl⟩
      · have hl := (hl.before g1).later g2
        exact .inl ⟨hl, hr1 ▸ kept_of_recorded hl⟩
      · obtain ⟨a, h1, h2, h3⟩ := hl
        exact .inr (.inl ⟨a, g1.trans h1, h2, h3.trans g2⟩)
      · exact .inr (.inr ⟨c, hc, (hl.before g1).later g2⟩)

/-- The references that a state keeps for a file are those of a walk over the tree, in which every variable in view is recorded, or
the name of a class around it is looked up and not found, or (in an access or an assignment) its name stands for nothing. -/
def UsesKept (h : Host) (path : Text) (ast : List Node) (st : Backend) : Prop :=
  ∃ (file : NodeId) (s s' : Env) (refs : FileRefs), Dict.get? st.files path = some file ∧ s.resolver.globalScope = st.globals ∧
    Dict.get? st.references path = some refs ∧ refs = Backend.groupRefs (s'.resolver.refsOf file) ∧
    ∀ (n : Node) (cs : List Token) (k : Token), n ∈ ast →
      (Reaches (Mention k) n cs → k.label ≠ none →
        (Recorded file k s s' ∧ ∃ range sym ranges, k.range = some range ∧ Dict.get? refs sym = some ranges ∧ range ∈ ranges) ∨
          ∃ c ∈ cs, Answered true file h.U (.one [c]) none s s') ∧
      (Reaches (Access k) n cs →
        (Recorded file k s s' ∧ ∃ range sym ranges, k.range = some range ∧ Dict.get? refs sym = some ranges ∧ range ∈ ranges) ∨
          Unknown k s s' ∨ ∃ c ∈ cs, Answered true file h.U (.one [c]) none s s')

/-- What stays when the references of a file are collected. -/
theorem collectReferences_rest (h : Host) (path : Text) (ast : List Node) (st : Backend) :
    OkThat (fun st' : Backend => st'.files = st.files ∧ st'.globals = st.globals ∧
      ∀ q, q ≠ path → Dict.get? st'.references q = Dict.get? st.references q) (Backend.collectReferences h path ast st) := by
  unfold Backend.collectReferences
  refine OkThat.bind (Q := fun p : Option FileRefs × Backend => p.2.files = st.files ∧ p.2.globals = st.globals ∧
    p.2.references = st.references) ?_ fun p hp => ?_
  · unfold Backend.resolveFile
    split
    · exact OkThat.ok ⟨rfl, rfl, rfl⟩
    · exact (OkThat.any _).bind fun _ _ => (OkThat.any _).bind fun _ _ => OkThat.ok ⟨rfl, rfl, rfl⟩
  · split
    · refine OkThat.ok ⟨hp.1, hp.2.1, fun q hq => ?_⟩
      show Dict.get? (Dict.insert _ _ _) _ = _
      rw [Dict.get?_insert, if_neg (Ne.symm hq), hp.2.2]
    · exact OkThat.ok ⟨hp.1, hp.2.1, fun q _ => by rw [hp.2.2]⟩

/-- The references of a known file are collected. -/
theorem kept_collect (h : Host) (path : Text) (ast : List Node) (st st' : Backend) (file : NodeId)
    (hf : Dict.get? st.files path = some file) (e : Backend.collectReferences h path ast st = .ok st') : UsesKept h path ast st' := by
  obtain ⟨h1, h2, _⟩ := collectReferences_rest h path ast st st' e
  unfold Backend.collectReferences at e
  obtain ⟨⟨o, st1⟩, hp, e⟩ := Out.bind_eq_ok e
  cases o with
  | none =>
    unfold Backend.resolveFile at hp
    rw [hf] at hp
    dsimp only at hp
    obtain ⟨_, _, hp⟩ := Out.bind_eq_ok hp
    obtain ⟨_, _, hp⟩ := Out.bind_eq_ok hp
    injection hp with hp
    injection hp with hp
    cases hp
  | some refs =>
    obtain ⟨file', s, s', g1, g2, g3, g4⟩ := C76_file h path ast st st1 refs hp
    injection e with e
    refine ⟨file', s, s', refs, by rw [h1]; exact g1, by rw [h2]; exact g2, ?_, g3, g4⟩
    rw [← e]
    show Dict.get? (Dict.insert _ _ _) _ = _
    rw [Dict.get?_insert, if_pos rfl]

theorem kept_other {h : Host} {path q : Text} {ast tree : List Node} {st st' : Backend} (hk : UsesKept h path ast st) (hq : path ≠ q)
    (e : Backend.collectReferences h q tree st = .ok st') : UsesKept h path ast st' := by
  obtain ⟨h1, h2, h3⟩ := collectReferences_rest h q tree st st' e
  obtain ⟨file, s, s', refs, g1, g2, g3, g4⟩ := hk
  exact ⟨file, s, s', refs, by rw [h1]; exact g1, by rw [h2]; exact g2, by rw [h3 path hq]; exact g3, g4⟩

/-- **C76 for a file that is opened**: once an indexed file is opened, the state keeps the places of the variables in view of its text
on the disk. -/
theorem C76_open (h : Host) (path source : Text) (st st' : Backend) (file : NodeId) (hfile : Dict.get? st.files path = some file)
    (hnew : Dict.get? st.opened path = none) (e : Backend.didOpen h path (some source) st = .ok st') (ast : List Node)
    (range : LspRange) (errors : List Parser.Err) (ht : Backend.sourceToAst h source = .ok (some (ast, range, errors))) :
    UsesKept h path ast st' := by
  unfold Backend.didOpen at e
  obtain ⟨s, hsrc, e⟩ := Out.bind_eq_ok e
  cases hsrc
  dsimp only at e
  rw [hnew] at e
  dsimp only at e
  obtain ⟨parsed, hparsed, e⟩ := Out.bind_eq_ok e
  rw [ht] at hparsed
  cases hparsed
  obtain ⟨ds, _, e⟩ := Out.bind_eq_ok e
  exact kept_collect h path ast _ st' file (by exact hfile) e

theorem kept_refresh {h : Host} {path : Text} {ast : List Node} {range : LspRange} : ∀ (l : List (Text × List Node × LspRange))
    (st st' : Backend), (∀ x ∈ l, x.1 = path → x = (path, ast, range)) → Dict.get? st.files path ≠ none →
    ((path, ast, range) ∈ l ∨ UsesKept h path ast st) →
    l.foldlM (fun st e => Backend.collectReferences h e.1 e.2.1 st) st = .ok st' → UsesKept h path ast st'
  | [], st, st', _, _, hk, e => by
    cases e
    rcases hk with hk | hk
    · cases hk
    · exact hk
  | x :: l, st, st', hl, hf, hk, e => by
    rw [List.foldlM_cons] at e
    obtain ⟨st1, h1, e⟩ := Out.bind_eq_ok e
    have hf' : Dict.get? st1.files path ≠ none := by
      rw [(collectReferences_rest h x.1 x.2.1 st st1 h1).1]
      exact hf
    refine kept_refresh l st1 st' (fun y hy => hl y (List.mem_cons_of_mem _ hy)) hf' ?_ e
    by_cases hx : x.1 = path
    · have := hl x List.mem_cons_self hx
      subst this
      cases hg : Dict.get? st.files path with
      | none => exact absurd hg hf
      | some file => exact .inr (kept_collect h path ast st st1 file hg h1)
    · rcases hk with hk | hk
      · rcases List.mem_cons.1 hk with rfl | hk
        · exact absurd rfl hx
        · exact .inl hk
      · exact .inr (kept_other hk (Ne.symm hx) h1)

/-- **C76 for a file that is changed**: once a file has a new text that can be scanned, the state keeps the places of the variables in
view of this text, whatever the other open files are and whichever order they are visited in. -/
theorem C76_change (h : Host) (path text : Text) (more : List Text) (st st' : Backend)
    (e : Backend.didChange h path (text :: more) st = .ok st') (ast : List Node) (range : LspRange) (errors : List Parser.Err)
    (ht : Backend.sourceToAst h text = .ok (some (ast, range, errors))) : UsesKept h path ast st' := by
  unfold Backend.didChange Backend.refreshFile at e
  obtain ⟨p, h1, e⟩ := Out.bind_eq_ok e
  rw [ht] at h1
  cases h1
  obtain ⟨st1, h1, e⟩ := Out.bind_eq_ok e
  dsimp only at h1
  obtain ⟨st0, h0, h1⟩ := Out.bind_eq_ok h1
  obtain ⟨ds, h2, h1⟩ := Out.bind_eq_ok h1
  cases h1
  refine kept_refresh (range := range) _ _ st' ?_ ?_ (.inl ((h.H.perm _).mem_iff.2 List.mem_cons_self)) e
  · intro x hx hxp
    rcases List.mem_cons.1 ((h.H.perm _).mem_iff.1 hx) with hx | hx
    · exact hx
    · have := (List.mem_filter.1 hx).2
      simp [hxp] at this
  · have hfiles : OkThat (fun s : Backend => Dict.get? s.files path ≠ none)
        (Backend.collectSymbols h path ast range { st with latest := Dict.insert st.latest path text }) := by
      unfold Backend.collectSymbols
      refine (OkThat.any _).bind fun c _ => ?_
      refine OkThat.bind (Q := fun s : Backend => Dict.get? s.files path ≠ none) ?_ fun s hs =>
        OkThat.bindOption fun kids _ => OkThat.ok hs
      split
      · unfold Backend.dropFile
        refine OkThat.bindOption fun _ _ => OkThat.bindOption fun _ _ => OkThat.ok ?_
        rw [Dict.get?_insert, if_pos rfl]
        exact fun h => nomatch h
      · refine OkThat.ok ?_
        rw [Dict.get?_insert, if_pos rfl]
        exact fun h => nomatch h
    exact hfiles st0 h0

/-! ## A concrete case -/

/-- The trees in view, with the names of the classes around them. -/
def inView : Nat → Node → List (Node × List Token)
  | 0, _ => []
  | fuel + 1, n => (n, []) :: if closed n = false then
      n.children.flatMap fun c => (inView fuel c).map fun x => (x.1, classNames n ++ x.2) else []

theorem inView_sound {leaf : Node → Prop} : ∀ (fuel : Nat) (n m : Node) (cs : List Token), (m, cs) ∈ inView fuel n → leaf m →
    Reaches leaf n cs
  | 0, _, _, _, h, _ => nomatch h
  | fuel + 1, n, m, cs, h, hm => by
    unfold inView at h
    rcases List.mem_cons.1 h with h | h
    · cases h
      exact .here hm
    · split at h
      · next hc =>
        obtain ⟨c, hcm, h⟩ := List.mem_flatMap.1 h
        obtain ⟨x, hx, h⟩ := List.mem_map.1 h
        cases h
        exact .part hc hcm (inView_sound fuel c x.1 x.2 hx hm)
      · cases h

/-- Some of the variables in view in an expression. -/
def usesOf : Node → List Token
  | .variable x => [x]
  | .member n _ _ _ _ => usesOf n
  | .field (.variable x) _ _ _ => [x]
  | .call n _ ps _ => usesOf n ++ ps.flatMap fun
    | .variable x => [x]
    | _ => []
  | _ => []

theorem usesOf_sound : ∀ (n : Node) (x : Token), x ∈ usesOf n → Uses n x
  | n, x, h => by
    unfold usesOf at h
    split at h
    · cases List.mem_singleton.1 h
      exact .here
    · exact .member (usesOf_sound _ _ h)
    · cases List.mem_singleton.1 h
      exact .subscripted
    · rcases List.mem_append.1 h with h | h
      · exact .callee (usesOf_sound _ _ h)
      · obtain ⟨p, hp, h⟩ := List.mem_flatMap.1 h
        split at h
        · cases List.mem_singleton.1 h
          exact .argument hp .here
        · cases h
    · cases h
termination_by n => n

/-- The variables in view, directly and in accesses and assignments. -/
def mentionsOf (n : Node) : List Token :=
  match n with
  | .variable k => [k]
  | .binary (.variable k) op _ => if op.t = .assignment ∧ k.label ≠ some c!"this" then [k] else []
  | _ => []

def accessesOf (n : Node) : List Token :=
  match n with
  | .binary _ op r => if op.t = .assignment then usesOf r else []
  | n => if n.isChain then usesOf n else []

theorem mentionsOf_sound {n : Node} {k : Token} (h : k ∈ mentionsOf n) : Mention k n := by
  unfold mentionsOf at h
  split at h
  · cases List.mem_singleton.1 h
    exact .inl rfl
  · split at h
    · next hc =>
      cases List.mem_singleton.1 h
      exact .inr ⟨_, _, hc.1, hc.2, rfl⟩
    · cases h
  · cases h

theorem accessesOf_sound {n : Node} {k : Token} (h : k ∈ accessesOf n) : Access k n := by
  unfold accessesOf at h
  split at h
  · split at h
    · next hc => exact .inr ⟨_, _, _, hc, rfl, .inl (usesOf_sound _ _ h)⟩
    · cases h
  · split at h
    · next hc => exact .inl ⟨hc, usesOf_sound _ _ h⟩
    · cases h

private abbrev source : Text := c!"<?php class A { function f($a) { $b = $a; return g($a->x($b), $b[0]); } } $y; $z = $y[0];"

private def places (f : Node → List Token) : List (List Text × Text × Nat) :=
  (treeOf source).flatMap fun n => (inView 30 n).flatMap fun x =>
    (f x.1).map fun k => (x.2.filterMap (·.label), k.label.getD [], k.col)

/-- The variables in view by their columns, with the classes around them: each of them is recorded. -/
example :
    places mentionsOf = [([c!"A"], c!"b", 33), ([c!"A"], c!"b", 57), ([c!"A"], c!"b", 62), ([], c!"y", 74), ([], c!"z", 78)] ∧
    places accessesOf = [([c!"A"], c!"a", 38), ([c!"A"], c!"a", 51), ([], c!"y", 83)] ∧
    referencedIn c!"a" (startAndOpen [(c!"a", source)] c!"a") =
      [(c!"z", [(78, 80)]), (c!"y", [(74, 76), (83, 85)]), (c!"b", [(33, 35), (57, 59), (62, 64)]),
        (c!"a", [(27, 29), (38, 40), (51, 53)]), (c!"f", [(25, 26)]), (c!"A", [(12, 13)])] := by
  decide +kernel

/-- A file is changed while another one is open: the variables of the new text are kept for it, those of the other file for the
other. -/
example :
    (let st := do
      let st ← startAndOpen [(c!"a", c!"<?php $u;"), (c!"b", c!"<?php function f($v) { return $v; }")] c!"b"
      Backend.didChange plainHost c!"a" [c!"<?php $u = 1; f($w); $u->x;"] st
    (referencedIn c!"a" st, referencedIn c!"b" st)) =
      ([(c!"u", [(6, 8), (21, 23)]), (c!"f", [(14, 15)]), (c!"w", [(16, 18)])], [(c!"v", [(17, 19), (30, 32)]), (c!"f", [(15, 16)])]) := by
  decide +kernel

/-! ## Where it fails -/

/-- **C76 fails before a variable is declared:** `$q->a` is not recorded when nothing is known of `$q`, and the next use is. -/
theorem C76_violated_undeclared :
    referencedIn c!"a" (startAndOpen [(c!"a", c!"<?php function f() { $q->a; $q; }")] c!"a") =
      [(c!"q", [(28, 30)]), (c!"f", [(15, 16)])] := by
  decide +kernel

/-- **C76 fails for closures:** the parameter of a closure on the right side of an assignment is not recorded, and its use is recorded
as a use of the variable of the function around it; the variables behind `use` are not recorded. -/
theorem C76_violated_closure :
    referencedIn c!"a" (startAndOpen [(c!"a", c!"<?php function f($a) { $x = function ($a) { return $a; }; return $a; }")] c!"a") =
      [(c!"a", [(17, 19), (51, 53), (65, 67)]), (c!"x", [(23, 25)]), (c!"f", [(15, 16)])] ∧
    referencedIn c!"a" (startAndOpen [(c!"a", c!"<?php function f($a) { return function () use ($a) { return $a; }; }")] c!"a") =
      [(c!"a", [(17, 19), (60, 62)]), (c!"f", [(15, 16)])] := by
  decide +kernel

/-- **C76 fails for variables that are not in view:** keys of arrays on the right side of an assignment, names of members, strings and
the variable of a `catch`. -/
theorem C76_violated_hidden :
    referencedIn c!"a" (startAndOpen [(c!"a", c!"<?php function f($a) { $x = [$a => 1]; $x->{$a}; \"{$a}\"; }")] c!"a") =
      [(c!"x", [(23, 25), (39, 41)]), (c!"a", [(17, 19)]), (c!"f", [(15, 16)])] ∧
    referencedIn c!"a" (startAndOpen [(c!"a", c!"<?php try { } catch (E $e) { $e; }")] c!"a") = [(c!"e", [(29, 31)])] := by
  decide +kernel

end PhpLs.Linked
