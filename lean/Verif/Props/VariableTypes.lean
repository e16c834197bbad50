import Verif.Props.MemberAccess
import Verif.ResolveLive

/-!
# C75: what is known about the type of a variable

An assignment, a loop and a `@var` comment tell something about the type of a variable.  What is known of a variable is stated
here as the list of data types of the symbol that the innermost scope gives its name (`known`).
-/

namespace PhpLs.Env

open Out Resolver

/-! ## Specification -/

/-- The symbol that the name of a variable stands for: the one of the innermost scope. -/
def stands (s : Env) (name : Text) : Option NodeId := s.resolver.localScopes.head?.bind fun top => Dict.get? top name

/-- What is known of the type of a variable. -/
def known (s : Env) (name : Text) : List SymRef :=
  ((s.stands name).bind fun n => s.arena.get? n).elim [] fun x => x.dataTypes

/-- Between two states only the variable `name` has changed: it stands for what it stood for if it stood for something, all
other names of all scopes stand for what they stood for, and all other symbols are as they were. -/
structure Only (name : Text) (s s' : Env) : Prop where
  stays : ∀ n, s.stands name = some n → s'.stands name = some n
  names : ∀ other, other ≠ name → s'.stands other = s.stands other
  outer : s'.resolver.localScopes.tail = s.resolver.localScopes.tail
  symbols : ∀ n, s.arena.Live n → s.stands name ≠ some n → s'.arena.get? n = s.arena.get? n

/-- The place of the token is recorded as a use of the variable. -/
def Used (file : NodeId) (token : Token) (name : Text) (s : Env) : Prop :=
  ∃ n range, s.stands name = some n ∧ token.range = some range ∧ ⟨range, n⟩ ∈ s.resolver.refsOf file

/-! ## Lemmas -/

theorem get?_addChild_old {a : Arena Symbol} (ha : a.Ok) {p : NodeId} {x : Symbol} (hp : a.get? p = some x) (v : Symbol) {n : NodeId}
    (hn : a.Live n) : (a.addChild p v).2.get? n = a.get? n := by
  obtain ⟨p', q, e, hp⟩ := Arena.has_of_get? hp
  obtain ⟨w, hw, _⟩ := Arena.live_get? ha hn
  obtain ⟨j, r, ej, hj⟩ := Arena.has_of_get? hw
  have hi : (p.idx) ∈ a.forest.idxs := by
    rw [← e, ← Forest.flatUp_idxs none]
    exact List.mem_map.2 ⟨_, hp, rfl⟩
  have h2 := ((Arena.has_addChild ha hp e v j w r).2 (.inl hj)).get? (Arena.ok_addChild ha hi v)
  rw [hw, ← h2]
  unfold Arena.get?
  rw [ej]

theorem get?_addChild_new {a : Arena Symbol} (ha : a.Ok) {p : NodeId} {x : Symbol} (hp : a.get? p = some x) (v : Symbol) :
    (a.addChild p v).2.get? (a.addChild p v).1 = some v := by
  obtain ⟨p', q, e, hp⟩ := Arena.has_of_get? hp
  have hi : (p.idx) ∈ a.forest.idxs := by
    rw [← e, ← Forest.flatUp_idxs none]
    exact List.mem_map.2 ⟨_, hp, rfl⟩
  exact ((Arena.has_addChild ha hp e v _ v _).2 (.inr ⟨rfl, rfl, rfl⟩)).get? (Arena.ok_addChild ha hi v)

theorem get?_modify_self {a : Arena Symbol} (ha : a.Ok) {n : NodeId} {x : Symbol} (hn : a.get? n = some x) (u : Symbol → Symbol) :
    (a.modify n u).get? n = some (u x) := by
  obtain ⟨j, q, e, h⟩ := Arena.has_of_get? hn
  have := ((Arena.has_modify ha n u j (u x) q).2 ⟨x, h, by rw [if_pos e]⟩).get? (Arena.ok_modify ha n u)
  unfold Arena.get? at this ⊢
  rwa [e] at this

theorem get?_modify_other {a : Arena Symbol} (ha : a.Ok) {n m : NodeId} {x : Symbol} (hm : a.get? m = some x) (u : Symbol → Symbol)
    (hne : m.idx ≠ n.idx) : (a.modify n u).get? m = some x := by
  obtain ⟨j, q, e, h⟩ := Arena.has_of_get? hm
  have := ((Arena.has_modify ha n u j x q).2 ⟨x, h, by rw [if_neg (by rw [e]; exact hne)]⟩).get? (Arena.ok_modify ha n u)
  unfold Arena.get? at this ⊢
  rwa [e] at this

/-- Nodes that are there and have the same slot are the same. -/
theorem live_idx {a : Arena Symbol} (ha : a.Ok) {n m : NodeId} (hn : a.Live n) (hm : a.Live m) (e : n.idx = m.idx) : n = m := by
  obtain ⟨v, hv⟩ := Forest.mem_ids.1 hn
  obtain ⟨w, hw⟩ := Forest.mem_ids.1 hm
  exact (Forest.flat_unique ha.forest hv hw e).1

theorem stands_live {s : Env} (h : s.Lives) {name : Text} {n : NodeId} (e : s.stands name = some n) : s.arena.Live n := by
  unfold stands at e
  cases hs : s.resolver.localScopes with
  | nil => rw [hs] at e; cases e
  | cons top rest =>
    rw [hs] at e
    exact h.resolver.scopes top (by rw [hs]; exact List.mem_cons_self ..) _ (Dict.get?_mem e)

theorem mem_reference (r : Resolver) (file : NodeId) (x : NameRef) : x ∈ (r.reference file x).refsOf file := by
  simp [Resolver.reference, Resolver.refsOf, Dict.get?_insert]

/-- Declaring a variable: it stands for the symbol it stood for, or for the new one. -/
theorem declared {s : Env} (h : s.Lives) {sym : Symbol} {c : NodeId × Env} {file : NodeId} {v : Token} {p : Option NodeId × Env}
    {repr : NodeId} (hc : s.addVar sym = .ok c) (hp : c.2.declareNew file v c.1 = .ok p) (hr : p.1 = some repr) :
    ∃ label, v.label = some label ∧ p.2.stands label = some repr ∧ Used file v label p.2 ∧ Only label s p.2 ∧ p.2.Lives ∧
      ((s.stands label = some repr ∧ repr ≠ c.1 ∧ p.2.arena.get? repr = s.arena.get? repr) ∨
        (s.stands label = none ∧ repr = c.1 ∧ p.2.arena.get? repr = some sym)) := by
  have hup := (up_addVar h sym) c hc
  have hlive := (up_declareNew hup.1.lives file v hup.2) p hp
  unfold addVar at hc
  obtain ⟨x, hx, hc⟩ := Out.bind_eq_ok hc
  have hx := Out.ofOption_ok hx
  cases hc
  have hfresh : ∀ n, s.arena.Live n → n ≠ (s.arena.addChild s.resolver.scopeContainer sym).1 := by
    intro n hn e
    have h1 : n.idx ∈ s.arena.forest.idxs := by
      obtain ⟨w, hw⟩ := Forest.mem_ids.1 hn
      exact List.mem_map.2 ⟨_, hw, rfl⟩
    rw [e] at h1
    exact Arena.fresh_notMem h.arena h1
  unfold declareNew Resolver.declareLocalIfNew at hp
  obtain ⟨q, hq, hp⟩ := Out.bind_eq_ok hp
  cases hp
  dsimp only at hq hr
  split at hq
  · cases hq; cases hr
  · cases hq; cases hr
  · next top rest name h1 h2 =>
    have hst : ∀ l, s.stands l = Dict.get? top l := fun l => by simp only [stands, h1]; rfl
    refine ⟨name, h2, ?_⟩
    split at hq
    · next node hnode =>
      obtain ⟨range, hrange, hq⟩ := Out.bind_eq_ok hq
      have hrange := Out.ofOption_ok hrange
      cases hq
      cases hr
      have hl := stands_live h ((hst name).trans hnode)
      have h3 : ∀ l r, stands { s with resolver := (s.resolver.reference file r), arena := (s.arena.addChild s.resolver.scopeContainer sym).2 } l = s.stands l := fun l r => rfl
      refine ⟨(h3 ..).trans ((hst name).trans hnode), ⟨_, range, (h3 ..).trans ((hst name).trans hnode), hrange, mem_reference ..⟩,
        ⟨fun n hn => (h3 ..).trans hn, fun o _ => h3 .., rfl, fun n hn _ => get?_addChild_old h.arena hx sym hn⟩, hlive.1.lives,
        .inl ⟨(hst name).trans hnode, hfresh _ hl, get?_addChild_old h.arena hx sym hl⟩⟩
    · next hnode =>
      obtain ⟨r1, hr1, hq⟩ := Out.bind_eq_ok hq
      unfold Resolver.referenceLocal at hr1
      obtain ⟨range, hrange, hr1⟩ := Out.bind_eq_ok hr1
      have hrange := Out.ofOption_ok hrange
      cases hr1
      cases hq
      cases hr
      have h3 : ∀ l, stands { s with resolver := Resolver.reference { s.resolver with localScopes := Dict.insert top name (s.arena.addChild s.resolver.scopeContainer sym).1 :: rest } file ⟨range, (s.arena.addChild s.resolver.scopeContainer sym).1⟩, arena := (s.arena.addChild s.resolver.scopeContainer sym).2 } l = if name = l then some (s.arena.addChild s.resolver.scopeContainer sym).1 else s.stands l := by
        intro l
        rw [hst l, ← Dict.get?_insert]
        rfl
      have hnone := (hst name).trans hnode
      have hs := (h3 name).trans (if_pos rfl)
      refine ⟨hs, ⟨_, range, hs, hrange, mem_reference ..⟩,
        ⟨fun n hn => (nomatch hnone.symm.trans hn), fun o ho => (h3 o).trans (if_neg (Ne.symm ho)), ?_, fun n hn _ => get?_addChild_old h.arena hx sym hn⟩, hlive.1.lives,
        .inr ⟨hnone, rfl, get?_addChild_new h.arena hx sym⟩⟩
      simp [Resolver.reference, h1]

theorem assigned_types {v : Token} {d : Option NodeId} {sym : Symbol} (h : assigned v d = .ok sym) :
    sym.dataTypes.map (·.node) = d.toList.map some := by
  unfold assigned at h
  cases d with
  | none =>
    have h := Out.ofOption_ok h
    unfold Symbol.ofToken at h
    simp only [Option.bind_eq_bind, Option.bind_eq_some_iff, Option.pure_def, Option.some.injEq] at h
    obtain ⟨_, _, _, _, rfl⟩ := h
    rfl
  | some d =>
    obtain ⟨r, hr, h⟩ := Out.bind_eq_ok h
    obtain ⟨w, hw, h⟩ := Out.bind_eq_ok h
    cases h
    have hr := Out.ofOption_ok hr
    unfold SymRef.toNode at hr
    simp only [Option.bind_eq_bind, Option.bind_eq_some_iff, Option.pure_def, Option.some.injEq] at hr
    obtain ⟨_, _, rfl⟩ := hr
    rfl

theorem toNode_node {t : TypeRef} {n : NodeId} {r : SymRef} (h : SymRef.toNode t n = some r) : r.node = some n := by
  unfold SymRef.toNode at h
  simp only [Option.bind_eq_bind, Option.bind_eq_some_iff, Option.pure_def, Option.some.injEq] at h
  obtain ⟨_, _, rfl⟩ := h
  rfl

theorem known_of {s : Env} {name : Text} {n : NodeId} {x : Symbol} (h : s.stands name = some n) (hx : s.arena.get? n = some x) :
    s.known name = x.dataTypes := by
  simp [known, h, hx]

theorem known_none {s : Env} {name : Text} (h : s.stands name = none) : s.known name = [] := by
  simp [known, h]

/-! ## Assignments -/

/-- **C75, assignments.** After `$v = value` the class of the value, if the value has one, is known of the variable, behind what
was known before; the place is recorded as a use of the variable; nothing else changes: no other variable of this or an outer
scope stands for something else, and no other symbol is altered. -/
theorem C75_assignment (U : Unicode) (H : HashOrder) (file : NodeId) (fuel : Nat) (v : Token) (right : Node) (s s' : Env)
    (h : s.Lives) (e : visitAssignment U H file fuel (.variable v) right s = .ok s') :
    ∃ d s₁ label new, memberType U H file fuel s right = .ok (d, s₁) ∧ v.label = some label ∧
      s'.known label = s₁.known label ++ new ∧ new.map (·.node) = d.toList.map some ∧
      Only label s₁ s' ∧ Used file v label s' := by
  unfold visitAssignment at e
  obtain ⟨⟨d, s₁⟩, hd, e⟩ := Out.bind_eq_ok e
  have h1 := (up_memberType U H file fuel s right h) _ hd
  dsimp only at e
  obtain ⟨sym, hsym, e⟩ := Out.bind_eq_ok e
  obtain ⟨c, hc, e⟩ := Out.bind_eq_ok e
  obtain ⟨p, hp, e⟩ := Out.bind_eq_ok e
  obtain ⟨repr, hr, e⟩ := Out.bind_eq_ok e
  have hr := Out.ofOption_ok hr
  obtain ⟨label, hl, hst, hu, ho, hlive, hcase⟩ := declared h1.lives hc hp hr
  have ht := assigned_types hsym
  rcases hcase with ⟨hs, hne, hg⟩ | ⟨hs, rfl, hg⟩
  · obtain ⟨x, hx, _⟩ := Arena.live_get? h1.lives.arena (stands_live h1.lives hs)
    cases d with
    | none =>
      cases e
      exact ⟨none, s₁, label, [], hd, hl, by rw [known_of hst (hg.trans hx), known_of hs hx, List.append_nil], rfl, ho, hu⟩
    | some dt =>
      dsimp only at e
      rw [if_pos hne] at e
      obtain ⟨ref, href, e⟩ := Out.bind_eq_ok e
      cases e
      refine ⟨some dt, s₁, label, [ref], hd, hl, ?_, ?_, ⟨ho.stays, ho.names, ho.outer, ?_⟩, hu⟩
      · rw [known_of hs hx]
        exact known_of (s := { p.2 with arena := p.2.arena.modify repr fun x => { x with dataTypes := x.dataTypes ++ [ref] } }) hst (get?_modify_self hlive.arena (hg.trans hx) _)
      · simp [toNode_node (Out.ofOption_ok href)]
      · intro n hn hns
        obtain ⟨y, hy, _⟩ := Arena.live_get? h1.lives.arena hn
        rw [← ho.symbols n hn hns]
        rw [← ho.symbols n hn hns] at hy
        rw [hy]
        refine get?_modify_other hlive.arena hy _ fun hi => ?_
        exact hns (live_idx h1.lives.arena hn (stands_live h1.lives hs) hi ▸ hs)
  · have e : s' = p.2 := by
      cases d with
      | none => cases e; rfl
      | some dt =>
        dsimp only at e
        rw [if_neg (fun h => h rfl)] at e
        cases e; rfl
    subst e
    exact ⟨d, s₁, label, sym.dataTypes, hd, hl, by rw [known_of hst hg, known_none hs, List.nil_append], ht, ho, hu⟩

/-! ## Uses -/

theorem getLocal_stands {s : Env} {w : Token} {label : Text} (hl : w.label = some label) (ht : label ≠ c!"this") :
    s.resolver.getLocal w = s.stands label := by
  unfold Resolver.getLocal stands
  rw [hl]
  simp only [ht, and_false, if_false]
  cases s.resolver.localScopes <;> rfl

/-- **C75, uses.** If something is known of a variable and the first that is known leads to a class, this class is what a use of
the variable leads to, and the place is recorded as a use of the variable. -/
theorem C75_use (U : Unicode) (H : HashOrder) (file : NodeId) (fuel : Nat) (w : Token) (label : Text) (ref : SymRef)
    (rest : List SymRef) (d : NodeId) (s s' : Env) (o : Option NodeId) (hl : w.label = some label) (ht : label ≠ c!"this")
    (hk : s.known label = ref :: rest) (hd : ref.node = some d)
    (e : memberType U H file fuel s (.variable w) = .ok (o, s')) : o = some d ∧ Used file w label s' := by
  cases fuel with
  | zero => cases e
  | succ fuel =>
  unfold memberType at e
  obtain ⟨p, hp, e⟩ := Out.bind_eq_ok e
  cases fuel with
  | zero => cases hp
  | succ fuel =>
  unfold rootOf at hp
  dsimp only at hp
  rw [getLocal_stands hl ht] at hp
  unfold known at hk
  cases hs : s.stands label with
  | none => rw [hs] at hk; cases hk
  | some n =>
    rw [hs] at hk hp
    dsimp only at hp
    obtain ⟨s1, hs1, hp⟩ := Out.bind_eq_ok hp
    unfold refLocal Resolver.referenceLocal at hs1
    obtain ⟨r, hr, hs1⟩ := Out.bind_eq_ok hs1
    obtain ⟨range, hrange, hr⟩ := Out.bind_eq_ok hr
    cases hr
    cases hs1
    rw [hl] at hp
    dsimp only at hp
    rw [if_neg ht] at hp
    obtain ⟨sym, hsym, hp⟩ := Out.bind_eq_ok hp
    have hsym := Out.ofOption_ok hsym
    rw [Option.bind_some, hsym] at hk
    have hk : sym.dataTypes = ref :: rest := hk
    rw [hk] at hp
    simp only [variableType, hd] at hp
    cases hp
    dsimp only at e
    obtain ⟨_, _, e⟩ := Out.bind_eq_ok e
    obtain ⟨_, _, e⟩ := Out.bind_eq_ok e
    obtain ⟨_, _, e⟩ := Out.bind_eq_ok e
    cases e
    exact ⟨rfl, n, range, hs, Out.ofOption_ok hrange, mem_reference ..⟩

/-- **C75, the first assignment.** After `$v = value`, if nothing was known of the variable before and the value has a class, each
use of the variable leads to this class. -/
theorem C75_first (U : Unicode) (H : HashOrder) (file : NodeId) (fuel fuel' : Nat) (v w : Token) (right : Node) (s s' s'' : Env)
    (o : Option NodeId) (h : s.Lives) (e : visitAssignment U H file fuel (.variable v) right s = .ok s')
    (hw : w.label = v.label) (ht : v.label ≠ some c!"this")
    (e' : memberType U H file fuel' s' (.variable w) = .ok (o, s'')) :
    ∃ d s₁, memberType U H file fuel s right = .ok (d, s₁) ∧
      ∀ label, v.label = some label → s₁.known label = [] → ∀ c, d = some c → o = some c := by
  obtain ⟨d, s₁, label, new, h1, h2, h3, h4, _, _⟩ := C75_assignment U H file fuel v right s s' h e
  refine ⟨d, s₁, h1, fun l hl hn c hc => ?_⟩
  rw [h2] at hl
  cases hl
  subst hc
  rw [hn, List.nil_append] at h3
  match new, h4 with
  | ref :: rest, h4 =>
    exact (C75_use U H file fuel' w label ref rest c s' s'' o (hw.trans h2) (fun e => ht (h2.trans (congrArg some e))) h3
      (List.cons.inj h4).1 e').1

/-! ## Loops -/

theorem itemTypes_nodes : ∀ (l l' : List SymRef), itemTypes l = some l' →
    l'.map (·.node) = l.map (·.node) ∧ ∀ r ∈ l', r.node.isSome → r.typeRef.multiple = false
  | [], l', h => by cases h; exact ⟨rfl, fun _ h => nomatch h⟩
  | ref :: rest, l', h => by
    unfold itemTypes at h
    simp only [Option.bind_eq_bind, Option.bind_eq_some_iff, Option.pure_def, Option.some.injEq] at h
    obtain ⟨r, hr, rs, hrs, rfl⟩ := h
    obtain ⟨h1, h2⟩ := itemTypes_nodes rest rs hrs
    cases hn : ref.node with
    | none =>
      rw [hn] at hr
      cases hr
      refine ⟨by simp [h1], fun x hx hs => ?_⟩
      rcases List.mem_cons.1 hx with rfl | hx
      · rw [hn] at hs; cases hs
      · exact h2 x hx hs
    | some n =>
      rw [hn] at hr
      dsimp only at hr
      split at hr
      · have hr' := hr
        unfold SymRef.toNode at hr'
        simp only [Option.bind_eq_bind, Option.bind_eq_some_iff, Option.pure_def, Option.some.injEq] at hr'
        obtain ⟨_, _, rfl⟩ := hr'
        refine ⟨by simp [h1, hn], fun x hx hs => ?_⟩
        rcases List.mem_cons.1 hx with rfl | hx
        · rfl
        · exact h2 x hx hs
      · next hm =>
        cases hr
        refine ⟨by simp [h1], fun x hx hs => ?_⟩
        rcases List.mem_cons.1 hx with rfl | hx
        · simpa using hm
        · exact h2 x hx hs

/-- **C75, loops.** Inside of `foreach ($collection as $item)` the classes known of the item are those known of the collection,
without the mark of a list, and nothing of what was known of the variable before; all other variables and all symbols are as
they were. -/
theorem C75_foreach (file collection : NodeId) (arrow key : _) (item : Token) (label : Text) (c : Symbol) (s s' : Env) (h : s.Lives)
    (hc : s.arena.get? collection = some c) (hl : item.label = some label) (hs : s.resolver.localScopes ≠ [])
    (e : foreachItem file collection (.arrayElement arrow key (.variable item)) s = .ok s') :
    (s'.known label).map (·.node) = c.dataTypes.map (·.node) ∧
      (∀ r ∈ s'.known label, r.node.isSome → r.typeRef.multiple = false) ∧
      (∀ other, other ≠ label → s'.stands other = s.stands other) ∧
      s'.resolver.localScopes.tail = s.resolver.localScopes.tail ∧
      ∀ n, s.arena.Live n → s'.arena.get? n = s.arena.get? n := by
  unfold foreachItem at e
  rw [hc] at e
  dsimp only [Out.ofOption] at e
  obtain ⟨c', hc', e⟩ := Out.bind_eq_ok e
  cases hc'
  obtain ⟨ts, hts, e⟩ := Out.bind_eq_ok e
  obtain ⟨v, hv, e⟩ := Out.bind_eq_ok e
  obtain ⟨n, hn, e⟩ := Out.bind_eq_ok e
  have hts := Out.ofOption_ok hts
  unfold addVar at hn
  obtain ⟨x, hx, hn⟩ := Out.bind_eq_ok hn
  have hx := Out.ofOption_ok hx
  cases hn
  unfold declareOver Resolver.declareOrOverwriteLocal at e
  cases hsc : s.resolver.localScopes with
  | nil => exact absurd hsc hs
  | cons top rest =>
    dsimp only at e
    rw [hl, hsc] at e
    cases e
    have h3 : ∀ l, stands { s with resolver := { s.resolver with localScopes := Dict.insert top label (s.arena.addChild s.resolver.scopeContainer { v with dataTypes := ts }).1 :: rest }, arena := (s.arena.addChild s.resolver.scopeContainer { v with dataTypes := ts }).2 } l = if label = l then some (s.arena.addChild s.resolver.scopeContainer { v with dataTypes := ts }).1 else s.stands l := by
      intro l
      have : s.stands l = Dict.get? top l := by simp only [stands, hsc]; rfl
      rw [this, ← Dict.get?_insert]
      rfl
    have hk := known_of ((h3 label).trans (if_pos rfl)) (get?_addChild_new h.arena hx { v with dataTypes := ts })
    obtain ⟨h1, h2⟩ := itemTypes_nodes _ _ hts
    dsimp only at hk ⊢
    rw [hk]
    exact ⟨h1, h2, fun o ho => (h3 o).trans (if_neg (Ne.symm ho)), by simp, fun m hm => get?_addChild_old h.arena hx _ hm⟩

/-! ## Comments -/

theorem get?_moveTo {a b : Arena Symbol} (ha : a.Ok) {p c : NodeId} (h : a.moveTo p c = some b) {n : NodeId} (hn : a.Live n) :
    b.get? n = a.get? n := by
  obtain ⟨v, hv, hm⟩ := Arena.live_get? ha hn
  obtain ⟨k, hk⟩ := Forest.node?_mem (Arena.ok_moveTo ha h).forest ((Arena.moveTo_perm ha h).1.symm.subset hm)
  rw [hv]
  simp [Arena.get?, hk]

theorem declareNew_known {s : Env} {file m n : NodeId} {v : Token} {label : Text} {q : Option NodeId × Env} (hl : v.label = some label)
    (hs : s.stands label = some n) (h : s.declareNew file v m = .ok q) :
    ∃ range, v.range = some range ∧ q = (some n, { s with resolver := s.resolver.reference file ⟨range, n⟩ }) := by
  unfold declareNew Resolver.declareLocalIfNew at h
  obtain ⟨p, hp, h⟩ := Out.bind_eq_ok h
  cases h
  unfold stands at hs
  cases hsc : s.resolver.localScopes with
  | nil => rw [hsc] at hs; cases hs
  | cons top rest =>
    rw [hsc] at hs
    have hs : Dict.get? top label = some n := hs
    rw [hsc, hl] at hp
    dsimp only at hp
    rw [hs] at hp
    obtain ⟨range, hr, hp⟩ := Out.bind_eq_ok hp
    cases hp
    exact ⟨range, Out.ofOption_ok hr, rfl⟩

theorem declareNew_some {s : Env} {file m : NodeId} {v : Token} {label : Text} {q : Option NodeId × Env} (hl : v.label = some label)
    (hs : s.resolver.localScopes ≠ []) (h : s.declareNew file v m = .ok q) : ∃ n, q.1 = some n := by
  unfold declareNew Resolver.declareLocalIfNew at h
  obtain ⟨p, hp, h⟩ := Out.bind_eq_ok h
  cases h
  cases hsc : s.resolver.localScopes with
  | nil => exact absurd hsc hs
  | cons top rest =>
    rw [hsc, hl] at hp
    dsimp only at hp
    split at hp
    · obtain ⟨range, hr, hp⟩ := Out.bind_eq_ok hp
      cases hp
      exact ⟨_, rfl⟩
    · obtain ⟨range, hr, hp⟩ := Out.bind_eq_ok hp
      cases hp
      exact ⟨_, rfl⟩

theorem resolveTypes_refs {U : Unicode} {fuel : Nat} {anchor : NodeId} {ts : List TypeRef} {s : Env} {p : List SymRef × Env}
    (h : s.resolveTypes U fuel ts anchor = .ok p) : p.1.map (·.typeRef) = ts := by
  unfold resolveTypes at h
  suffices H : ∀ (ts : List TypeRef) (acc p : List SymRef × Env),
      ts.foldlM (init := acc) (fun acc t => do
        let p ← acc.2.resolve U fuel t anchor
        let ref ← .ofOption (match p.1 with
          | some n => SymRef.toNode t n
          | none => SymRef.toType t)
        pure (acc.1 ++ [ref], p.2)) = (.ok p : Out (List SymRef × Env)) → p.1.map (·.typeRef) = acc.1.map (·.typeRef) ++ ts from
    H ts _ _ h
  intro ts
  induction ts with
  | nil => intro acc p h; cases h; simp
  | cons t ts ih =>
    intro acc p h
    rw [List.foldlM_cons] at h
    obtain ⟨acc', h1, h2⟩ := Out.bind_eq_ok h
    obtain ⟨q, hq, h1⟩ := Out.bind_eq_ok h1
    obtain ⟨ref, href, h1⟩ := Out.bind_eq_ok h1
    cases h1
    have href := Out.ofOption_ok href
    have : ref.typeRef = t := by
      split at href
      · unfold SymRef.toNode at href
        simp only [Option.bind_eq_bind, Option.bind_eq_some_iff, Option.pure_def, Option.some.injEq] at href
        obtain ⟨_, _, rfl⟩ := href; rfl
      · unfold SymRef.toType at href
        simp only [Option.bind_eq_bind, Option.bind_eq_some_iff, Option.pure_def, Option.some.injEq] at href
        obtain ⟨_, _, rfl⟩ := href; rfl
    rw [ih _ _ h2]
    simp [this]

/-- **C75, comments.** Behind `@var types $name` the types of the comment are known of the variable, behind what was known before;
the place is recorded as a use of the variable; no other variable and no other symbol is altered. -/
theorem C75_comment (U : Unicode) (file : NodeId) (fuel : Nat) (name : Token) (label : Text) (types : Option (List TypeRef))
    (parent : NodeId) (s s' : Env) (h : s.Lives) (hl : name.label = some label) (ht : label ≠ c!"this")
    (hsc : s.resolver.localScopes ≠ []) (e : visitDocVar U file fuel name types parent s = .ok s') :
    ∃ ts s₁, s.resolveTypes U fuel (types.getD []) parent = .ok (ts, s₁) ∧ ts.map (·.typeRef) = types.getD [] ∧
      s'.known label = s₁.known label ++ ts ∧ Only label s₁ s' ∧ Used file name label s' := by
  unfold visitDocVar at e
  obtain ⟨⟨ts, s₁⟩, hts, e⟩ := Out.bind_eq_ok e
  have hup := up_resolveTypes U fuel h _ parent _ hts
  refine ⟨ts, s₁, hts, resolveTypes_refs hts, ?_⟩
  dsimp only at e
  rw [getLocal_stands hl ht] at e
  cases hs : s₁.stands label with
  | none =>
    rw [hs] at e
    obtain ⟨v, hv, e⟩ := Out.bind_eq_ok e
    obtain ⟨c, hc, e⟩ := Out.bind_eq_ok e
    obtain ⟨q, hq, e⟩ := Out.bind_eq_ok e
    cases e
    have hsc1 : s₁.resolver.localScopes ≠ [] := fun he =>
      hsc (List.length_eq_zero_iff.1 ((frame_resolveTypes (exact := false) (mv := false) U fuel s _ parent _ hts).length ▸ by simp [he]))
    have hsc2 : c.2.resolver.localScopes ≠ [] := by
      unfold addVar at hc
      obtain ⟨_, _, hc⟩ := Out.bind_eq_ok hc
      cases hc
      exact hsc1
    obtain ⟨repr, hr⟩ := declareNew_some hl hsc2 hq
    obtain ⟨l, hl', hst, hu, ho, hlive, hcase⟩ := declared hup.lives hc hq hr
    rw [hl] at hl'
    cases hl'
    rcases hcase with ⟨h1, _⟩ | ⟨_, rfl, hg⟩
    · rw [hs] at h1; cases h1
    · exact ⟨by rw [known_of hst hg, known_none hs, List.nil_append], ho, hu⟩
  | some n =>
    rw [hs] at e
    dsimp only at e
    obtain ⟨a, ha, e⟩ := Out.bind_eq_ok e
    obtain ⟨q, hq, e⟩ := Out.bind_eq_ok e
    cases e
    have ha := Out.ofOption_ok ha
    obtain ⟨range, hr, rfl⟩ := declareNew_known (s := { s₁ with arena := a }) hl hs hq
    have hn := stands_live hup.lives hs
    obtain ⟨x, hx, _⟩ := Arena.live_get? hup.lives.arena hn
    have h1 := hup.lives.modify n fun v => { v with dataTypes := v.dataTypes ++ ts }
    have hg : a.get? n = some { x with dataTypes := x.dataTypes ++ ts } := by
      rw [get?_moveTo h1.lives.arena ha (h1.keep _ hn)]
      exact get?_modify_self hup.lives.arena hx _
    refine ⟨?_, ⟨fun m hm => hm, fun _ _ => rfl, rfl, fun m hm hne => ?_⟩, n, range, hs, hr, mem_reference ..⟩
    · rw [known_of hs hx]
      exact known_of (s := { s₁ with arena := a, resolver := s₁.resolver.reference file ⟨range, n⟩ }) hs hg
    · show a.get? m = _
      rw [get?_moveTo h1.lives.arena ha (h1.keep _ hm)]
      obtain ⟨y, hy, _⟩ := Arena.live_get? hup.lives.arena hm
      rw [hy]
      exact get?_modify_other hup.lives.arena hy _ fun hi => hne (live_idx hup.lives.arena hm hn hi ▸ hs)

/-! ## Arguments -/

/-- **C75, arguments.** For an argument of a function the symbol that the function has for it is what its name stands for, its
declared types are what is known of it, and the place is recorded; no other variable and no other symbol is altered. -/
theorem C75_argument (U : Unicode) (file : NodeId) (fuel : Nat) (name : Token) (label : Text) (doc : Option Node) (parent : NodeId)
    (s s' : Env) (cs : List (NodeId × Symbol)) (arg : NodeId × Symbol) (x : Symbol) (h : s.Lives) (hl : name.label = some label)
    (hsc : s.resolver.localScopes ≠ []) (hcs : s.arena.children? s.resolver.scopeContainer = some cs)
    (harg : cs.find? (fun c => c.2.plainName = label) = some arg) (hx : s.arena.get? arg.1 = some x) (hlive : s.arena.Live arg.1)
    (e : visitArgument U file fuel name doc parent s = .ok s') :
    ∃ ts s₁, s.resolveTypes U fuel (x.dataTypes.map (·.typeRef)) parent = .ok (ts, s₁) ∧
      s'.stands label = some arg.1 ∧ s'.known label = ts ∧ ts.map (·.typeRef) = x.dataTypes.map (·.typeRef) ∧
      Used file name label s' ∧ (∀ other, other ≠ label → s'.stands other = s₁.stands other) ∧
      (∀ n, s₁.arena.Live n → n ≠ arg.1 → s'.arena.get? n = s₁.arena.get? n) := by
  unfold visitArgument childNamed at e
  rw [hl, hcs] at e
  obtain ⟨o, ho, e⟩ := Out.bind_eq_ok e
  obtain ⟨cs', hcs', ho⟩ := Out.bind_eq_ok ho
  cases hcs'
  rw [harg] at ho
  cases ho
  dsimp only [Option.map] at e
  rw [hx] at e
  obtain ⟨x', hx', e⟩ := Out.bind_eq_ok e
  cases hx'
  obtain ⟨⟨ts, s₁⟩, hts, e⟩ := Out.bind_eq_ok e
  have hup := up_resolveTypes U fuel h _ parent _ hts
  have hn := hup.keep _ hlive
  have hsc1 : s₁.resolver.localScopes ≠ [] := fun he =>
    hsc (List.length_eq_zero_iff.1 ((frame_resolveTypes (exact := false) (mv := false) U fuel s _ parent _ hts).length ▸ by simp [he]))
  obtain ⟨s2, hs2, e⟩ := Out.bind_eq_ok e
  unfold declareOver Resolver.declareOrOverwriteLocal at hs2
  dsimp only at hs2 e
  obtain ⟨r, hr, hs2⟩ := Out.bind_eq_ok hs2
  cases hs2
  cases hs : s₁.resolver.localScopes with
  | nil => exact absurd hs hsc1
  | cons top rest =>
    rw [hs, hl] at hr
    dsimp only at hr
    rw [if_pos rfl] at hr
    unfold Resolver.referenceLocal at hr
    obtain ⟨range, hrange, hr⟩ := Out.bind_eq_ok hr
    cases hr
    have hst : ∀ l, s₁.stands l = Dict.get? top l := fun l => by simp only [stands, hs]; rfl
    obtain ⟨y, hy, _⟩ := Arena.live_get? hup.lives.arena hn
    suffices H : ∀ (t : Env), t.resolver.localScopes = Dict.insert top label arg.1 :: rest →
        t.arena = s₁.arena.modify arg.1 (fun v => { v with dataTypes := ts }) → (⟨range, arg.1⟩ : NameRef) ∈ t.resolver.refsOf file →
        t.stands label = some arg.1 ∧ t.known label = ts ∧ ts.map (·.typeRef) = x.dataTypes.map (·.typeRef) ∧
          Used file name label t ∧ (∀ other, other ≠ label → t.stands other = s₁.stands other) ∧
          (∀ n, s₁.arena.Live n → n ≠ arg.1 → t.arena.get? n = s₁.arena.get? n) by
      refine ⟨ts, s₁, hts, ?_⟩
      split at e
      · unfold refLocal Resolver.referenceLocal at e
        obtain ⟨q, hq, e⟩ := Out.bind_eq_ok e
        obtain ⟨range', _, hq⟩ := Out.bind_eq_ok hq
        cases hq
        cases e
        exact H _ rfl rfl (((Step.reference _ _ _).refs file).subset (mem_reference ..))
      · cases e
        exact H _ rfl rfl (mem_reference ..)
    intro t ht ha hm
    have h3 : ∀ l, t.stands l = if label = l then some arg.1 else s₁.stands l := by
      intro l
      rw [hst l, ← Dict.get?_insert]
      simp only [stands, ht]
      rfl
    have h4 := (h3 label).trans (if_pos rfl)
    refine ⟨h4, known_of h4 (by rw [ha]; exact get?_modify_self hup.lives.arena hy _), resolveTypes_refs hts,
      ⟨_, range, h4, Out.ofOption_ok hrange, hm⟩, fun o ho => (h3 o).trans (if_neg (Ne.symm ho)), fun n hn' hne => ?_⟩
    obtain ⟨z, hz, _⟩ := Arena.live_get? hup.lives.arena hn'
    rw [ha, hz]
    exact get?_modify_other hup.lives.arena hz _ fun hi => hne (live_idx hup.lives.arena hn' hn hi)

/-! ## Non-vacuity -/

/-- A check of `Env.Lives`. -/
def livesB (s : Env) : Bool :=
  decide (s.arena.forest.idxs ++ s.arena.free.map (·.idx)).Nodup &&
  (s.arena.forest.idxs ++ s.arena.free.map (·.idx)).all (fun n => decide (n < s.arena.next)) &&
  s.resolver.globalScope.all (fun e => decide (s.arena.Live e.2)) &&
  s.resolver.localScopes.all (fun d => d.all fun e => decide (s.arena.Live e.2)) &&
  s.resolver.currentClass.all (fun c => decide (s.arena.Live c)) &&
  s.resolver.cache.all (fun e => e.2.all fun n => decide (s.arena.Live n)) &&
  s.resolver.documentReferences.all (fun e => e.2.all fun x => decide (s.arena.Live x.node))

theorem livesB_sound {s : Env} (h : livesB s = true) : s.Lives := by
  unfold livesB at h
  simp only [Bool.and_eq_true, List.all_eq_true, decide_eq_true_eq, Option.all_eq_true] at h
  obtain ⟨⟨⟨⟨⟨⟨h1, h2⟩, h3⟩, h4⟩, h5⟩, h6⟩, h7⟩ := h
  exact ⟨⟨h1, h2⟩, ⟨h3, h4, h5, h6, h7⟩⟩

/-- At the top of a file with the classes `A` and `B`. -/
private def atTop : Out Env := do
  let st ← startWith [(c!"a.php", c!"<?php class A { public $a; } class B { public $b; }")]
  let file ← .ofOption (Dict.get? st.files c!"a.php")
  pure ⟨st.arena, { Resolver.new st.globals file with localScopes := [[]] }⟩

private def var (col : Nat) : Token := ⟨col, 5, .variable, some c!"x", none⟩
private def new (col : Nat) (cls : Text) : Node :=
  .newExpr ⟨col, 5, .kwNew, none, none⟩ (.typeRef (.one [⟨col + 4, 5, .identifier, some cls, none⟩]))

/-- `$x = new A; $x = new B; $x`, step by step. -/
private def steps : Out (List Env × Option NodeId) := do
  let s ← atTop
  let s1 ← visitAssignment Unicode.ascii HashOrder.id ⟨0, 0⟩ 9 (.variable (var 0)) (new 5 c!"A") s
  let s2 ← visitAssignment Unicode.ascii HashOrder.id ⟨0, 0⟩ 9 (.variable (var 20)) (new 25 c!"B") s1
  let p ← memberType Unicode.ascii HashOrder.id ⟨0, 0⟩ 9 s2 (.variable (var 40))
  pure ([s, s1, s2, p.2], p.1)

/-- What is known of `$x`, and where it is recorded. -/
private def view (s : Env) : Bool × List Nat × List Nat :=
  (livesB s, ((s.known c!"x").filterMap (·.node)).map (·.idx),
    ((s.resolver.refsOf ⟨0, 0⟩).filter fun r => s.stands c!"x" = some r.node).map fun r => r.range.startCol)

private def seen : Option (List (Bool × List Nat × List Nat) × Option Nat) :=
  match steps with
  | .ok p => some (p.1.map view, p.2.map (·.idx))
  | _ => none

/-- The two classes are known of `$x` in this order, the use leads to the first, and all places are recorded. -/
example : seen = some ([(true, [], []), (true, [1], [0]), (true, [1, 4], [0, 20]),
      (true, [1, 4], [0, 20, 40])], some 1) := by
  decide +kernel

/-- The columns of the errors of a file. -/
def errorsAt (source : Text) : Option (List Nat) :=
  match startAndOpen [(c!"a.php", source)] c!"a.php" with
  | .ok st => some ((st.diagnostics.flatMap (·.2)).map fun d => d.range.start.character)
  | _ => none

/-- An item of a list of `A`, an argument of type `A` and a variable with a comment: only the unknown name `b` is reported. -/
example :
    errorsAt c!"<?php class A { public $a; } /** @param A[] $l */ function f($l) { foreach ($l as $x) { $x->a; $x->b; } }" = some [99] ∧
    errorsAt c!"<?php class A { public $a; } function f(A $x) { $x->a; $x->b; }" = some [59] ∧
    errorsAt c!"<?php class A { public $a; } function f() { /** @var A $x */ $x->a; $x->b; }" = some [72] := by
  decide +kernel

/-! ## Where it differs from PHP -/

/-- **C75 fails behind a second assignment:** `$x = new A; $x = new B;` and then the property of `B` is refused and the one of `A`
accepted. -/
theorem C75_violated_again :
    errorsAt c!"<?php class A { public $a; } class B { public $b; } $x = new A; $x = new B; $x->a; $x->b;" = some [87] := by
  decide +kernel

/-- **C75 fails for an assignment to an argument:** the declared type of the argument stays. -/
theorem C75_violated_argument :
    errorsAt c!"<?php class A { public $a; } class B { public $b; } function f(A $x) { $x = new B; $x->b; }" = some [87] := by
  decide +kernel

/-- **C75 fails for an assignment inside of an expression:** in `$y = $x = new B` the class is not known of `$x` if something was
known before, and `$y` gets what `$x` had. -/
theorem C75_violated_nested :
    errorsAt c!"<?php class A { public $a; } class B { public $b; } $x = new A; $y = $x = new B; $x->b; $y->b;" = some [85, 92] := by
  decide +kernel

end PhpLs.Env
