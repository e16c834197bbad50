import Verif.NameResolveLemmas
import Verif.ArenaTree

/-!
# Resolving names leads to symbols that exist

`Resolver.Lives L r`: all nodes the resolver knows (global table, scopes, current class, cache, recorded references) are in `L`.
Queries keep this and answer nodes in `L`, if all children of the arena's nodes are in `L`.

`Env.Lives s` is this for the nodes that are in the arena.  Every function of the visitor keeps it.
-/

namespace PhpLs

open Out

namespace Dict

variable {κ α : Type} [DecidableEq κ]

theorem mem_insert {d : Dict κ α} {k : κ} {v : α} {e : κ × α} (h : e ∈ Dict.insert d k v) : e = (k, v) ∨ e ∈ d := by
  unfold Dict.insert Dict.remove at h
  rcases List.mem_cons.1 h with h | h
  · exact Or.inl h
  · exact Or.inr (List.mem_filter.1 h).1

theorem mem_extend {d e : Dict κ α} {x : κ × α} (h : x ∈ Dict.extend d e) : x ∈ d ∨ x ∈ e := by
  induction e with
  | nil => exact Or.inl h
  | cons y e ih =>
    rcases mem_insert (d := Dict.extend d e) h with h | h
    · exact Or.inr (by rw [h]; exact List.mem_cons_self ..)
    · exact (ih h).imp_right (List.mem_cons_of_mem _)

end Dict

namespace Resolver

variable {L : NodeId → Prop}

/-- See the head of the file. -/
structure Lives (L : NodeId → Prop) (r : Resolver) : Prop where
  globals : ∀ e ∈ r.globalScope, L e.2
  scopes : ∀ d ∈ r.localScopes, ∀ e ∈ d, L e.2
  cls : ∀ c, r.currentClass = some c → L c
  cache : ∀ e ∈ r.cache, ∀ n, e.2 = some n → L n
  refs : ∀ e ∈ r.documentReferences, ∀ x ∈ e.2, L x.node

/-- An answer in `L`. -/
def Ans (L : NodeId → Prop) (p : Option NodeId × Resolver) : Prop := Lives L p.2 ∧ ∀ n, p.1 = some n → L n

/-- Members in `L`. -/
def LivesM (L : NodeId → Prop) (m : Members) : Prop := ∀ e ∈ m, L e.2.symbol

/-- Candidates in `L`. -/
def LivesC (L : NodeId → Prop) (d : Dict Text (List SymbolAlias)) : Prop := ∀ e ∈ d, ∀ x ∈ e.2, L x.symbol

theorem Lives.diagnostic {r : Resolver} (h : Lives L r) (n : Notification) : Lives L (r.diagnostic n) :=
  ⟨h.globals, h.scopes, h.cls, h.cache, h.refs⟩

theorem Lives.reference {r : Resolver} (h : Lives L r) (file : NodeId) (x : NameRef) (hx : L x.node) :
    Lives L (r.reference file x) := by
  refine ⟨h.globals, h.scopes, h.cls, h.cache, ?_⟩
  intro e he y hy
  rcases Dict.mem_insert he with he | he
  · subst he
    rcases List.mem_append.1 hy with hy | hy
    · cases hg : Dict.get? r.documentReferences file with
      | none => rw [hg] at hy; cases hy
      | some l =>
        rw [hg] at hy
        exact h.refs _ (Dict.get?_mem hg) y hy
    · rw [List.mem_singleton.1 hy]
      exact hx
  · exact h.refs e he y hy

theorem Lives.cached {r : Resolver} (h : Lives L r) (k : NodeId × NodeRange) {v : Option NodeId} (hv : ∀ n, v = some n → L n) :
    Lives L (r.cached k v) := by
  refine ⟨h.globals, h.scopes, h.cls, ?_, h.refs⟩
  intro e he n hn
  rcases Dict.mem_insert he with he | he
  · subst he
    exact hv n hn
  · exact h.cache e he n hn

theorem Lives.mono {L' : NodeId → Prop} {r : Resolver} (h : Lives L r) (hm : ∀ i, L i → L' i) : Lives L' r :=
  ⟨fun e he => hm _ (h.globals e he), fun d hd e he => hm _ (h.scopes d hd e he), fun c hc => hm _ (h.cls c hc),
    fun e he n hn => hm _ (h.cache e he n hn), fun e he x hx => hm _ (h.refs e he x hx)⟩

theorem lives_lookup {U : Unicode} {a : Arena Symbol} {r : Resolver} {t : TypeRef} {file : NodeId} {fileName name : Text}
    {range : NodeRange} {joined : Text} {reg : Bool} (h : Lives L r) :
    OkThat (Ans L) (lookup U a r t file fileName name range joined reg) := by
  unfold lookup
  cases hl : lookupGlobal U r.globalScope joined name with
  | none => exact OkThat.ok ⟨(h.diagnostic _).cached _ (fun n e => nomatch e), fun n e => nomatch e⟩
  | some p =>
    obtain ⟨node, compName⟩ := p
    have hn : L node := by
      unfold lookupGlobal at hl
      split at hl
      · next n e => cases hl; exact h.globals _ (Dict.get?_mem e)
      · split at hl
        · next n e => cases hl; exact h.globals _ (Dict.get?_mem e)
        · cases hl
    refine OkThat.bindOption fun s _ => OkThat.ok ⟨?_, fun n e => by cases e; exact hn⟩
    refine Lives.cached ?_ _ (fun n e => by cases e; exact hn)
    have h1 : Lives L (if reg = true then r.reference file ⟨range, node⟩ else r) := by
      split
      · exact h.reference _ _ hn
      · exact h
    split
    · exact h1
    · exact h1.diagnostic _

private theorem lives_all (U : Unicode) (a : Arena Symbol) (fuel : Nat) :
    (∀ r t anchor reg, Lives L r → OkThat (Ans L) (resolveTypeRef U a fuel r t anchor reg)) ∧
    (∀ r s ctx, Lives L r → OkThat (Ans L) (uniqueParent U a fuel r s ctx)) ∧
    (∀ r s ctx, Lives L r → OkThat (fun p => Lives L p.2 ∧ ∀ e ∈ p.1, L e.2) (parentNodes U a fuel r s ctx)) := by
  induction fuel with
  | zero => exact ⟨fun _ _ _ _ _ => OkThat.deep, fun _ _ _ _ => OkThat.deep, fun _ _ _ _ => OkThat.deep⟩
  | succ fuel ih =>
    obtain ⟨ih1, ih2, ih3⟩ := ih
    refine ⟨?_, ?_, ?_⟩
    · intro r t anchor reg h
      unfold resolveTypeRef
      split
      · exact OkThat.ok ⟨h, fun n e => nomatch e⟩
      · refine OkThat.bindOption fun ancestors ha => OkThat.bindOption fun file hf => OkThat.bindOption fun fs _ =>
          OkThat.bindOption fun root _ => OkThat.bindOption fun name _ => OkThat.bindOption fun range hr => ?_
        split
        · next c hc => exact OkThat.ok ⟨h, fun n e => h.cache _ (Dict.get?_mem hc) n e⟩
        · split
          · split
            · next c hc =>
              have : ∀ n, some c = some n → L n := fun n e => by cases e; exact h.cls c hc
              exact OkThat.ok ⟨h.cached _ this, this⟩
            · exact OkThat.ok ⟨(h.diagnostic _).cached _ (fun n e => nomatch e), fun n e => nomatch e⟩
          · split
            · split
              · exact OkThat.bindOption fun s _ => (ih2 r s _ h).bind fun p hp => OkThat.ok ⟨hp.1.cached _ hp.2, hp.2⟩
              · exact OkThat.ok ⟨(h.diagnostic _).cached _ (fun n e => nomatch e), fun n e => nomatch e⟩
            · unfold resolveName
              exact OkThat.bindOption fun _ _ => OkThat.bindOption fun _ _ => OkThat.bindOption fun _ _ =>
                OkThat.bindOption fun _ _ => lives_lookup h
    · intro r s ctx h
      unfold uniqueParent
      refine (ih3 r s ctx h).bind fun p hp => ?_
      split
      · next e he => exact OkThat.ok ⟨hp.1, fun n hn => by cases hn; exact hp.2 e (by rw [he]; exact List.mem_singleton.2 rfl)⟩
      · exact OkThat.ok ⟨hp.1, fun n e => nomatch e⟩
    · intro r s ctx h
      unfold parentNodes
      refine OkThat.foldlM (P := fun p : Dict Text NodeId × Resolver => Lives L p.2 ∧ ∀ e ∈ p.1, L e.2) ?_ _ _ ⟨h, fun e he => nomatch he⟩
      intro acc ref hacc
      refine (ih1 acc.2 ref.typeRef ctx false hacc.1).bind fun p hp => ?_
      split
      · exact OkThat.ok ⟨hp.1, hacc.2⟩
      · next node hnode =>
        refine OkThat.bindOption fun n _ => OkThat.ok ⟨hp.1, ?_⟩
        intro e he
        rcases Dict.mem_insert he with he | he
        · subst he; exact hp.2 _ hnode
        · exact hacc.2 e he

theorem lives_resolveTypeRef (U : Unicode) (a : Arena Symbol) (fuel : Nat) (r : Resolver) (t : TypeRef) (anchor : NodeId)
    (reg : Bool) (h : Lives L r) : OkThat (Ans L) (resolveTypeRef U a fuel r t anchor reg) :=
  (lives_all U a fuel).1 r t anchor reg h

theorem lives_uniqueParent (U : Unicode) (a : Arena Symbol) (fuel : Nat) (r : Resolver) (s : Symbol) (ctx : NodeId)
    (h : Lives L r) : OkThat (Ans L) (uniqueParent U a fuel r s ctx) := (lives_all U a fuel).2.1 r s ctx h

theorem lives_parentNodes (U : Unicode) (a : Arena Symbol) (fuel : Nat) (r : Resolver) (s : Symbol) (ctx : NodeId)
    (h : Lives L r) : OkThat (fun p => Lives L p.2 ∧ ∀ e ∈ p.1, L e.2) (parentNodes U a fuel r s ctx) :=
  (lives_all U a fuel).2.2 r s ctx h

theorem lives_resolveAll (U : Unicode) (a : Arena Symbol) (fuel : Nat) (r : Resolver) (ctx : NodeId) (ts : List TypeRef)
    (h : Lives L r) : OkThat (fun p => Lives L p.2) (resolveAll U a fuel r ctx ts) := by
  unfold resolveAll
  refine OkThat.foldlM (P := fun p : _ × Resolver => Lives L p.2) ?_ _ _ h
  intro acc t hacc
  exact (lives_resolveTypeRef U a fuel acc.2 t ctx false hacc).bind fun p hp => OkThat.ok hp.1

theorem LivesC.get {d : Dict Text (List SymbolAlias)} (h : LivesC L d) {k : Text} {l : List SymbolAlias}
    (e : Dict.get? d k = some l) : ∀ x ∈ l, L x.symbol := h _ (Dict.get?_mem e)

theorem LivesC.getD {d : Dict Text (List SymbolAlias)} (h : LivesC L d) (k : Text) :
    ∀ x ∈ (Dict.get? d k).getD [], L x.symbol := by
  cases e : Dict.get? d k with
  | none => intro x hx; cases hx
  | some l => exact h.get e

theorem LivesC.insert {d : Dict Text (List SymbolAlias)} (h : LivesC L d) (k : Text) {l : List SymbolAlias}
    (hl : ∀ x ∈ l, L x.symbol) : LivesC L (Dict.insert d k l) := by
  intro e he
  rcases Dict.mem_insert he with he | he
  · subst he; exact hl
  · exact h e he

theorem LivesM.insert {m : Members} (h : LivesM L m) (k : Text) {x : SymbolAlias} (hx : L x.symbol) :
    LivesM L (Dict.insert m k x) := by
  intro e he
  rcases Dict.mem_insert he with he | he
  · subst he; exact hx
  · exact h e he

theorem LivesM.get {m : Members} (h : LivesM L m) {k : Text} {x : SymbolAlias} (e : Dict.get? m k = some x) : L x.symbol :=
  h _ (Dict.get?_mem e)

theorem LivesM.extend {m m' : Members} (h : LivesM L m) (h' : LivesM L m') : LivesM L (Dict.extend m m') := by
  intro e he
  rcases Dict.mem_extend he with he | he
  · exact h e he
  · exact h' e he

theorem lives_withVisibility {s : SymbolAlias} (h : L s.symbol) (v : Visibility) : L (withVisibility s v).symbol := by
  unfold withVisibility
  split
  · exact h
  · exact h

theorem lives_aliased {s : SymbolAlias} (h : L s.symbol) (label : Text) (v : Visibility) :
    L (withVisibility (s.aliased label) v).symbol := lives_withVisibility (s := s.aliased label) h v

theorem LivesM.nil : LivesM L [] := fun _ h => nomatch h

theorem LivesC.nil : LivesC L [] := fun _ h => nomatch h

theorem lives_addCandidates : ∀ (m : Members) (d : Dict Text (List SymbolAlias)), LivesC L d → LivesM L m →
    LivesC L (addCandidates d m)
  | [], _, h, _ => h
  | e :: m, d, h, hm => by
    refine lives_addCandidates m _ (h.insert e.1 ?_) fun x hx => hm x (List.mem_cons_of_mem _ hx)
    intro x hx
    rcases List.mem_append.1 hx with hx | hx
    · exact h.getD e.1 x hx
    · rw [List.mem_singleton.1 hx]
      exact hm e (List.mem_cons_self ..)

theorem lives_insteadOf (U : Unicode) (a : Arena Symbol) (fuel : Nat) (ctx : NodeId)
    (acc : Dict Text (List SymbolAlias) × Resolver) (cls : TypeRef) (member : Text) (l : List TypeRef)
    (h : LivesC L acc.1 ∧ Lives L acc.2) :
    OkThat (fun p => LivesC L p.1 ∧ Lives L p.2) (insteadOf U a fuel ctx acc cls member l) := by
  unfold insteadOf
  refine (lives_resolveAll U a fuel acc.2 ctx l h.2).bind fun p hp => ?_
  refine (lives_resolveTypeRef U a fuel p.2 cls ctx false hp).bind fun q hq => ?_
  split
  · exact OkThat.ok ⟨h.1, hq.1⟩
  · split
    · exact OkThat.ok ⟨h.1, hq.1⟩
    · next aliases e =>
      exact OkThat.ok ⟨h.1.insert _ fun x hx => h.1.get e x (List.mem_filter.1 hx).1, hq.1⟩

theorem lives_insteadOfs (U : Unicode) (a : Arena Symbol) (fuel : Nat) (ctx : NodeId) : ∀ (l : List TraitUseAlteration)
    (acc : Dict Text (List SymbolAlias) × Resolver), LivesC L acc.1 ∧ Lives L acc.2 →
    OkThat (fun p => LivesC L p.1 ∧ Lives L p.2) (insteadOfs U a fuel ctx l acc)
  | [], acc, h => OkThat.ok h
  | .asRule .. :: r, acc, h => lives_insteadOfs U a fuel ctx r acc h
  | .insteadOf c m l :: r, acc, h =>
    (lives_insteadOf U a fuel ctx acc c m l h).bind fun p hp => lives_insteadOfs U a fuel ctx r p hp

theorem lives_asRule (U : Unicode) (a : Arena Symbol) (fuel : Nat) (ctx : NodeId) (orig : Dict Text (List SymbolAlias))
    (acc : Members × Resolver) (visibility : Option Token) (cls : Option TypeRef) (member : Text) (al : Option Token)
    (ho : LivesC L orig) (h : LivesM L acc.1 ∧ Lives L acc.2) :
    OkThat (fun p => LivesM L p.1 ∧ Lives L p.2) (asRule U a fuel ctx orig acc visibility cls member al) := by
  unfold asRule
  dsimp only
  split
  · split
    · exact OkThat.ok h
    · split
      · refine (lives_resolveTypeRef U a fuel acc.2 _ ctx false h.2).bind fun q hq => ?_
        split
        · exact OkThat.ok ⟨h.1, hq.1⟩
        · split
          · exact OkThat.ok ⟨h.1, hq.1⟩
          · next o e =>
            exact OkThat.ok ⟨h.1.insert _ (lives_aliased (ho.getD _ o (List.mem_of_find?_eq_some e)) _ _), hq.1⟩
      · split
        · exact OkThat.ok h
        · next o e => exact OkThat.ok ⟨h.1.insert _ (lives_aliased (h.1.get e) _ _), h.2⟩
  · split
    · exact OkThat.ok h
    · next o e => exact OkThat.ok ⟨h.1.insert _ (lives_withVisibility (h.1.get e) _), h.2⟩

theorem lives_asRules (U : Unicode) (a : Arena Symbol) (fuel : Nat) (ctx : NodeId) (orig : Dict Text (List SymbolAlias))
    (ho : LivesC L orig) : ∀ (l : List TraitUseAlteration) (acc : Members × Resolver), LivesM L acc.1 ∧ Lives L acc.2 →
    OkThat (fun p => LivesM L p.1 ∧ Lives L p.2) (asRules U a fuel ctx orig l acc)
  | [], acc, h => OkThat.ok h
  | .insteadOf .. :: r, acc, h => lives_asRules U a fuel ctx orig ho r acc h
  | .asRule v c m l :: r, acc, h =>
    (lives_asRule U a fuel ctx orig acc v c m l ho h).bind fun p hp => lives_asRules U a fuel ctx orig ho r p hp

theorem lives_firsts : ∀ (d : Dict Text (List SymbolAlias)) (m : Members), LivesC L d → firsts d = some m → LivesM L m
  | [], m, _, e => by cases e; intro x hx; cases hx
  | (k, l) :: d, m, h, e => by
    simp only [firsts, Option.bind_eq_bind, Option.bind_eq_some_iff] at e
    obtain ⟨x, hx, m', hm', e⟩ := e
    cases e
    intro y hy
    rcases List.mem_cons.1 hy with hy | hy
    · subst hy
      exact h (k, l) (List.mem_cons_self ..) x (List.mem_of_head? hx)
    · exact lives_firsts d m' (fun z hz => h z (List.mem_cons_of_mem _ hz)) hm' y hy

theorem lives_applyRules (U : Unicode) (a : Arena Symbol) (fuel : Nat) (ctx : NodeId) (rules : List TraitUseAlteration)
    (all : Dict Text (List SymbolAlias) × Resolver) (h : LivesC L all.1 ∧ Lives L all.2) :
    OkThat (fun p => LivesM L p.1 ∧ Lives L p.2) (applyRules U a fuel ctx rules all) := by
  refine (lives_insteadOfs U a fuel ctx _ all h).bind fun k hk => OkThat.bindOption fun c hc => ?_
  exact lives_asRules U a fuel ctx all.1 h.1 _ (c, k.2) ⟨lives_firsts _ _ hk.1 hc, hk.2⟩

theorem lives_ownMembers (U : Unicode) (ctx : NodeId) (l : List (NodeId × Symbol)) (h : ∀ c ∈ l, L c.1) :
    LivesM L (ownMembers U ctx l) := by
  have key : ∀ (l : List (NodeId × Symbol)) (d : Members), (∀ c ∈ l, L c.1) → LivesM L d → LivesM L
      (l.foldl (fun d c => Dict.insert d (c.2.normalizedName U) ⟨c.1, c.2.plainName, c.2.visibility, ctx⟩) d) := by
    intro l
    induction l with
    | nil => intro d _ hd; exact hd
    | cons c l ih =>
      intro d h hd
      exact ih _ (fun x hx => h x (List.mem_cons_of_mem _ hx)) (hd.insert _ (h c (List.mem_cons_self ..)))
  cases l with
  | nil => intro x hx; cases hx
  | cons c l => exact key (c :: l) [] h (fun x hx => nomatch hx)

private theorem lives_members (U : Unicode) (H : HashOrder) (a : Arena Symbol)
    (hch : ∀ i cs, a.children? i = some cs → ∀ c ∈ cs, L c.1) (fuel : Nat) :
    (∀ r ctx, Lives L r → OkThat (fun p => LivesM L p.1 ∧ Lives L p.2) (allSymbols U H a fuel r ctx)) ∧
    (∀ r s ctx, Lives L r → OkThat (fun p => LivesM L p.1 ∧ Lives L p.2) (importedSymbols U H a fuel r s ctx)) ∧
    (∀ r s ctx, Lives L r → OkThat (fun p => LivesM L p.1 ∧ Lives L p.2) (inheritedSymbols U H a fuel r s ctx)) := by
  induction fuel with
  | zero => exact ⟨fun _ _ _ => OkThat.deep, fun _ _ _ _ => OkThat.deep, fun _ _ _ _ => OkThat.deep⟩
  | succ fuel ih =>
    obtain ⟨ih1, ih2, ih3⟩ := ih
    refine ⟨?_, ?_, ?_⟩
    · intro r ctx h
      unfold allSymbols
      refine OkThat.bindOption fun s _ => OkThat.bindOption fun cs hcs => ?_
      have hown := lives_ownMembers U ctx cs (hch ctx cs hcs)
      refine (ih2 r s ctx h).bind fun p hp => (lives_resolveAll U a fuel p.2 ctx _ hp.2).bind fun q hq => ?_
      refine (OkThat.foldlM (P := fun x : Members × Resolver => LivesM L x.1 ∧ Lives L x.2) ?_ _ _
        ⟨hown.extend hp.1, hq⟩).bind fun w hw => ?_
      · intro acc dt hacc
        split
        · exact OkThat.ok hacc
        · exact (ih1 acc.2 dt hacc.2).bind fun m hm => OkThat.ok ⟨hacc.1.extend hm.1, hm.2⟩
      · exact (ih3 w.2 s ctx hw.2).bind fun z hz => OkThat.ok ⟨hw.1.extend hz.1, hz.2⟩
    · intro r s ctx h
      unfold importedSymbols
      refine (OkThat.foldlM (P := fun x : Dict Text (List SymbolAlias) × Resolver => LivesC L x.1 ∧ Lives L x.2) ?_ _ _
        ⟨LivesC.nil, h⟩).bind fun w hw => ?_
      · intro acc i hacc
        refine (lives_resolveTypeRef U a fuel acc.2 i.path ctx false hacc.2).bind fun p hp => ?_
        split
        · exact OkThat.ok ⟨hacc.1, hp.1⟩
        · refine OkThat.bindOption fun t _ => ?_
          split
          · exact OkThat.ok ⟨hacc.1, hp.1⟩
          · exact (ih1 p.2 _ hp.1).bind fun m hm => OkThat.ok ⟨lives_addCandidates m.1 acc.1 hacc.1 hm.1, hm.2⟩
      · exact lives_applyRules U a fuel ctx _ w hw
    · intro r s ctx h
      unfold inheritedSymbols
      refine (lives_parentNodes U a fuel r s ctx h).bind fun p hp => ?_
      refine (OkThat.foldlM (P := fun x : Members × Resolver => LivesM L x.1 ∧ Lives L x.2) ?_ _ _
        ⟨LivesM.nil, hp.1⟩).bind fun w hw => OkThat.ok ⟨?_, hw.2⟩
      · intro acc e hacc
        exact (ih1 acc.2 e.2 hacc.2).bind fun m hm => OkThat.ok ⟨hm.1.extend hacc.1, hm.2⟩
      · intro e he
        obtain ⟨x, hx, rfl⟩ := List.mem_map.1 he
        exact hw.1 x hx

theorem lives_allSymbols (U : Unicode) (H : HashOrder) (a : Arena Symbol)
    (hch : ∀ i cs, a.children? i = some cs → ∀ c ∈ cs, L c.1) (fuel : Nat) (r : Resolver) (ctx : NodeId) (h : Lives L r) :
    OkThat (fun p => LivesM L p.1 ∧ Lives L p.2) (allSymbols U H a fuel r ctx) := (lives_members U H a hch fuel).1 r ctx h

end Resolver

namespace Arena

variable {α : Type}

theorem children_live {a : Arena α} {i : NodeId} {cs : List (NodeId × α)} (h : a.children? i = some cs) {c : NodeId × α}
    (hc : c ∈ cs) : a.Live c.1 := by
  unfold children? at h
  cases hx : a.forest.node? i.idx with
  | none => rw [hx] at h; cases h
  | some x =>
    rw [hx] at h
    cases h
    obtain ⟨j, w, k⟩ := x
    obtain ⟨_, _, hk⟩ := Forest.node?_some hx
    exact Forest.mem_ids.2 ⟨c.2, hk _ (Forest.tops_flat hc)⟩

/-- Moving a node keeps all nodes. -/
theorem moveTo_perm {a b : Arena α} (ha : a.Ok) {p c : NodeId} (h : a.moveTo p c = some b) :
    b.forest.flat.Perm a.forest.flat ∧ b.free = a.free ∧ b.next = a.next := by
  unfold moveTo at h
  split at h
  · cases h
  · next x hx =>
    obtain ⟨i, v, k⟩ := x
    obtain ⟨s, t, e1, e2⟩ := Forest.flat_replace ha.forest hx (fun _ => .nil)
    dsimp only at h
    split at h
    · cases h
    · next y hy =>
      obtain ⟨j, w, k'⟩ := y
      cases h
      have hn : (a.forest.replace c.idx fun _ => .nil).idxs.Nodup := by
        have := ha.forest
        unfold Forest.idxs at this ⊢
        rw [e2]
        rw [e1] at this
        refine this.sublist (List.Sublist.map _ ?_)
        simp
      obtain ⟨s', t', e3, e4⟩ := Forest.flat_update hn hy (fun w k' => (w, k'.snoc i v k))
      refine ⟨?_, rfl, rfl⟩
      dsimp only
      rw [e4, e1, Forest.flat_snoc]
      have h1 : s' ++ (j, w) :: (k'.flat ++ (i, v) :: k.flat) ++ t' = s' ++ (j, w) :: k'.flat ++ ((i, v) :: k.flat ++ t') := by
        simp
      have h2 : s ++ (i, v) :: k.flat ++ t = s ++ ((i, v) :: k.flat ++ t) := by simp
      rw [h1, h2]
      have h3 : (s' ++ (j, w) :: k'.flat ++ t').Perm (s ++ t) := by
        rw [← e3, e2]; simp
      refine ((List.perm_append_comm_assoc _ _ _).trans ?_).trans (List.perm_append_comm_assoc _ _ _).symm
      exact List.Perm.append_left _ h3

theorem ok_moveTo {a b : Arena α} (ha : a.Ok) {p c : NodeId} (h : a.moveTo p c = some b) : b.Ok := by
  obtain ⟨h1, h2, h3⟩ := moveTo_perm ha h
  have h4 : (b.forest.idxs ++ b.free.map (·.idx)).Perm (a.forest.idxs ++ a.free.map (·.idx)) := by
    rw [h2]
    exact List.Perm.append_right _ (h1.map _)
  exact ⟨h4.nodup_iff.2 ha.nodup, fun n hn => by rw [h3]; exact ha.bound n (h4.mem_iff.1 hn)⟩

theorem live_moveTo {a b : Arena α} (ha : a.Ok) {p c : NodeId} (h : a.moveTo p c = some b) (i : NodeId) :
    b.Live i ↔ a.Live i := by
  obtain ⟨h1, _, _⟩ := moveTo_perm ha h
  exact (h1.map (·.1)).mem_iff

theorem idx_of_get? {a : Arena α} {p : NodeId} {v : α} (h : a.get? p = some v) : p.idx ∈ a.forest.idxs := by
  unfold get? at h
  cases hx : a.forest.node? p.idx with
  | none => rw [hx] at h; cases h
  | some x =>
    obtain ⟨j, w, k⟩ := x
    obtain ⟨h1, h2, _⟩ := Forest.node?_some hx
    exact Forest.mem_idxs.2 ⟨j, w, h2, h1⟩

theorem live_added {a : Arena α} (ha : a.Ok) {p : NodeId} (hp : p.idx ∈ a.forest.idxs) (v : α) (i : NodeId) :
    (a.addChild p v).2.Live i ↔ i = a.fresh ∨ a.Live i := by
  have := ((addChild_flat ha hp v).map (·.1)).mem_iff (a := i)
  simpa [Live, Forest.ids] using this

end Arena

namespace Env

/-- See the head of the file. -/
structure Lives (s : Env) : Prop where
  arena : s.arena.Ok
  resolver : s.resolver.Lives s.arena.Live

/-- What a function of the visitor does: all nodes stay, and the resolver still only knows nodes that are there. -/
structure Up (s s' : Env) : Prop where
  lives : s'.Lives
  keep : ∀ i, s.arena.Live i → s'.arena.Live i

theorem Lives.up {s : Env} (h : s.Lives) : Up s s := ⟨h, fun _ h => h⟩

theorem Up.trans {s s' s'' : Env} (h : Up s s') (h' : Up s' s'') : Up s s'' := ⟨h'.lives, fun i hi => h'.keep i (h.keep i hi)⟩

theorem Lives.set {s : Env} (h : s.Lives) {r : Resolver} (hr : r.Lives s.arena.Live) : Up s { s with resolver := r } :=
  ⟨⟨h.arena, hr⟩, fun _ h => h⟩

theorem Lives.diagnostic {s : Env} (h : s.Lives) (n : Notification) : Up s (s.diagnostic n) := h.set (h.resolver.diagnostic n)

theorem Lives.addRef {s : Env} (h : s.Lives) (file : NodeId) (range : NodeRange) {n : NodeId} (hn : s.arena.Live n) :
    Up s (s.addRef file range n) := h.set (h.resolver.reference file _ hn)

theorem Lives.modify {s : Env} (h : s.Lives) (i : NodeId) (u : Symbol → Symbol) :
    Up s { s with arena := s.arena.modify i u } := by
  have e : ∀ j, s.arena.Live j → (s.arena.modify i u).Live j := fun j hj => by
    unfold Arena.Live
    rw [Arena.modify_ids h.arena]
    exact hj
  exact ⟨⟨Arena.ok_modify h.arena i u, h.resolver.mono e⟩, e⟩

theorem Lives.move {s : Env} (h : s.Lives) {p c : NodeId} {b : Arena Symbol} (e : s.arena.moveTo p c = some b) :
    Up s { s with arena := b } := by
  have k : ∀ j, s.arena.Live j → b.Live j := fun j hj => (Arena.live_moveTo h.arena e j).2 hj
  exact ⟨⟨Arena.ok_moveTo h.arena e, h.resolver.mono k⟩, k⟩

theorem Lives.getLocal {s : Env} (h : s.Lives) {token : Token} {n : NodeId} (e : s.resolver.getLocal token = some n) :
    s.arena.Live n := by
  unfold Resolver.getLocal at e
  split at e
  · cases e
  · next label _ =>
    split at e
    · next c hc =>
      cases e
      split at hc
      · exact h.resolver.cls _ hc
      · cases hc
    · split at e
      · cases e
      · next top rest ht => exact h.resolver.scopes top (by rw [ht]; exact List.mem_cons_self ..) _ (Dict.get?_mem e)

/-- A result of a function of the visitor that is a node that is there. -/
def UpAns (s : Env) (p : Option NodeId × Env) : Prop := Up s p.2 ∧ ∀ n, p.1 = some n → p.2.arena.Live n

theorem up_resolve (U : Unicode) (fuel : Nat) {s : Env} (h : s.Lives) (t : TypeRef) (anchor : NodeId) :
    OkThat (UpAns s) (s.resolve U fuel t anchor) :=
  OkThat.bind (Resolver.lives_resolveTypeRef U s.arena fuel s.resolver t anchor true h.resolver) fun p hp =>
    OkThat.ok ⟨h.set hp.1, hp.2⟩

theorem up_uniqueParent (U : Unicode) (fuel : Nat) {s : Env} (h : s.Lives) (sym : Symbol) (ctx : NodeId) :
    OkThat (fun p : Option NodeId × Resolver => UpAns s (p.1, { s with resolver := p.2 }))
      (Resolver.uniqueParent U s.arena fuel s.resolver sym ctx) :=
  (Resolver.lives_uniqueParent U s.arena fuel s.resolver sym ctx h.resolver).mono fun p hp => ⟨h.set hp.1, hp.2⟩

theorem up_resolveEach (U : Unicode) (fuel : Nat) {s : Env} (h : s.Lives) (ts : List TypeRef) (anchor : NodeId) :
    OkThat (Up s) (s.resolveEach U fuel ts anchor) := by
  refine OkThat.foldlM (P := Up s) ?_ ts s h.up
  intro s' t h
  exact (up_resolve U fuel h.lives t anchor).bind fun p hp => OkThat.ok (h.trans hp.1)

theorem up_resolveTypes (U : Unicode) (fuel : Nat) {s : Env} (h : s.Lives) (ts : List TypeRef) (anchor : NodeId) :
    OkThat (fun p : List SymRef × Env => Up s p.2) (s.resolveTypes U fuel ts anchor) := by
  refine OkThat.foldlM (P := fun p : List SymRef × Env => Up s p.2) ?_ ts ([], s) h.up
  intro acc t h
  exact (up_resolve U fuel h.lives t anchor).bind fun p hp => OkThat.bindOption fun ref _ => OkThat.ok (h.trans hp.1)

theorem up_refLocal {s : Env} (h : s.Lives) (file : NodeId) (token : Token) {n : NodeId} (hn : s.arena.Live n) :
    OkThat (Up s) (s.refLocal file token n) := by
  unfold refLocal Resolver.referenceLocal
  refine OkThat.bind (Q := fun r => r.Lives s.arena.Live) ?_ fun r hr => OkThat.ok (h.set hr)
  exact OkThat.bindOption fun range _ => OkThat.ok (h.resolver.reference file _ hn)

theorem lives_setTop {s : Env} (h : s.Lives) {top : Dict Text NodeId} {rest : List (Dict Text NodeId)}
    (e : s.resolver.localScopes = top :: rest) (name : Text) {n : NodeId} (hn : s.arena.Live n) :
    Resolver.Lives s.arena.Live { s.resolver with localScopes := Dict.insert top name n :: rest } := by
  refine ⟨h.resolver.globals, ?_, h.resolver.cls, h.resolver.cache, h.resolver.refs⟩
  intro d hd x hx
  rcases List.mem_cons.1 hd with hd | hd
  · subst hd
    rcases Dict.mem_insert hx with hx | hx
    · subst hx; exact hn
    · exact h.resolver.scopes top (by rw [e]; exact List.mem_cons_self ..) x hx
  · exact h.resolver.scopes d (by rw [e]; exact List.mem_cons_of_mem _ hd) x hx

theorem up_declareNew {s : Env} (h : s.Lives) (file : NodeId) (token : Token) {n : NodeId} (hn : s.arena.Live n) :
    OkThat (UpAns s) (s.declareNew file token n) := by
  unfold declareNew Resolver.declareLocalIfNew
  refine OkThat.bind (Q := fun p => UpAns s (p.1, { s with resolver := p.2 })) ?_ fun r hr => OkThat.ok hr
  split
  · exact OkThat.ok ⟨h.up, fun n e => nomatch e⟩
  · exact OkThat.ok ⟨h.up, fun n e => nomatch e⟩
  · next top rest name h1 h2 =>
    split
    · next node e =>
      have hnode : s.arena.Live node := h.resolver.scopes top (by rw [h1]; exact List.mem_cons_self ..) _ (Dict.get?_mem e)
      exact OkThat.bindOption fun range _ => OkThat.ok ⟨h.set (h.resolver.reference file _ hnode), fun m e => by cases e; exact hnode⟩
    · refine OkThat.bind (Q := fun r => Resolver.Lives s.arena.Live r) ?_ fun r hr =>
        OkThat.ok ⟨h.set hr, fun m e => by cases e; exact hn⟩
      exact OkThat.bindOption fun range _ => OkThat.ok ((lives_setTop h h1 name hn).reference file _ hn)

theorem up_declareOver {s : Env} (h : s.Lives) (file : NodeId) (token : Token) {n : NodeId} (hn : s.arena.Live n)
    (addRef : Bool) : OkThat (Up s) (s.declareOver file token n addRef) := by
  unfold declareOver
  refine OkThat.bind (Q := fun r => Resolver.Lives s.arena.Live r) ?_ fun r hr => OkThat.ok (h.set hr)
  have key : ∀ r : Resolver, r.Lives s.arena.Live →
      OkThat (fun r => Resolver.Lives s.arena.Live r) (if addRef then r.referenceLocal file token n else .ok r) := by
    intro r h
    split
    · unfold Resolver.referenceLocal
      exact OkThat.bindOption fun range _ => OkThat.ok (h.reference file _ hn)
    · exact OkThat.ok h
  refine key _ ?_
  split
  · next top rest name h1 h2 => exact lives_setTop h h1 name hn
  · exact h.resolver

theorem up_addVar {s : Env} (h : s.Lives) (v : Symbol) :
    OkThat (fun p : NodeId × Env => Up s p.2 ∧ p.2.arena.Live p.1) (s.addVar v) := by
  unfold addVar
  refine OkThat.bindOption fun w hw => OkThat.ok ?_
  have hp := Arena.idx_of_get? hw
  have k : ∀ j, s.arena.Live j → (s.arena.addChild s.resolver.scopeContainer v).2.Live j := fun j hj =>
    (Arena.live_added h.arena hp v j).2 (Or.inr hj)
  exact ⟨⟨⟨Arena.ok_addChild h.arena hp v, h.resolver.mono k⟩, k⟩, (Arena.live_added h.arena hp v _).2 (Or.inl rfl)⟩

/-- Declaring a variable. -/
theorem up_assign {s : Env} (h : s.Lives) (token : Token) (d : Option NodeId) (file : NodeId) {β : Type} {P : β → Prop}
    {f : NodeId × Env → Option NodeId × Env → Out β}
    (hf : ∀ (c : NodeId × Env) (e : Option NodeId × Env), UpAns s e → OkThat P (f c e)) :
    OkThat P (do
      let sym ← assigned token d
      let c ← s.addVar sym
      let e ← c.2.declareNew file token c.1
      f c e) := by
  refine (OkThat.any (assigned token d)).bind fun v _ => ?_
  refine (up_addVar h v).bind fun c hc => ?_
  exact (up_declareNew hc.1.lives file token hc.2).bind fun e he => hf c e ⟨hc.1.trans he.1, he.2⟩

theorem up_variableType (U : Unicode) (fuel : Nat) (node : NodeId) : ∀ (l : List SymRef) (s : Env), s.Lives →
    OkThat (fun p : (NodeId × Visibility) × Env => Up s p.2) (variableType U fuel node l s)
  | [], s, h => OkThat.ok h.up
  | ref :: rest, s, h => by
    unfold variableType
    split
    · exact OkThat.ok h.up
    · refine (up_resolve U fuel h ref.typeRef node).bind fun p hp => ?_
      split
      · exact OkThat.ok hp.1
      · exact (up_variableType U fuel node rest p.2 hp.1.lives).mono fun q hq => hp.1.trans hq

/-- A function that keeps the invariant. -/
def UpFn (call : Env → Node → Out (Option NodeId × Env)) : Prop :=
  ∀ s n, s.Lives → OkThat (fun p : Option NodeId × Env => Up s p.2) (call s n)

theorem UpFn.each {call : Env → Node → Out (Option NodeId × Env)} (hc : UpFn call) (l : List Node) {s : Env} (h : s.Lives) :
    OkThat (Up s) (l.foldlM (fun s c => do let q ← call s c; pure q.2) s) := by
  refine OkThat.foldlM (P := Up s) ?_ l s h.up
  intro s' n h'
  exact (hc s' n h'.lives).bind fun q hq => OkThat.ok (h'.trans hq)

theorem UpFn.opt {call : Env → Node → Out (Option NodeId × Env)} (hc : UpFn call) (o : Option Node) {s : Env} (h : s.Lives) :
    OkThat (Up s) (match o with
      | some i => do let p ← call s i; pure p.2
      | none => pure s) := by
  cases o with
  | none => exact OkThat.ok h.up
  | some n => exact (hc s n h).bind fun q hq => OkThat.ok hq

theorem up_rootOf (U : Unicode) (file : NodeId) {call : Env → Node → Out (Option NodeId × Env)} (hc : UpFn call)
    (node : Node) : ∀ (fuel : Nat) (cur : Node) (chain : List Node) (s : Env), s.Lives →
    OkThat (fun p : Root × Env => Up s p.2) (rootOf U file call node fuel cur chain s)
  | 0, _, _, _, _ => OkThat.deep
  | fuel + 1, cur, chain, s, h => by
    have ih := up_rootOf U file hc node fuel
    unfold rootOf
    split
    · next left token right =>
      split
      · split
        · next v =>
          refine (hc s right h).bind fun d hd => ?_
          refine up_assign hd.lives v d.1 file fun c e he => ?_
          exact (ih _ chain e.2 he.1.lives).mono fun q hq => (hd.trans he.1).trans hq
        · exact OkThat.ok h.up
      · refine (hc s left h).bind fun p hp => ?_
        refine (hc p.2 right hp.lives).bind fun q hq => ?_
        exact OkThat.ok (hp.trans hq)
    · next check qm trueArm colon falseArm =>
      refine (hc s check h).bind fun p hp => ?_
      refine OkThat.bind (Q := fun q : Option NodeId × Env => Up s q.2) ?_ fun q hq => ?_
      · cases trueArm with
        | none => exact OkThat.ok hp
        | some t => exact (hc p.2 t hp.lives).mono fun q hq => hp.trans hq
      · exact (hc q.2 falseArm hq.lives).bind fun w hw => OkThat.ok (hq.trans hw)
    · exact ih _ chain s h
    · exact ih _ chain s h
    · exact ih _ chain s h
    · exact ih _ chain s h
    · next callee op ps cp =>
      refine (hc.each ps h).bind fun s' h' => ?_
      exact (ih _ chain s' h'.lives).mono fun q hq => h'.trans hq
    · next ob es cb => exact (hc.each es h).bind fun s' h' => OkThat.ok h'
    · exact (hc s _ h).bind fun p hp => OkThat.ok hp
    · exact ih _ _ s h
    · exact ih _ _ s h
    · next token =>
      split
      · exact OkThat.ok h.up
      · next n hn =>
        refine (up_refLocal h file token (h.getLocal hn)).bind fun s' h' => ?_
        split
        · exact OkThat.ok h'
        · split
          · exact OkThat.ok h'
          · refine OkThat.bindOption fun sym _ => ?_
            exact (up_variableType U fuel n sym.dataTypes s' h'.lives).bind fun p hp => OkThat.ok (h'.trans hp)
    · next token =>
      split
      · exact OkThat.ok h.up
      · split
        · split
          · exact OkThat.ok h.up
          · next c _ =>
            refine OkThat.bindOption fun sym _ => ?_
            exact (up_uniqueParent U fuel h sym c).bind fun p hp => OkThat.ok hp.1
        · split
          · exact OkThat.ok h.up
          · exact (up_resolve U fuel h _ _).bind fun p hp => OkThat.ok hp.1
    · refine (up_resolve U fuel h _ _).bind fun p hp => ?_
      split
      · exact OkThat.ok hp.1
      · exact OkThat.ok hp.1
    · next array ob index cb =>
      refine (hc.opt index h).bind fun s' h' => ?_
      split
      · next collection =>
        split
        · exact OkThat.ok h'
        · next v hv =>
          refine (up_refLocal h'.lives file collection (h'.lives.getLocal hv)).bind fun s2 h2 => ?_
          refine OkThat.bindOption fun sym _ => ?_
          split
          · exact OkThat.ok (h'.trans h2)
          · exact OkThat.ok (h'.trans h2)
      · exact (ih _ _ s' h'.lives).mono fun q hq => h'.trans hq
      · next array2 a index2 b =>
        refine (hc.opt index2 h'.lives).bind fun s2 h2 => ?_
        exact (ih _ _ s2 h2.lives).mono fun q hq => (h'.trans h2).trans hq
      · exact OkThat.ok h'
    · exact (hc.each node.children h).bind fun s' h' => OkThat.ok h'

theorem up_memberTypes (U : Unicode) (fuel : Nat) (fileName : Text) (range : Option NodeRange) (root : NodeId) :
    ∀ (l : List SymRef) (s : Env), s.Lives →
    OkThat (fun p : Hop × Env => Up s p.2) (memberTypes U fuel fileName range root l s)
  | [], s, h => OkThat.ok h.up
  | ref :: rest, s, h => by
    unfold memberTypes
    refine OkThat.bindOption fun first _ => ?_
    split
    · exact OkThat.ok h.up
    · refine OkThat.bindOption fun o _ => OkThat.bindOption fun name _ => ?_
      split
      · exact OkThat.ok h.up
      · split
        · refine OkThat.bindOption fun sym _ => ?_
          refine (up_uniqueParent U fuel h sym root).bind fun p hp => ?_
          split
          · exact OkThat.ok hp.1
          · exact OkThat.bindOption fun r _ => OkThat.ok (hp.1.trans (hp.1.lives.diagnostic _))
        · refine (up_resolve U fuel h _ _).bind fun p hp => ?_
          split
          · exact OkThat.ok hp.1
          · exact (up_memberTypes U fuel fileName range root rest p.2 hp.1.lives).mono fun q hq => hp.1.trans hq

theorem up_link (U : Unicode) (H : HashOrder) (file : NodeId) (fuel : Nat) (fileName : Text) (minimal : Visibility)
    (root : NodeId) (l : Node) {s : Env} (h : s.Lives) :
    OkThat (fun p : Hop × Env => Up s p.2) (link U H file fuel fileName minimal root l s) := by
  unfold link
  refine OkThat.bindOption fun o _ => ?_
  split
  · exact OkThat.ok h.up
  · refine (Resolver.lives_allSymbols U H s.arena (fun i cs e c hc => Arena.children_live e hc) fuel s.resolver root
      h.resolver).bind fun m hm => ?_
    have hu : Up s { s with resolver := m.2 } := h.set hm.2
    dsimp only
    split
    · exact OkThat.bindOption fun r _ => OkThat.bindOption fun n _ => OkThat.ok (hu.trans (hu.lives.diagnostic _))
    · next child hchild =>
      have hl : s.arena.Live child.symbol := hm.1.get hchild
      refine OkThat.bindOption fun sym _ => ?_
      split
      · refine OkThat.bind (Q := fun s' : Env => Up s s') ?_ fun s' h' => ?_
        · split
          · exact OkThat.bindOption fun r _ => OkThat.ok (hu.trans (hu.lives.diagnostic _))
          · exact OkThat.ok hu
        · refine OkThat.bind (Q := fun s' : Env => Up s s') ?_ fun s2 h2 => ?_
          · split
            · exact (up_refLocal h'.lives file _ (h'.keep _ hl)).mono fun _ h2 => h'.trans h2
            · exact (up_refLocal h'.lives file _ (h'.keep _ hl)).mono fun _ h2 => h'.trans h2
            · exact OkThat.ok h'
          · split
            · exact (up_memberTypes U fuel fileName l.range root sym.dataTypes s2 h2.lives).mono fun q hq => h2.trans hq
            · exact OkThat.ok h2
      · exact OkThat.bindOption fun r _ => OkThat.ok (hu.trans (hu.lives.diagnostic _))

theorem up_links (U : Unicode) (H : HashOrder) (file : NodeId) (fuel : Nat) (fileName : Text) (minimal : Visibility) :
    ∀ (l : List Node) (root : NodeId) (s : Env), s.Lives →
    OkThat (fun p : Option NodeId × Env => Up s p.2) (links U H file fuel fileName minimal root l s)
  | [], root, s, h => OkThat.ok h.up
  | l :: rest, root, s, h => by
    unfold links
    refine (up_link U H file fuel fileName minimal root l h).bind fun p hp => ?_
    split
    · exact OkThat.ok hp
    · exact (up_links U H file fuel fileName minimal rest _ p.2 hp.lives).mono fun q hq => hp.trans hq

theorem up_memberType (U : Unicode) (H : HashOrder) (file : NodeId) : ∀ fuel : Nat, UpFn (memberType U H file fuel)
  | 0 => fun _ _ _ => OkThat.deep
  | fuel + 1 => by
    intro s node h
    unfold memberType
    refine (up_rootOf U file (up_memberType U H file fuel) node fuel node [] s h).bind fun p hp => ?_
    split
    · exact OkThat.ok hp
    · refine OkThat.bindOption fun anc _ => OkThat.bindOption fun top _ => OkThat.bindOption fun f _ => ?_
      split
      · exact OkThat.ok hp
      · exact (up_links U H file fuel _ _ _ _ p.2 hp.lives).mono fun q hq => hp.trans hq

theorem childNamed_live (s : Env) (name : Text) :
    OkThat (fun o : Option NodeId => ∀ n, o = some n → s.arena.Live n) (childNamed s name) := by
  unfold childNamed
  refine OkThat.bindOption fun cs hcs => OkThat.ok ?_
  intro n hn
  obtain ⟨c, hc, rfl⟩ := Option.map_eq_some_iff.1 hn
  exact Arena.children_live hcs (List.mem_of_find?_eq_some hc)

theorem up_foreachItem (file collection : NodeId) (kv : Node) {s : Env} (h : s.Lives) :
    OkThat (Up s) (foreachItem file collection kv s) := by
  unfold foreachItem
  refine OkThat.bindOption fun c _ => ?_
  split
  · refine OkThat.bindOption fun ts _ => OkThat.bindOption fun v hv => ?_
    refine (up_addVar h _).bind fun n hn => ?_
    exact (up_declareOver hn.1.lives file _ hn.2 false).mono fun _ h => hn.1.trans h
  · exact OkThat.ok h.up

theorem up_visitArgument (U : Unicode) (file : NodeId) (fuel : Nat) (name : Token) (doc : Option Node) (parent : NodeId)
    {s : Env} (h : s.Lives) : OkThat (Up s) (visitArgument U file fuel name doc parent s) := by
  unfold visitArgument
  refine OkThat.bind (Q := fun o : Option NodeId => ∀ n, o = some n → s.arena.Live n) ?_ fun arg harg => ?_
  · split
    · exact childNamed_live s _
    · exact OkThat.bindOption fun _ _ => OkThat.ok fun n e => nomatch e
  · split
    · exact OkThat.ok h.up
    · next arg =>
      have ha := harg arg rfl
      refine OkThat.bindOption fun sym _ => ?_
      refine (up_resolveTypes U fuel h _ parent).bind fun p hp => ?_
      have h1 : Up s { p.2 with arena := p.2.arena.modify arg fun v => { v with dataTypes := p.1 } } :=
        hp.trans (hp.lives.modify arg _)
      refine (up_declareOver h1.lives file name (h1.keep _ ha) true).bind fun s2 h2 => ?_
      split
      · exact (up_refLocal h2.lives file _ (h2.keep _ (h1.keep _ ha))).mono fun _ h3 => (h1.trans h2).trans h3
      · exact OkThat.ok (h1.trans h2)

theorem up_visitAssignment (U : Unicode) (H : HashOrder) (file : NodeId) (fuel : Nat) (left right : Node) {s : Env}
    (h : s.Lives) : OkThat (Up s) (visitAssignment U H file fuel left right s) := by
  unfold visitAssignment
  refine (up_memberType U H file fuel s right h).bind fun d hd => ?_
  split
  · next v =>
    refine up_assign hd.lives v d.1 file fun c e he => ?_
    refine OkThat.bindOption fun repr _ => ?_
    split
    · split
      · exact OkThat.bindOption fun ref _ => OkThat.ok ((hd.trans he.1).trans (he.1.lives.modify repr _))
      · exact OkThat.ok (hd.trans he.1)
    · exact OkThat.ok (hd.trans he.1)
  · exact (up_memberType U H file fuel d.2 left hd.lives).bind fun p hp => OkThat.ok (hd.trans hp)

theorem up_visitDocVar (U : Unicode) (file : NodeId) (fuel : Nat) (name : Token) (types : Option (List TypeRef))
    (parent : NodeId) {s : Env} (h : s.Lives) : OkThat (Up s) (visitDocVar U file fuel name types parent s) := by
  unfold visitDocVar
  refine (up_resolveTypes U fuel h _ parent).bind fun p hp => ?_
  dsimp only
  split
  · next existing he =>
    have hl := hp.lives.getLocal he
    refine OkThat.bindOption fun a ha => ?_
    have h1 := hp.lives.modify existing fun v => { v with dataTypes := v.dataTypes ++ p.1 }
    have h2 := h1.lives.move ha
    refine OkThat.bind (up_declareNew (s := { p.2 with arena := a }) h2.lives file name (h2.keep _ (h1.keep _ hl))) fun q hq =>
      OkThat.ok ?_
    exact ((hp.trans h1).trans h2).trans hq.1
  · refine OkThat.bindOption fun v hv => ?_
    refine (up_addVar hp.lives _).bind fun c hc => ?_
    exact (up_declareNew hc.1.lives file name hc.2).bind fun q hq => OkThat.ok ((hp.trans hc.1).trans hq.1)

theorem up_visitClass (U : Unicode) (fuel : Nat) (name : Token) (parent : NodeId) {s : Env} (h : s.Lives) :
    OkThat (fun p : NextAction × Env => Up s p.2) (visitClass U fuel name parent s) := by
  unfold visitClass
  refine (up_resolve U fuel h _ parent).bind fun p hp => ?_
  split
  · next c hc =>
    refine OkThat.ok (hp.1.trans (hp.1.lives.set ?_))
    have := hp.1.lives.resolver
    exact ⟨this.globals, this.scopes, fun d e => by cases e; exact hp.2 c hc, this.cache, this.refs⟩
  · exact OkThat.ok hp.1

theorem up_visitFunction (U : Unicode) (fuel : Nat) (doc : Option Node) (parent : NodeId) {s : Env} (h : s.Lives) :
    OkThat (fun p : NextAction × Env => Up s p.2) (visitFunction U fuel doc parent s) := by
  unfold visitFunction
  refine OkThat.bind (Q := fun s' => Up s s') ?_ fun s' h => OkThat.ok h
  split
  · exact up_resolveEach U fuel h _ parent
  · exact OkThat.ok h.up

theorem up_visitName (U : Unicode) (H : HashOrder) (file : NodeId) (fuel : Nat) (node : Node) (parent : NodeId) {s : Env}
    (h : s.Lives) : OkThat (fun p : NextAction × Env => Up s p.2) (visitName U H file fuel node parent s) := by
  unfold visitName
  split
  · refine OkThat.bindOption fun name _ => ?_
    split
    · exact OkThat.ok h.up
    · next n hn =>
      have hl : s.arena.Live n := h.resolver.globals _ (Dict.get?_mem hn)
      refine OkThat.bindOption fun sym _ => ?_
      refine OkThat.bind (Q := fun s' : Env => Up s s') ?_ fun s' h' => ?_
      · split
        · exact OkThat.ok h.up
        · exact OkThat.bindOption fun f _ => OkThat.bindOption fun r _ => OkThat.ok (h.diagnostic _)
      · exact OkThat.bindOption fun r _ => OkThat.ok (h'.trans (h'.lives.addRef _ _ (h'.keep _ hl)))
  · exact (up_resolve U fuel h _ parent).bind fun p hp => OkThat.ok hp.1
  · exact up_visitClass U fuel _ parent h
  · exact up_visitClass U fuel _ parent h
  · exact up_visitClass U fuel _ parent h
  · exact up_visitFunction U fuel _ parent h
  · exact up_visitFunction U fuel _ parent h
  · exact OkThat.ok h.up
  · exact OkThat.ok h.up
  · next token =>
    split
    · next n hn => exact (up_refLocal h file token (h.getLocal hn)).bind fun s' h => OkThat.ok h
    · refine OkThat.bindOption fun v hv => ?_
      refine (up_addVar h v).bind fun c hc => ?_
      exact (up_declareNew hc.1.lives file token hc.2).bind fun p hp => OkThat.ok (hc.1.trans hp.1)
  · exact (up_visitDocVar U file fuel _ _ parent h).bind fun s' h => OkThat.ok h
  · refine OkThat.bindOption fun ts _ => OkThat.bindOption fun v hv => ?_
    refine (up_addVar h _).bind fun c hc => ?_
    exact (up_declareOver hc.1.lives file _ hc.2 false).bind fun s' h => OkThat.ok (hc.1.trans h)
  · split
    · split
      · exact (up_foreachItem file _ _ h).bind fun s' h => OkThat.ok h
      · exact OkThat.ok h.up
    · refine (up_memberType U H file fuel s _ h).bind fun p hp => ?_
      split
      · exact (up_foreachItem file _ _ hp.lives).bind fun s' h => OkThat.ok (hp.trans h)
      · exact OkThat.ok hp
    · exact OkThat.ok h.up
  · exact (up_visitArgument U file fuel _ _ parent h).bind fun s' h => OkThat.ok h
  · exact (up_resolveEach U fuel h _ parent).bind fun s' h => OkThat.ok h
  · next left token right =>
    split
    · exact (up_visitAssignment U H file fuel left right h).bind fun s' h => OkThat.ok h
    · exact OkThat.ok h.up
  · exact (up_memberType U H file fuel s _ h).bind fun p hp => OkThat.ok hp
  · exact (up_memberType U H file fuel s _ h).bind fun p hp => OkThat.ok hp
  · exact OkThat.ok h.up
  · exact OkThat.ok h.up

theorem Lives.scoped {s : Env} (h : s.Lives) {l : List (Dict Text NodeId)} (hl : ∀ d ∈ l, d = [] ∨ d ∈ s.resolver.localScopes) :
    Up s { s with resolver := { s.resolver with localScopes := l } } := by
  refine h.set ⟨h.resolver.globals, ?_, h.resolver.cls, h.resolver.cache, h.resolver.refs⟩
  intro d hd e he
  rcases hl d hd with hd | hd
  · subst hd; cases he
  · exact h.resolver.scopes d hd e he

theorem Lives.contained {s : Env} (h : s.Lives) (c : NodeId) :
    Up s { s with resolver := { s.resolver with scopeContainer := c } } :=
  h.set ⟨h.resolver.globals, h.resolver.scopes, h.resolver.cls, h.resolver.cache, h.resolver.refs⟩

theorem Lives.pushed {s : Env} (h : s.Lives) : Up s { s with resolver := s.resolver.pushScope } :=
  h.scoped fun _ hd => List.mem_cons.1 hd

theorem Lives.cloned {s : Env} (h : s.Lives) : Up s { s with resolver := s.resolver.cloneScope } := by
  refine h.scoped fun d hd => ?_
  rcases List.mem_cons.1 hd with hd | hd
  · cases hs : s.resolver.localScopes with
    | nil => rw [hs] at hd; exact Or.inl hd
    | cons t r => rw [hs] at hd; exact Or.inr (by rw [hd]; exact List.mem_cons_self ..)
  · exact Or.inr hd

theorem up_beforeFunction (file : NodeId) (name : Token) {s : Env} (h : s.Lives) : OkThat (Up s) (beforeFunction file name s) := by
  unfold beforeFunction
  have h0 := h.pushed
  refine OkThat.bindOption fun n _ => ?_
  refine (childNamed_live _ n).bind fun c hc => ?_
  split
  · exact OkThat.ok h0
  · next m =>
    refine OkThat.bindOption fun range _ => OkThat.ok ?_
    have h1 := h0.lives.contained m
    exact (h0.trans h1).trans (h1.lives.addRef file range (hc m rfl))

theorem up_beforeProperty (file : NodeId) (name : Token) {s : Env} (h : s.Lives) : OkThat (Up s) (beforeProperty file name s) := by
  unfold beforeProperty
  split
  · exact OkThat.ok h.up
  · refine (childNamed_live s _).bind fun c hc => ?_
    split
    · exact OkThat.ok h.up
    · next m => exact OkThat.bindOption fun range _ => OkThat.ok (h.addRef file range (hc m rfl))

theorem up_beforeName (file : NodeId) (node : Node) (parent : NodeId) {s : Env} (h : s.Lives) :
    OkThat (Up s) (beforeName file node parent s) := by
  unfold beforeName
  split
  · exact up_beforeFunction file _ h
  · exact up_beforeFunction file _ h
  · exact up_beforeProperty file _ h
  · exact up_beforeProperty file _ h
  · have h0 := h.cloned
    refine OkThat.bindOption fun range _ => ?_
    refine (childNamed_live _ _).bind fun c hc => ?_
    split
    · exact OkThat.ok h0
    · next m => exact OkThat.ok (h0.trans (h0.lives.contained m))
  · exact OkThat.ok h.up

theorem up_afterName (node : Node) (parent : NodeId) {s : Env} (h : s.Lives) : OkThat (Up s) (afterName node parent s) := by
  have leave : Up s { s with resolver := { s.resolver.leaveClass with scopeContainer := parent } } :=
    h.set ⟨h.resolver.globals, h.resolver.scopes, (fun c e => nomatch e), h.resolver.cache, h.resolver.refs⟩
  have pop : Up s { s with resolver := { s.resolver.popScope with scopeContainer := parent } } :=
    h.set ⟨h.resolver.globals, fun d hd => h.resolver.scopes d (List.mem_of_mem_tail hd), h.resolver.cls, h.resolver.cache,
      h.resolver.refs⟩
  unfold afterName
  split
  · exact OkThat.ok leave
  · exact OkThat.ok leave
  · exact OkThat.ok leave
  · exact OkThat.ok pop
  · exact OkThat.ok pop
  · exact OkThat.ok pop
  · exact OkThat.ok h.up

/-- The walk over a tree: no node goes away, and the resolver only knows nodes that are there. -/
theorem up_traverse (U : Unicode) (H : HashOrder) (file : NodeId) (depth : Nat) : ∀ (fuel : Nat) (node : Node) (parent : NodeId)
    (s : Env), s.Lives → OkThat (Up s) (traverse Node.children (nameVisitor U H file depth) fuel node parent s)
  | 0, _, _, _, _ => OkThat.deep
  | fuel + 1, node, parent, s, h => by
    unfold traverse
    refine (up_beforeName file node parent h).bind fun s1 h1 => ?_
    refine (up_visitName U H file depth node parent h1.lives).bind fun p hp => ?_
    have h2 := h1.trans hp
    refine OkThat.bind (Q := Up s) ?_ fun s3 h3 => (up_afterName node parent h3.lives).mono fun _ h4 => h3.trans h4
    split
    · exact OkThat.ok h2
    · refine OkThat.foldlM (P := Up s) ?_ _ _ h2
      intro s' c h'
      exact (up_traverse U H file depth fuel c _ s' h'.lives).mono fun _ h4 => h'.trans h4

end Env

end PhpLs
