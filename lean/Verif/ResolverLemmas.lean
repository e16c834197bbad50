import Verif.Resolver

/-!
# What resolving a name changes
-/

namespace PhpLs.Resolver

open Out

/-- The references recorded for a file. -/
def refsOf (r : Resolver) (file : NodeId) : List NameRef := (Dict.get? r.documentReferences file).getD []

/-- What a query may do to the resolver: the scopes, the current class and the global table stay, what is remembered stays,
references and diagnostics are only added. -/
structure Step (r r' : Resolver) : Prop where
  globalScope : r'.globalScope = r.globalScope
  localScopes : r'.localScopes = r.localScopes
  currentClass : r'.currentClass = r.currentClass
  scopeContainer : r'.scopeContainer = r.scopeContainer
  cache : ∀ k v, Dict.get? r.cache k = some v → Dict.get? r'.cache k = some v
  refs : ∀ f, r.refsOf f <+: r'.refsOf f
  diagnostics : r.diagnostics <+: r'.diagnostics

namespace Step

theorem refl (r : Resolver) : Step r r :=
  ⟨rfl, rfl, rfl, rfl, fun _ _ h => h, fun _ => List.prefix_rfl, List.prefix_rfl⟩

theorem trans {r r' r'' : Resolver} (h : Step r r') (h' : Step r' r'') : Step r r'' :=
  ⟨h'.globalScope.trans h.globalScope, h'.localScopes.trans h.localScopes, h'.currentClass.trans h.currentClass,
    h'.scopeContainer.trans h.scopeContainer, fun k v hk => h'.cache k v (h.cache k v hk),
    fun f => (h.refs f).trans (h'.refs f), h.diagnostics.trans h'.diagnostics⟩

theorem diagnostic (r : Resolver) (n : Notification) : Step r (r.diagnostic n) :=
  ⟨rfl, rfl, rfl, rfl, fun _ _ h => h, fun _ => List.prefix_rfl, List.prefix_append _ _⟩

theorem reference (r : Resolver) (file : NodeId) (x : NameRef) : Step r (r.reference file x) := by
  refine ⟨rfl, rfl, rfl, rfl, fun _ _ h => h, ?_, List.prefix_rfl⟩
  intro f
  simp only [refsOf, Resolver.reference, Dict.get?_insert]
  split
  · next h => subst h; exact List.prefix_append _ _
  · exact List.prefix_rfl

/-- Remembering something for a place for which nothing is remembered. -/
theorem cached {r r' : Resolver} (h : Step r r') {k : NodeId × NodeRange} (hk : Dict.get? r.cache k = none) (v : Option NodeId) :
    Step r (r'.cached k v) := by
  refine ⟨h.globalScope, h.localScopes, h.currentClass, h.scopeContainer, ?_, h.refs, h.diagnostics⟩
  intro k' v' hv
  simp only [Resolver.cached, Dict.get?_insert]
  split
  · next e => rw [e, hv] at hk; cases hk
  · exact h.cache k' v' hv

end Step

/-- No reference is added. -/
def Quiet (r r' : Resolver) : Prop := r'.documentReferences = r.documentReferences

/-- A query that registers references only if `reg`. -/
def Query (reg : Bool) (r r' : Resolver) : Prop := Step r r' ∧ (reg = false → Quiet r r')

namespace Query

theorem refl (reg : Bool) (r : Resolver) : Query reg r r := ⟨Step.refl r, fun _ => rfl⟩

theorem trans {reg : Bool} {r r' r'' : Resolver} (h : Query reg r r') (h' : Query reg r' r'') : Query reg r r'' :=
  ⟨h.1.trans h'.1, fun e => (h'.2 e).trans (h.2 e)⟩

theorem ofQuiet {reg : Bool} {r r' : Resolver} (h : Query false r r') : Query reg r r' := ⟨h.1, fun _ => h.2 rfl⟩

theorem diagnostic (reg : Bool) (r : Resolver) (n : Notification) : Query reg r (r.diagnostic n) :=
  ⟨Step.diagnostic r n, fun _ => rfl⟩

theorem cached {reg : Bool} {r r' : Resolver} (h : Query reg r r') {k : NodeId × NodeRange} (hk : Dict.get? r.cache k = none)
    (v : Option NodeId) : Query reg r (r'.cached k v) := ⟨h.1.cached hk v, fun e => h.2 e⟩

end Query

theorem query_lookup {U : Unicode} {a : Arena Symbol} {r : Resolver} {t : TypeRef} {file : NodeId} {fileName name : Text}
    {range : NodeRange} {joined : Text} {reg : Bool} (hc : Dict.get? r.cache (file, range) = none) :
    OkThat (fun p => Query reg r p.2 ∧ Dict.get? p.2.cache (file, range) = some p.1)
      (lookup U a r t file fileName name range joined reg) := by
  unfold lookup
  cases lookupGlobal U r.globalScope joined name with
  | none =>
    refine OkThat.ok ⟨(Query.diagnostic reg r _).cached hc none, ?_⟩
    simp [Resolver.cached, Dict.get?_insert]
  | some p =>
    obtain ⟨node, compName⟩ := p
    refine OkThat.bindOption fun s _ => OkThat.ok ⟨?_, by simp [Resolver.cached, Dict.get?_insert]⟩
    refine Query.cached ?_ hc _
    have h1 : Query reg r (if reg = true then r.reference file ⟨range, node⟩ else r) := by
      cases reg with
      | true => exact ⟨Step.reference _ _ _, by simp⟩
      | false => exact Query.refl _ _
    split
    · exact h1
    · exact h1.trans (Query.diagnostic _ _ _)

theorem query_resolveName {U : Unicode} {a : Arena Symbol} {r : Resolver} {t : TypeRef} {anchor file : NodeId}
    {fileSymbol : Symbol} {name : Text} {range : NodeRange} {reg : Bool} (hc : Dict.get? r.cache (file, range) = none) :
    OkThat (fun p => Query reg r p.2 ∧ Dict.get? p.2.cache (file, range) = some p.1)
      (resolveName U a r t anchor file fileSymbol name range reg) := by
  unfold resolveName
  exact OkThat.bindOption fun _ _ => OkThat.bindOption fun _ _ => OkThat.bindOption fun _ _ => OkThat.bindOption fun _ _ =>
    query_lookup hc

/-- The place in the cache a name has. -/
def keyOf (a : Arena Symbol) (t : TypeRef) (anchor : NodeId) : Option (NodeId × NodeRange) := do
  let ancestors ← a.ancestors? anchor
  let file ← ancestors.getLast?
  let range ← t.range
  pure (file, range)

private theorem query_all (U : Unicode) (a : Arena Symbol) (fuel : Nat) :
    (∀ r t anchor reg, OkThat (fun p => Query reg r p.2 ∧ ((t.isBuiltin || t.isEmpty) = false →
        ∃ k, keyOf a t anchor = some k ∧ Dict.get? p.2.cache k = some p.1))
      (resolveTypeRef U a fuel r t anchor reg)) ∧
    (∀ r s ctx, OkThat (fun p => Query false r p.2) (uniqueParent U a fuel r s ctx)) ∧
    (∀ r s ctx, OkThat (fun p => Query false r p.2) (parentNodes U a fuel r s ctx)) := by
  induction fuel with
  | zero => exact ⟨fun _ _ _ _ => OkThat.deep, fun _ _ _ => OkThat.deep, fun _ _ _ => OkThat.deep⟩
  | succ fuel ih =>
    obtain ⟨ih1, ih2, ih3⟩ := ih
    refine ⟨?_, ?_, ?_⟩
    · intro r t anchor reg
      unfold resolveTypeRef
      split
      · next h => exact OkThat.ok ⟨Query.refl _ _, fun e => by rw [e] at h; cases h⟩
      · refine OkThat.bindOption fun ancestors ha => OkThat.bindOption fun file hf => OkThat.bindOption fun fs _ =>
          OkThat.bindOption fun root _ => OkThat.bindOption fun name _ => OkThat.bindOption fun range hr => ?_
        have hkey : keyOf a t anchor = some (file, range) := by simp [keyOf, ha, hf, hr]
        split
        · next c hc => exact OkThat.ok ⟨Query.refl _ _, fun _ => ⟨_, hkey, hc⟩⟩
        · next hc =>
          split
          · split
            · exact OkThat.ok ⟨(Query.refl _ _).cached hc _, fun _ => ⟨_, hkey, by simp [Resolver.cached, Dict.get?_insert]⟩⟩
            · exact OkThat.ok ⟨(Query.diagnostic _ _ _).cached hc _,
                fun _ => ⟨_, hkey, by simp [Resolver.cached, Dict.get?_insert]⟩⟩
          · split
            · split
              · refine OkThat.bindOption fun s _ => (ih2 r s _).bind fun p hp => OkThat.ok ⟨?_, fun _ => ⟨_, hkey, ?_⟩⟩
                · exact (Query.ofQuiet hp).cached hc _
                · simp [Resolver.cached, Dict.get?_insert]
              · exact OkThat.ok ⟨(Query.diagnostic _ _ _).cached hc _,
                  fun _ => ⟨_, hkey, by simp [Resolver.cached, Dict.get?_insert]⟩⟩
            · exact (query_resolveName hc).mono fun p hp => ⟨hp.1, fun _ => ⟨_, hkey, hp.2⟩⟩
    · intro r s ctx
      unfold uniqueParent
      refine (ih3 r s ctx).bind fun p hp => ?_
      split
      · exact OkThat.ok hp
      · exact OkThat.ok hp
    · intro r s ctx
      unfold parentNodes
      refine OkThat.foldlM (P := fun p : _ × Resolver => Query false r p.2) ?_ _ _ (Query.refl _ _)
      intro acc ref hacc
      refine (ih1 acc.2 ref.typeRef ctx false).bind fun p hp => ?_
      have := hacc.trans hp.1
      split
      · exact OkThat.ok this
      · exact OkThat.bindOption fun n _ => OkThat.ok this

theorem query_resolveTypeRef (U : Unicode) (a : Arena Symbol) (fuel : Nat) (r : Resolver) (t : TypeRef) (anchor : NodeId)
    (reg : Bool) : OkThat (fun p => Query reg r p.2 ∧ ((t.isBuiltin || t.isEmpty) = false →
        ∃ k, keyOf a t anchor = some k ∧ Dict.get? p.2.cache k = some p.1))
      (resolveTypeRef U a fuel r t anchor reg) :=
  (query_all U a fuel).1 r t anchor reg

theorem query_uniqueParent (U : Unicode) (a : Arena Symbol) (fuel : Nat) (r : Resolver) (s : Symbol) (ctx : NodeId) :
    OkThat (fun p => Query false r p.2) (uniqueParent U a fuel r s ctx) := (query_all U a fuel).2.1 r s ctx

theorem query_parentNodes (U : Unicode) (a : Arena Symbol) (fuel : Nat) (r : Resolver) (s : Symbol) (ctx : NodeId) :
    OkThat (fun p => Query false r p.2) (parentNodes U a fuel r s ctx) := (query_all U a fuel).2.2 r s ctx

theorem query_resolveAll (U : Unicode) (a : Arena Symbol) (fuel : Nat) (r : Resolver) (ctx : NodeId) (ts : List TypeRef) :
    OkThat (fun p => Query false r p.2) (resolveAll U a fuel r ctx ts) := by
  unfold resolveAll
  refine OkThat.foldlM (P := fun p : _ × Resolver => Query false r p.2) ?_ _ _ (Query.refl _ _)
  intro acc t hacc
  exact (query_resolveTypeRef U a fuel acc.2 t ctx false).bind fun p hp => OkThat.ok (hacc.trans hp.1)

theorem query_insteadOf (U : Unicode) (a : Arena Symbol) (fuel : Nat) (ctx : NodeId)
    (acc : Dict Text (List SymbolAlias) × Resolver) (cls : TypeRef) (member : Text) (l : List TypeRef) :
    OkThat (fun p => Query false acc.2 p.2) (insteadOf U a fuel ctx acc cls member l) := by
  unfold insteadOf
  refine (query_resolveAll U a fuel acc.2 ctx l).bind fun p hp => ?_
  refine (query_resolveTypeRef U a fuel p.2 cls ctx false).bind fun q hq => ?_
  have := hp.trans hq.1
  split
  · exact OkThat.ok this
  · split
    · exact OkThat.ok this
    · exact OkThat.ok this

theorem query_insteadOfs (U : Unicode) (a : Arena Symbol) (fuel : Nat) (ctx : NodeId) : ∀ (l : List TraitUseAlteration)
    (acc : Dict Text (List SymbolAlias) × Resolver),
    OkThat (fun p => Query false acc.2 p.2) (insteadOfs U a fuel ctx l acc)
  | [], acc => OkThat.ok (Query.refl _ _)
  | .asRule .. :: r, acc => query_insteadOfs U a fuel ctx r acc
  | .insteadOf c m l :: r, acc =>
    (query_insteadOf U a fuel ctx acc c m l).bind fun p hp =>
      (query_insteadOfs U a fuel ctx r p).mono fun _ hq => hp.trans hq

theorem query_asRule (U : Unicode) (a : Arena Symbol) (fuel : Nat) (ctx : NodeId) (orig : Dict Text (List SymbolAlias))
    (acc : Members × Resolver) (visibility : Option Token) (cls : Option TypeRef) (member : Text) (al : Option Token) :
    OkThat (fun p => Query false acc.2 p.2) (asRule U a fuel ctx orig acc visibility cls member al) := by
  unfold asRule
  dsimp only
  split
  · split
    · exact OkThat.ok (Query.refl _ _)
    · split
      · refine (query_resolveTypeRef U a fuel acc.2 _ ctx false).bind fun q hq => ?_
        split
        · exact OkThat.ok hq.1
        · split
          · exact OkThat.ok hq.1
          · exact OkThat.ok hq.1
      · split
        · exact OkThat.ok (Query.refl _ _)
        · exact OkThat.ok (Query.refl _ _)
  · split
    · exact OkThat.ok (Query.refl _ _)
    · exact OkThat.ok (Query.refl _ _)

theorem query_asRules (U : Unicode) (a : Arena Symbol) (fuel : Nat) (ctx : NodeId) (orig : Dict Text (List SymbolAlias)) :
    ∀ (l : List TraitUseAlteration) (acc : Members × Resolver),
    OkThat (fun p => Query false acc.2 p.2) (asRules U a fuel ctx orig l acc)
  | [], acc => OkThat.ok (Query.refl _ _)
  | .insteadOf .. :: r, acc => query_asRules U a fuel ctx orig r acc
  | .asRule v c m l :: r, acc =>
    (query_asRule U a fuel ctx orig acc v c m l).bind fun p hp =>
      (query_asRules U a fuel ctx orig r p).mono fun _ hq => hp.trans hq

theorem query_applyRules (U : Unicode) (a : Arena Symbol) (fuel : Nat) (ctx : NodeId) (rules : List TraitUseAlteration)
    (all : Dict Text (List SymbolAlias) × Resolver) :
    OkThat (fun p => Query false all.2 p.2) (applyRules U a fuel ctx rules all) := by
  refine (query_insteadOfs U a fuel ctx _ all).bind fun k hk => OkThat.bindOption fun c _ => ?_
  exact (query_asRules U a fuel ctx all.1 _ (c, k.2)).mono fun z hz => hk.trans hz

private theorem query_members (U : Unicode) (H : HashOrder) (a : Arena Symbol) (fuel : Nat) :
    (∀ r ctx, OkThat (fun p => Query false r p.2) (allSymbols U H a fuel r ctx)) ∧
    (∀ r s ctx, OkThat (fun p => Query false r p.2) (importedSymbols U H a fuel r s ctx)) ∧
    (∀ r s ctx, OkThat (fun p => Query false r p.2) (inheritedSymbols U H a fuel r s ctx)) := by
  induction fuel with
  | zero => exact ⟨fun _ _ => OkThat.deep, fun _ _ _ => OkThat.deep, fun _ _ _ => OkThat.deep⟩
  | succ fuel ih =>
    obtain ⟨ih1, ih2, ih3⟩ := ih
    refine ⟨?_, ?_, ?_⟩
    · intro r ctx
      unfold allSymbols
      refine OkThat.bindOption fun s _ => OkThat.bindOption fun cs _ => ?_
      refine (ih2 r s ctx).bind fun p hp => (query_resolveAll U a fuel p.2 ctx _).bind fun q hq => ?_
      refine (OkThat.foldlM (P := fun x : _ × Resolver => Query false r x.2) ?_ _ _ (by exact hp.trans hq)).bind fun w hw => ?_
      · intro acc dt hacc
        split
        · exact OkThat.ok hacc
        · exact (ih1 acc.2 dt).bind fun m hm => OkThat.ok (hacc.trans hm)
      · exact (ih3 w.2 s ctx).bind fun z hz => OkThat.ok (hw.trans hz)
    · intro r s ctx
      unfold importedSymbols
      refine (OkThat.foldlM (P := fun x : _ × Resolver => Query false r x.2) ?_ _ _ (Query.refl _ _)).bind fun w hw => ?_
      · intro acc i hacc
        refine (query_resolveTypeRef U a fuel acc.2 i.path ctx false).bind fun p hp => ?_
        have := hacc.trans hp.1
        split
        · exact OkThat.ok this
        · refine OkThat.bindOption fun t _ => ?_
          split
          · exact OkThat.ok this
          · exact (ih1 p.2 _).bind fun m hm => OkThat.ok (this.trans hm)
      · exact (query_applyRules U a fuel ctx _ w).mono fun z hz => hw.trans hz
    · intro r s ctx
      unfold inheritedSymbols
      refine (query_parentNodes U a fuel r s ctx).bind fun p hp => ?_
      refine (OkThat.foldlM (P := fun x : _ × Resolver => Query false r x.2) ?_ _ _ (by exact hp)).bind fun w hw => OkThat.ok (by exact hw)
      intro acc e hacc
      exact (ih1 acc.2 e.2).bind fun m hm => OkThat.ok (hacc.trans hm)

theorem query_allSymbols (U : Unicode) (H : HashOrder) (a : Arena Symbol) (fuel : Nat) (r : Resolver) (ctx : NodeId) :
    OkThat (fun p => Query false r p.2) (allSymbols U H a fuel r ctx) := (query_members U H a fuel).1 r ctx

theorem query_importedSymbols (U : Unicode) (H : HashOrder) (a : Arena Symbol) (fuel : Nat) (r : Resolver) (s : Symbol)
    (ctx : NodeId) : OkThat (fun p => Query false r p.2) (importedSymbols U H a fuel r s ctx) :=
  (query_members U H a fuel).2.1 r s ctx

theorem query_inheritedSymbols (U : Unicode) (H : HashOrder) (a : Arena Symbol) (fuel : Nat) (r : Resolver) (s : Symbol)
    (ctx : NodeId) : OkThat (fun p => Query false r p.2) (inheritedSymbols U H a fuel r s ctx) :=
  (query_members U H a fuel).2.2 r s ctx

end PhpLs.Resolver
