import Verif.ResolverTarget

/-!
# What the questions about members ask for on the way

The answers of the resolver depend on what it remembers.  The questions about the members of a class leave it in a state that is
reached by looking up names that stand in symbols, one after the other, and nothing else.
-/

namespace PhpLs.Resolver

open Out

/-- The names in a symbol that the members of a class depend on. -/
def namesOf (s : Symbol) : List TypeRef :=
  (s.inheritsFrom.getD []).map (·.typeRef) ++ s.dataTypes.map (·.typeRef) ++ (s.imports.getD []).map (·.path) ++
    (s.importResolutions.getD []).flatMap fun
      | .asRule _ c _ _ => c.toList
      | .insteadOf c _ l => c :: l

/-- The names in the symbols of a tree. -/
def AtSymbol (a : Arena Symbol) : Names := fun n t => ∃ s, a.get? n = some s ∧ t ∈ namesOf s

/-- The states that are reached from `r` by looking up names of `Q`, each at its place, without recording references. -/
inductive Asked (U : Unicode) (a : Arena Symbol) (Q : Names) (r : Resolver) : Resolver → Prop where
  | start : Asked U a Q r r
  | ask {fuel : Nat} {n : NodeId} {t : TypeRef} {r1 : Resolver} {p : Option NodeId × Resolver} : Asked U a Q r r1 → Q n t →
      resolveTypeRef U a fuel r1 t n false = .ok p → Asked U a Q r p.2

section

variable {U : Unicode} {H : HashOrder} {a : Arena Symbol} {Q : Names} {r : Resolver}

/-- Looking up names changes nothing but what is remembered and reported. -/
theorem Asked.query {r' : Resolver} (h : Asked U a Q r r') : Query false r r' := by
  induction h with
  | start => exact Query.refl _ _
  | ask _ _ e ih => exact ih.trans (query_resolveTypeRef _ _ _ _ _ _ _ _ e).1

theorem Asked.step {r' : Resolver} (h : Asked U a Q r r') : Step r r' := h.query.1

/-- In an honest state, looking up names leads to honest states. -/
theorem Asked.honest {g : Dict Text NodeId} (hclear : Clear U a g Q) (hp : ∀ n t, Q n t → plainRef t = true) (hr : Honest U a g Q r)
    {r' : Resolver} (h : Asked U a Q r r') : Honest U a g Q r' := by
  induction h with
  | start => exact hr
  | @ask fuel n t _ _ _ hq e ih =>
    cases fuel with
    | zero => cases e
    | succ fuel => exact (honest_resolve hclear hq (hp _ _ hq) fuel false _ ih _ e).1

private theorem fold_mem {α β : Type} {P : β → Prop} {f : β → α → Out β} : ∀ (l : List α) (b : β),
    (∀ b, ∀ x ∈ l, P b → OkThat P (f b x)) → P b → OkThat P (l.foldlM f b)
  | [], b, _, h => OkThat.ok h
  | x :: l, b, hf, h => by
    rw [List.foldlM_cons]
    exact (hf b x (List.mem_cons_self ..) h).bind fun b' hb' =>
      fold_mem l b' (fun b y hy => hf b y (List.mem_cons_of_mem _ hy)) hb'

theorem asked_resolve {n : NodeId} {t : TypeRef} (ht : Q n t) (fuel : Nat) {r1 : Resolver} (hr : Asked U a Q r r1) :
    OkThat (fun p => Asked U a Q r p.2) (resolveTypeRef U a fuel r1 t n false) := fun _ e => hr.ask ht e

theorem asked_resolveAll {n : NodeId} {ts : List TypeRef} (ht : ∀ t ∈ ts, Q n t) (fuel : Nat) {r1 : Resolver}
    (hr : Asked U a Q r r1) : OkThat (fun p => Asked U a Q r p.2) (resolveAll U a fuel r1 n ts) := by
  refine fold_mem (P := fun p : List NodeId × Resolver => Asked U a Q r p.2) ts ([], r1) ?_ hr
  intro acc t hmem hacc
  exact (asked_resolve (ht t hmem) fuel hacc).bind fun p hp => OkThat.ok hp

theorem asked_parentNodes {n : NodeId} {s : Symbol} (ht : ∀ t ∈ (s.inheritsFrom.getD []).map (·.typeRef), Q n t) (fuel : Nat)
    {r1 : Resolver} (hr : Asked U a Q r r1) : OkThat (fun p => Asked U a Q r p.2) (parentNodes U a fuel r1 s n) := by
  cases fuel with
  | zero => exact OkThat.deep
  | succ fuel =>
  unfold parentNodes
  refine fold_mem (P := fun p : Dict Text NodeId × Resolver => Asked U a Q r p.2) _ ([], r1) ?_ hr
  intro acc ref hmem hacc
  refine (asked_resolve (ht _ (List.mem_map.2 ⟨ref, hmem, rfl⟩)) fuel hacc).bind fun p hp => ?_
  split
  · exact OkThat.ok hp
  · exact OkThat.bindOption fun m _ => OkThat.ok hp

theorem asked_applyRules {n : NodeId} {rules : List TraitUseAlteration}
    (ht : ∀ t ∈ rules.flatMap (fun | .asRule _ c _ _ => c.toList | .insteadOf c _ l => c :: l), Q n t)
    (fuel : Nat) (all : Dict Text (List SymbolAlias) × Resolver) (hr : Asked U a Q r all.2) :
    OkThat (fun p => Asked U a Q r p.2) (applyRules U a fuel n rules all) := by
  have hi : ∀ (rules : List TraitUseAlteration) (_ : ∀ t ∈ rules.flatMap (fun | .asRule _ c _ _ => c.toList | .insteadOf c _ l => c :: l),
      Q n t) (acc : Dict Text (List SymbolAlias) × Resolver), Asked U a Q r acc.2 →
      OkThat (fun p => Asked U a Q r p.2) (insteadOfs U a fuel n rules acc) := by
    intro rules
    induction rules with
    | nil => intro _ acc h; exact OkThat.ok h
    | cons rule rules ih =>
      intro ht acc h
      have ht' := fun t hm => ht t (by rw [List.flatMap_cons]; exact List.mem_append_right _ hm)
      have ht0 := fun t hm => ht t (by rw [List.flatMap_cons]; exact List.mem_append_left _ hm)
      cases rule with
      | asRule v c m l => exact ih ht' acc h
      | insteadOf c m l =>
        unfold insteadOfs
        refine OkThat.bind (Q := fun p => Asked U a Q r p.2) ?_ fun p hp => ih ht' p hp
        unfold insteadOf
        refine (asked_resolveAll (fun t hm => ht0 t (List.mem_cons_of_mem _ hm)) fuel h).bind fun p hp => ?_
        refine (asked_resolve (ht0 c List.mem_cons_self) fuel hp).bind fun q hq => ?_
        split
        · exact OkThat.ok hq
        · split
          · exact OkThat.ok hq
          · exact OkThat.ok hq
  have has : ∀ (rules : List TraitUseAlteration) (_ : ∀ t ∈ rules.flatMap (fun | .asRule _ c _ _ => c.toList | .insteadOf c _ l => c :: l),
      Q n t) (acc : Members × Resolver), Asked U a Q r acc.2 →
      OkThat (fun p => Asked U a Q r p.2) (asRules U a fuel n all.1 rules acc) := by
    intro rules
    induction rules with
    | nil => intro _ acc h; exact OkThat.ok h
    | cons rule rules ih =>
      intro ht acc h
      have ht' := fun t hm => ht t (by rw [List.flatMap_cons]; exact List.mem_append_right _ hm)
      have ht0 := fun t hm => ht t (by rw [List.flatMap_cons]; exact List.mem_append_left _ hm)
      cases rule with
      | insteadOf c m l => exact ih ht' acc h
      | asRule v c m l =>
        unfold asRules
        refine OkThat.bind (Q := fun p => Asked U a Q r p.2) ?_ fun p hp => ih ht' p hp
        unfold asRule
        simp only
        split
        · split
          · exact OkThat.ok h
          · split
            · next c' =>
              refine (asked_resolve (ht0 c' (by simp)) fuel h).bind fun q hq => ?_
              split
              · exact OkThat.ok hq
              · split
                · exact OkThat.ok hq
                · exact OkThat.ok hq
            · split
              · exact OkThat.ok h
              · exact OkThat.ok h
        · split
          · exact OkThat.ok h
          · exact OkThat.ok h
  unfold applyRules
  exact (hi rules ht all hr).bind fun k hk => OkThat.bindOption fun c _ => has rules ht (c, k.2) hk

private theorem asked_all (fuel : Nat) :
    (∀ n r1, Asked U a (AtSymbol a) r r1 → OkThat (fun p => Asked U a (AtSymbol a) r p.2) (allSymbols U H a fuel r1 n)) ∧
    (∀ n s r1, a.get? n = some s → Asked U a (AtSymbol a) r r1 →
      OkThat (fun p => Asked U a (AtSymbol a) r p.2) (importedSymbols U H a fuel r1 s n)) ∧
    (∀ n s r1, a.get? n = some s → Asked U a (AtSymbol a) r r1 →
      OkThat (fun p => Asked U a (AtSymbol a) r p.2) (inheritedSymbols U H a fuel r1 s n)) := by
  induction fuel with
  | zero => exact ⟨fun _ _ _ => OkThat.deep, fun _ _ _ _ _ => OkThat.deep, fun _ _ _ _ _ => OkThat.deep⟩
  | succ fuel ih =>
    obtain ⟨ih1, ih2, ih3⟩ := ih
    refine ⟨?_, ?_, ?_⟩
    · intro n r1 hr
      unfold allSymbols
      refine OkThat.bindOption fun s hs => OkThat.bindOption fun cs _ => ?_
      have htypes : ∀ t ∈ s.dataTypes.map (·.typeRef), AtSymbol a n t := fun t ht => ⟨s, hs, by
        unfold namesOf
        exact List.mem_append_left _ (List.mem_append_left _ (List.mem_append_right _ ht))⟩
      refine (ih2 n s r1 hs hr).bind fun p hp => (asked_resolveAll htypes fuel hp).bind fun q hq => ?_
      refine (OkThat.foldlM (P := fun x : _ × Resolver => Asked U a (AtSymbol a) r x.2) ?_ _ _ (by exact hq)).bind fun w hw => ?_
      · intro acc dt hacc
        split
        · exact OkThat.ok hacc
        · exact (ih1 dt acc.2 hacc).bind fun m hm => OkThat.ok hm
      · exact (ih3 n s w.2 hs hw).bind fun z hz => OkThat.ok hz
    · intro n s r1 hs hr
      unfold importedSymbols
      refine (fold_mem (P := fun x : _ × Resolver => Asked U a (AtSymbol a) r x.2) _ _ ?_ (by exact hr)).bind fun w hw => ?_
      · intro acc i hi hacc
        have hin : AtSymbol a n i.path := ⟨s, hs, by
          unfold namesOf
          exact List.mem_append_left _ (List.mem_append_right _ (List.mem_map.2 ⟨i, hi, rfl⟩))⟩
        refine (asked_resolve hin fuel hacc).bind fun p hp => ?_
        split
        · exact OkThat.ok hp
        · refine OkThat.bindOption fun t _ => ?_
          split
          · exact OkThat.ok hp
          · exact (ih1 _ p.2 hp).bind fun m hm => OkThat.ok hm
      · refine asked_applyRules (fun t ht => ⟨s, hs, ?_⟩) fuel w hw
        unfold namesOf
        exact List.mem_append_right _ ht
    · intro n s r1 hs hr
      unfold inheritedSymbols
      have hparents : ∀ t ∈ (s.inheritsFrom.getD []).map (·.typeRef), AtSymbol a n t := fun t ht => ⟨s, hs, by
        unfold namesOf
        exact List.mem_append_left _ (List.mem_append_left _ (List.mem_append_left _ ht))⟩
      refine (asked_parentNodes hparents fuel hr).bind fun p hp => ?_
      refine (OkThat.foldlM (P := fun x : _ × Resolver => Asked U a (AtSymbol a) r x.2) ?_ _ _ (by exact hp)).bind
        fun w hw => OkThat.ok (by exact hw)
      intro acc e hacc
      exact (ih1 e.2 acc.2 hacc).bind fun m hm => OkThat.ok hm

theorem asked_allSymbols (fuel : Nat) (n : NodeId) {r1 : Resolver} (hr : Asked U a (AtSymbol a) r r1) :
    OkThat (fun p => Asked U a (AtSymbol a) r p.2) (allSymbols U H a fuel r1 n) := (asked_all fuel).1 n r1 hr

theorem asked_importedSymbols (fuel : Nat) {n : NodeId} {s : Symbol} (hs : a.get? n = some s) {r1 : Resolver}
    (hr : Asked U a (AtSymbol a) r r1) : OkThat (fun p => Asked U a (AtSymbol a) r p.2) (importedSymbols U H a fuel r1 s n) :=
  (asked_all fuel).2.1 n s r1 hs hr

theorem asked_inheritedSymbols (fuel : Nat) {n : NodeId} {s : Symbol} (hs : a.get? n = some s) {r1 : Resolver}
    (hr : Asked U a (AtSymbol a) r r1) : OkThat (fun p => Asked U a (AtSymbol a) r p.2) (inheritedSymbols U H a fuel r1 s n) :=
  (asked_all fuel).2.2 n s r1 hs hr

end

end PhpLs.Resolver
