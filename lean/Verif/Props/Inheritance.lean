import Verif.ResolverAsked
import Verif.ArenaLemmas

/-!
# Do the questions about inheritance end?  C30

`deep` is the outcome of a computation that needs more nested calls than it is allowed; a computation does not end if the outcome
is `deep` for each bound.
-/

namespace PhpLs.Resolver

open Out

/-- The result of the computation, if it has one, meets `P`, and the computation ends if `b`. -/
def EndsIf {α : Type} (b : Prop) (P : α → Prop) (x : Out α) : Prop := (b → x ≠ .deep) ∧ OkThat P x

namespace EndsIf

variable {α β : Type} {b b' : Prop} {P : β → Prop} {Q : α → Prop}

theorem bind {x : Out α} {f : α → Out β} (h : EndsIf b Q x) (h' : ∀ y, Q y → EndsIf b P (f y)) : EndsIf b P (x >>= f) := by
  cases x with
  | ok y => exact h' y (h.2 y rfl)
  | panic => exact ⟨by simp, by simp [OkThat]⟩
  | deep => exact ⟨fun e => absurd rfl (h.1 e), by simp [OkThat]⟩

theorem bindOption {x : Option α} {f : α → Out β} (h' : ∀ y, x = some y → EndsIf b P (f y)) :
    EndsIf b P (Out.ofOption x >>= f) := by
  cases x with
  | some y => exact h' y rfl
  | none => exact ⟨by simp, by simp [OkThat]⟩

theorem ok {x : α} (h : Q x) : EndsIf b Q (.ok x) := ⟨by simp, OkThat.ok h⟩

theorem deep (h : ¬ b) : EndsIf b Q .deep := ⟨fun e => absurd e h, OkThat.deep⟩

theorem mono {Q' : α → Prop} {x : Out α} (h : EndsIf b Q x) (h' : ∀ y, Q y → Q' y) : EndsIf b Q' x := ⟨h.1, h.2.mono h'⟩

theorem weaken {x : Out α} (h : EndsIf b Q x) (h' : b' → b) : EndsIf b' Q x := ⟨fun e => h.1 (h' e), h.2⟩

theorem foldlM {f : α → β → Out α} : ∀ (l : List β) (x : α), (∀ x y, y ∈ l → Q x → EndsIf b Q (f x y)) → Q x →
    EndsIf b Q (l.foldlM f x)
  | [], x, _, h => by rw [List.foldlM_nil]; exact ok h
  | y :: l, x, hf, h => by
    rw [List.foldlM_cons]
    exact (hf x y List.mem_cons_self h).bind fun z hz => foldlM l z (fun x y hy => hf x y (List.mem_cons_of_mem _ hy)) hz

end EndsIf

section

variable {U : Unicode} {H : HashOrder} {a : Arena Symbol} {g : Dict Text NodeId} {Q : Names}

private theorem ends_resolve (hclear : Clear U a g Q) {n : NodeId} {t : TypeRef} (ht : Q n t) (hp : plainRef t = true) (fuel : Nat)
    (reg : Bool) (r : Resolver) (hr : Honest U a g Q r) :
    EndsIf (1 ≤ fuel) (fun p => Honest U a g Q p.2 ∧ (p.1 = none ∨ target U a g t n = some p.1))
      (resolveTypeRef U a fuel r t n reg) := by
  cases fuel with
  | zero => exact EndsIf.deep (by omega)
  | succ fuel =>
    exact ⟨fun _ => (resolve_plain U a fuel r t n reg hp).1, (honest_resolve hclear ht hp fuel reg r hr).mono fun p h =>
      ⟨h.1, h.2.elim (fun h => .inl h.2) (fun h => .inr h.2)⟩⟩

private theorem ends_resolveAll (hclear : Clear U a g Q) {n : NodeId} {ts : List TypeRef} (ht : ∀ t ∈ ts, Q n t ∧ plainRef t = true)
    (fuel : Nat) (r : Resolver) (hr : Honest U a g Q r) :
    EndsIf (1 ≤ fuel) (fun p => Honest U a g Q p.2 ∧ ∀ m ∈ p.1, ∃ t ∈ ts, target U a g t n = some (some m))
      (resolveAll U a fuel r n ts) := by
  refine EndsIf.foldlM (Q := fun p : List NodeId × Resolver => Honest U a g Q p.2 ∧ ∀ m ∈ p.1, ∃ t ∈ ts, target U a g t n = some (some m))
    ts ([], r) ?_ ⟨hr, by simp⟩
  intro acc t hmem hacc
  refine (ends_resolve hclear (ht t hmem).1 (ht t hmem).2 fuel false acc.2 hacc.1).bind fun p hp => EndsIf.ok ⟨hp.1, ?_⟩
  intro m hm
  rcases List.mem_append.1 hm with hm | hm
  · exact hacc.2 m hm
  · rcases hp.2 with h | h
    · rw [h] at hm; cases hm
    · rw [Option.mem_toList] at hm
      exact ⟨t, hmem, by rw [h, hm]⟩

private theorem mem_insert {κ α : Type} [DecidableEq κ] {d : Dict κ α} {k : κ} {v : α} {e : κ × α} (h : e ∈ Dict.insert d k v) :
    e = (k, v) ∨ e ∈ d := by
  rcases List.mem_cons.1 h with h | h
  · exact .inl h
  · exact .inr (List.mem_filter.1 h).1

private theorem ends_parentNodes (hclear : Clear U a g Q) {n : NodeId} {s : Symbol}
    (ht : ∀ t ∈ (s.inheritsFrom.getD []).map (·.typeRef), Q n t ∧ plainRef t = true) (fuel : Nat) (r : Resolver)
    (hr : Honest U a g Q r) :
    EndsIf (2 ≤ fuel)
      (fun p => Honest U a g Q p.2 ∧ ∀ e ∈ p.1, ∃ t ∈ (s.inheritsFrom.getD []).map (·.typeRef), target U a g t n = some (some e.2))
      (parentNodes U a fuel r s n) := by
  cases fuel with
  | zero => exact EndsIf.deep (by omega)
  | succ fuel =>
  unfold parentNodes
  refine EndsIf.foldlM (Q := fun p : Dict Text NodeId × Resolver => Honest U a g Q p.2 ∧
      ∀ e ∈ p.1, ∃ t ∈ (s.inheritsFrom.getD []).map (·.typeRef), target U a g t n = some (some e.2)) _ ([], r) ?_ ⟨hr, by simp⟩
  intro acc ref hmem hacc
  have hmem' : ref.typeRef ∈ (s.inheritsFrom.getD []).map (·.typeRef) := List.mem_map.2 ⟨ref, hmem, rfl⟩
  refine (ends_resolve hclear (ht _ hmem').1 (ht _ hmem').2 fuel false acc.2 hacc.1).weaken (by omega) |>.bind fun p hp => ?_
  split
  · exact EndsIf.ok ⟨hp.1, hacc.2⟩
  · next node hnode =>
    refine EndsIf.bindOption fun m _ => EndsIf.ok ⟨hp.1, ?_⟩
    intro e he
    rcases mem_insert he with rfl | he
    · rcases hp.2 with h | h
      · rw [h] at hnode; cases hnode
      · exact ⟨_, hmem', by rw [h, hnode]⟩
    · exact hacc.2 e he

private theorem ends_applyRules (hclear : Clear U a g Q) {n : NodeId} {rules : List TraitUseAlteration}
    (ht : ∀ t ∈ rules.flatMap (fun | .asRule _ c _ _ => c.toList | .insteadOf c _ l => c :: l), Q n t ∧ plainRef t = true)
    (fuel : Nat) (all : Dict Text (List SymbolAlias) × Resolver) (hr : Honest U a g Q all.2) :
    EndsIf (1 ≤ fuel) (fun p => Honest U a g Q p.2) (applyRules U a fuel n rules all) := by
  have hi : ∀ (rules : List TraitUseAlteration) (_ : ∀ t ∈ rules.flatMap (fun | .asRule _ c _ _ => c.toList | .insteadOf c _ l => c :: l),
      Q n t ∧ plainRef t = true) (acc : Dict Text (List SymbolAlias) × Resolver), Honest U a g Q acc.2 →
      EndsIf (1 ≤ fuel) (fun p => Honest U a g Q p.2) (insteadOfs U a fuel n rules acc) := by
    intro rules
    induction rules with
    | nil => intro _ acc h; exact EndsIf.ok h
    | cons rule rules ih =>
      intro ht acc h
      have ht' := fun t hm => ht t (by rw [List.flatMap_cons]; exact List.mem_append_right _ hm)
      have ht0 := fun t hm => ht t (by rw [List.flatMap_cons]; exact List.mem_append_left _ hm)
      cases rule with
      | asRule v c m l => exact ih ht' acc h
      | insteadOf c m l =>
        unfold insteadOfs
        refine EndsIf.bind (Q := fun p => Honest U a g Q p.2) ?_ fun p hp => ih ht' p hp
        unfold insteadOf
        refine (ends_resolveAll hclear (fun t hm => ht0 t (List.mem_cons_of_mem _ hm)) fuel acc.2 h).bind fun p hp => ?_
        refine (ends_resolve hclear (ht0 c List.mem_cons_self).1 (ht0 c List.mem_cons_self).2 fuel false p.2 hp.1).bind fun q hq => ?_
        split
        · exact EndsIf.ok hq.1
        · split
          · exact EndsIf.ok hq.1
          · exact EndsIf.ok hq.1
  have has : ∀ (rules : List TraitUseAlteration) (_ : ∀ t ∈ rules.flatMap (fun | .asRule _ c _ _ => c.toList | .insteadOf c _ l => c :: l),
      Q n t ∧ plainRef t = true) (acc : Members × Resolver), Honest U a g Q acc.2 →
      EndsIf (1 ≤ fuel) (fun p => Honest U a g Q p.2) (asRules U a fuel n all.1 rules acc) := by
    intro rules
    induction rules with
    | nil => intro _ acc h; exact EndsIf.ok h
    | cons rule rules ih =>
      intro ht acc h
      have ht' := fun t hm => ht t (by rw [List.flatMap_cons]; exact List.mem_append_right _ hm)
      have ht0 := fun t hm => ht t (by rw [List.flatMap_cons]; exact List.mem_append_left _ hm)
      cases rule with
      | insteadOf c m l => exact ih ht' acc h
      | asRule v c m l =>
        unfold asRules
        refine EndsIf.bind (Q := fun p => Honest U a g Q p.2) ?_ fun p hp => ih ht' p hp
        unfold asRule
        simp only
        split
        · split
          · exact EndsIf.ok h
          · split
            · next c' =>
              have hc := ht0 c' (by simp)
              refine (ends_resolve hclear hc.1 hc.2 fuel false acc.2 h).bind fun q hq => ?_
              split
              · exact EndsIf.ok hq.1
              · split
                · exact EndsIf.ok hq.1
                · exact EndsIf.ok hq.1
            · split
              · exact EndsIf.ok h
              · exact EndsIf.ok h
        · split
          · exact EndsIf.ok h
          · exact EndsIf.ok h
  unfold applyRules
  exact (hi rules ht all hr).bind fun k hk => EndsIf.bindOption fun c _ => has rules ht (c, k.2) hk

/-- The number `rank` goes down from a class to its parents, to the traits it uses and to its other data types. -/
structure Acyclic (U : Unicode) (a : Arena Symbol) (g : Dict Text NodeId) (rank : NodeId → Nat) : Prop where
  parents : ∀ n s t p, a.get? n = some s → t ∈ (s.inheritsFrom.getD []).map (·.typeRef) → target U a g t n = some (some p) →
    rank p < rank n
  types : ∀ n s t p, a.get? n = some s → t ∈ s.dataTypes.map (·.typeRef) → target U a g t n = some (some p) →
    p ≠ n → rank p < rank n
  traits : ∀ n s t p q, a.get? n = some s → t ∈ (s.imports.getD []).map (·.path) → target U a g t n = some (some p) →
    a.get? p = some q → q.kind = .trait → rank p < rank n

private theorem ends_members (hclear : Clear U a g (AtSymbol a)) (hplain : ∀ n t, AtSymbol a n t → plainRef t = true)
    (rank : NodeId → Nat) (fuel : Nat) : ∀ (n : NodeId) (r : Resolver), Honest U a g (AtSymbol a) r →
    EndsIf (Acyclic U a g rank ∧ 2 * rank n + 4 ≤ fuel) (fun p => Honest U a g (AtSymbol a) p.2) (allSymbols U H a fuel r n) := by
  induction fuel using Nat.strongRecOn with
  | ind fuel ih =>
    intro n r hr
    cases fuel with
    | zero => exact EndsIf.deep (by omega)
    | succ fuel =>
    unfold allSymbols
    refine EndsIf.bindOption fun s hs => EndsIf.bindOption fun cs hcs => ?_
    have hname : ∀ t ∈ namesOf s, AtSymbol a n t ∧ plainRef t = true := fun t ht => ⟨⟨s, hs, ht⟩, hplain n t ⟨s, hs, ht⟩⟩
    -- the traits
    refine EndsIf.bind (Q := fun p => Honest U a g (AtSymbol a) p.2) ?_ fun imports himports => ?_
    · cases fuel with
      | zero => exact EndsIf.deep (by omega)
      | succ fuel =>
      unfold importedSymbols
      refine EndsIf.bind (Q := fun p => Honest U a g (AtSymbol a) p.2) ?_ fun all hall => ?_
      · refine EndsIf.foldlM (Q := fun p : Dict Text (List SymbolAlias) × Resolver => Honest U a g (AtSymbol a) p.2) _ ([], r) ?_ hr
        intro acc i hi hacc
        have hit : i.path ∈ (s.imports.getD []).map (·.path) := List.mem_map.2 ⟨i, hi, rfl⟩
        have hin : i.path ∈ namesOf s := by
          unfold namesOf
          exact List.mem_append_left _ (List.mem_append_right _ hit)
        refine EndsIf.bind ((ends_resolve hclear (hname _ hin).1 (hname _ hin).2 fuel false acc.2 hacc).weaken (by omega)) fun p hp => ?_
        split
        · exact EndsIf.ok hp.1
        · next used hused =>
          refine EndsIf.bindOption fun q hq => ?_
          split
          · exact EndsIf.ok hp.1
          · next hk =>
            have hlt : Acyclic U a g rank → rank used < rank n := by
              intro hrank
              refine hrank.traits n s i.path used q hs hit ?_ hq (Classical.not_not.1 hk)
              rcases hp.2 with h | h
              · rw [h] at hused; cases hused
              · rw [h, hused]
            refine EndsIf.bind ((ih fuel (by omega) used p.2 hp.1).weaken ?_) fun m hm => EndsIf.ok hm
            intro h
            have := hlt h.1
            exact ⟨h.1, by omega⟩
      · refine (ends_applyRules hclear (fun t ht => hname t ?_) fuel all hall).weaken (by omega)
        unfold namesOf
        exact List.mem_append_right _ ht
    -- the data types
    refine EndsIf.bind ((ends_resolveAll hclear (ts := s.dataTypes.map (·.typeRef)) (fun t ht => hname t ?_) fuel imports.2
      himports).weaken (by omega)) fun types htypes => ?_
    · unfold namesOf
      exact List.mem_append_left _ (List.mem_append_left _ (List.mem_append_right _ ht))
    refine EndsIf.bind (Q := fun p => Honest U a g (AtSymbol a) p.2) ?_ fun typed htyped => ?_
    · refine EndsIf.foldlM (Q := fun p : Members × Resolver => Honest U a g (AtSymbol a) p.2) _ _ ?_ htypes.1
      intro acc dt hdt hacc
      split
      · exact EndsIf.ok hacc
      · next hne =>
        obtain ⟨t, ht, e⟩ := htypes.2 dt hdt
        refine EndsIf.bind ((ih fuel (by omega) dt acc.2 hacc).weaken ?_) fun m hm => EndsIf.ok hm
        intro h
        have := h.1.types n s t dt hs ht e (Ne.symm hne)
        exact ⟨h.1, by omega⟩
    -- the parents
    refine EndsIf.bind (Q := fun p => Honest U a g (AtSymbol a) p.2) ?_ fun inh hinh => EndsIf.ok hinh
    cases fuel with
    | zero => exact EndsIf.deep (by omega)
    | succ fuel =>
    unfold inheritedSymbols
    refine EndsIf.bind ((ends_parentNodes hclear (s := s) (fun t ht => hname t ?_) fuel typed.2 htyped).weaken (by omega))
      fun parents hparents => ?_
    · unfold namesOf
      exact List.mem_append_left _ (List.mem_append_left _ (List.mem_append_left _ ht))
    refine EndsIf.bind (Q := fun p => Honest U a g (AtSymbol a) p.2) ?_ fun m hm => EndsIf.ok hm
    refine EndsIf.foldlM (Q := fun p : Members × Resolver => Honest U a g (AtSymbol a) p.2) _ _ ?_ hparents.1
    intro acc e he hacc
    obtain ⟨t, ht, et⟩ := hparents.2 e ((H.perm parents.1).mem_iff.1 he)
    refine EndsIf.bind ((ih fuel (by omega) e.2 acc.2 hacc).weaken ?_) fun m hm => EndsIf.ok hm
    intro h
    have := h.1.parents n s t e.2 hs ht et
    exact ⟨h.1, by omega⟩

private theorem honest_imported (hclear : Clear U a g (AtSymbol a)) (hplain : ∀ n t, AtSymbol a n t → plainRef t = true)
    (fuel : Nat) (n : NodeId) (s : Symbol) (r : Resolver) (hs : a.get? n = some s) (hr : Honest U a g (AtSymbol a) r) :
    OkThat (fun p => Honest U a g (AtSymbol a) p.2) (importedSymbols U H a fuel r s n) := by
  have hname : ∀ t ∈ namesOf s, AtSymbol a n t ∧ plainRef t = true := fun t ht => ⟨⟨s, hs, ht⟩, hplain n t ⟨s, hs, ht⟩⟩
  cases fuel with
  | zero => exact OkThat.deep
  | succ fuel =>
  unfold importedSymbols
  refine OkThat.bind (Q := fun p => Honest U a g (AtSymbol a) p.2) ?_ fun all hall => ?_
  · refine (EndsIf.foldlM (b := False) (Q := fun p : Dict Text (List SymbolAlias) × Resolver => Honest U a g (AtSymbol a) p.2)
      _ ([], r) ?_ hr).2
    intro acc i hi hacc
    have hin : i.path ∈ namesOf s := by
      unfold namesOf
      exact List.mem_append_left _ (List.mem_append_right _ (List.mem_map.2 ⟨i, hi, rfl⟩))
    refine EndsIf.bind ((ends_resolve hclear (hname _ hin).1 (hname _ hin).2 fuel false acc.2 hacc).weaken (by simp)) fun p hp => ?_
    split
    · exact EndsIf.ok hp.1
    · refine EndsIf.bindOption fun q hq => ?_
      split
      · exact EndsIf.ok hp.1
      · exact EndsIf.bind ((ends_members hclear hplain (fun _ => 0) fuel _ p.2 hp.1).weaken (by simp)) fun m hm => EndsIf.ok hm
  · refine (ends_applyRules hclear (fun t ht => hname t ?_) fuel all hall).2
    unfold namesOf
    exact List.mem_append_right _ ht

/-- C30, the part that holds: the members of a class are collected in finitely many steps if the classes do not inherit from,
use or implement each other in a circle and no class is declared in terms of `parent`.  The bound of nested calls is given.
Missing: the same for all classes; for that see `C30_cyclic_never` and the examples. -/
theorem C30_members_partial (hclear : Clear U a g (AtSymbol a)) (hplain : ∀ n t, AtSymbol a n t → plainRef t = true)
    {rank : NodeId → Nat} (hrank : Acyclic U a g rank) {n : NodeId} {fuel : Nat} (hfuel : 2 * rank n + 4 ≤ fuel) {r : Resolver}
    (hr : Honest U a g (AtSymbol a) r) : allSymbols U H a fuel r n ≠ .deep :=
  (ends_members hclear hplain rank fuel n r hr).1 ⟨hrank, hfuel⟩

/-- The names of parents, which `is_child_of` resolves at the class it is asked about. -/
def AtClass (a : Arena Symbol) (ctx : NodeId) : Names :=
  fun n t => n = ctx ∧ ∃ m s, a.get? m = some s ∧ t ∈ (s.inheritsFrom.getD []).map (·.typeRef)

/-- C30, the part that holds for `is_child_of`: it ends if the classes do not inherit from each other in a circle, where all names
are read as they are read in the class the question is about. -/
theorem C30_child_partial {ctx searchFor : NodeId} (hclear : Clear U a g (AtClass a ctx))
    (hplain : ∀ t, AtClass a ctx ctx t → plainRef t = true) {rank : NodeId → Nat}
    (hrank : ∀ n s t p, a.get? n = some s → t ∈ (s.inheritsFrom.getD []).map (·.typeRef) → target U a g t ctx = some (some p) →
      rank p < rank n) {n : NodeId} {s : Symbol} (hs : a.get? n = some s) {fuel : Nat} (hfuel : rank n + 3 ≤ fuel) {r : Resolver}
    (hr : Honest U a g (AtClass a ctx) r) : isChildOf U H a fuel r s ctx searchFor ≠ .deep := by
  suffices h : ∀ fuel n s, a.get? n = some s → ∀ r, Honest U a g (AtClass a ctx) r →
      EndsIf (rank n + 3 ≤ fuel) (fun p => Honest U a g (AtClass a ctx) p.2) (isChildOf U H a fuel r s ctx searchFor) from
    (h fuel n s hs r hr).1 hfuel
  intro fuel
  induction fuel with
  | zero => intro n s _ r _; exact EndsIf.deep (by omega)
  | succ fuel ih =>
    intro n s hs r hr
    unfold isChildOf
    have hname : ∀ t ∈ (s.inheritsFrom.getD []).map (·.typeRef), AtClass a ctx ctx t ∧ plainRef t = true :=
      fun t ht => ⟨⟨rfl, n, s, hs, ht⟩, hplain t ⟨rfl, n, s, hs, ht⟩⟩
    refine EndsIf.bind ((ends_parentNodes hclear hname fuel r hr).weaken (by omega)) fun parents hparents => ?_
    refine EndsIf.foldlM (Q := fun p : Bool × Resolver => Honest U a g (AtClass a ctx) p.2) _ _ ?_ hparents.1
    intro acc e he hacc
    split
    · exact EndsIf.ok hacc
    · split
      · exact EndsIf.ok hacc
      · refine EndsIf.bindOption fun q hq => ?_
        obtain ⟨t, ht, et⟩ := hparents.2 e ((H.perm parents.1).mem_iff.1 he)
        have hlt := hrank n s t e.2 hs ht et
        exact (ih e.2 q hq acc.2 hacc).weaken (by omega)

/-- C30 fails: classes that inherit in a circle.  If each class of a set has a parent in this set, as with `class A extends B` and
`class B extends A`, the members of these classes are never found, however many nested calls are allowed. -/
theorem C30_cyclic_never (hclear : Clear U a g (AtSymbol a)) (hplain : ∀ n t, AtSymbol a n t → plainRef t = true)
    {N : NodeId → Prop} (hN : ∀ n, N n → ∃ s ref p, a.get? n = some s ∧ s.inheritsFrom = some [ref] ∧
      (ref.typeRef.isBuiltin || ref.typeRef.isEmpty) = false ∧ target U a g ref.typeRef n = some (some p) ∧ N p)
    {n : NodeId} (hn : N n) {r : Resolver} (hr : Honest U a g (AtSymbol a) r) (fuel : Nat) (m : Members) (r' : Resolver) :
    allSymbols U H a fuel r n ≠ .ok (m, r') := by
  induction fuel using Nat.strongRecOn generalizing n r m r' with
  | ind fuel ih =>
    intro h
    cases fuel with
    | zero => cases h
    | succ fuel =>
    obtain ⟨s, ref, p, hs, hinh, hb, ht, hp⟩ := hN n hn
    unfold allSymbols at h
    simp only [hs, Out.ofOption_some, Out.bind_ok] at h
    obtain ⟨cs, _, h⟩ := Out.bind_eq_ok h
    obtain ⟨imp, himp, h⟩ := Out.bind_eq_ok h
    obtain ⟨ts, hts, h⟩ := Out.bind_eq_ok h
    obtain ⟨ty, hty, h⟩ := Out.bind_eq_ok h
    obtain ⟨inh, hi, _⟩ := Out.bind_eq_ok h
    have hname : ∀ t ∈ namesOf s, AtSymbol a n t ∧ plainRef t = true := fun t ht => ⟨⟨s, hs, ht⟩, hplain n t ⟨s, hs, ht⟩⟩
    have hmem : ref.typeRef ∈ namesOf s := by simp [namesOf, hinh]
    have h1 : Honest U a g (AtSymbol a) imp.2 := by
      refine honest_imported (H := H) hclear hplain fuel n s r hs hr imp himp
    have h2 : Honest U a g (AtSymbol a) ts.2 := by
      refine ((ends_resolveAll hclear (fun t ht => hname t ?_) fuel imp.2 h1).2 ts hts).1
      unfold namesOf
      exact List.mem_append_left _ (List.mem_append_left _ (List.mem_append_right _ ht))
    have h3 : Honest U a g (AtSymbol a) ty.2 := by
      refine (EndsIf.foldlM (b := False) (Q := fun p : Members × Resolver => Honest U a g (AtSymbol a) p.2) _ _ ?_ h2).2 ty hty
      intro acc dt _ hacc
      split
      · exact EndsIf.ok hacc
      · exact EndsIf.bind ((ends_members hclear hplain (fun _ => 0) fuel dt acc.2 hacc).weaken (by simp)) fun m hm => EndsIf.ok hm
    cases fuel with
    | zero => cases hi
    | succ fuel =>
    unfold inheritedSymbols at hi
    obtain ⟨parents, hpar, hi2⟩ := Out.bind_eq_ok hi
    cases fuel with
    | zero => cases hpar
    | succ fuel =>
    unfold parentNodes at hpar
    simp only [hinh, Option.getD_some, List.foldlM_cons, List.foldlM_nil] at hpar
    obtain ⟨x, hx1, hpar2⟩ := Out.bind_eq_ok hpar
    obtain ⟨y, hy, hx⟩ := Out.bind_eq_ok hx1
    cases fuel with
    | zero => cases hy
    | succ fuel =>
    obtain ⟨hy1, hy2⟩ := honest_resolve hclear (hname _ hmem).1 (hname _ hmem).2 fuel false ty.2 h3 y hy
    rcases hy2 with ⟨e, _⟩ | ⟨_, e⟩
    · rw [hb] at e; cases e
    · rw [ht] at e
      injection e with e
      rw [← e] at hx
      obtain ⟨q, _, hx⟩ := Out.bind_eq_ok hx
      injection hx with hx
      subst hx
      simp only [Out.pure_eq, Out.ok.injEq] at hpar2
      subst hpar2
      have hord : H.order (Dict.insert ([] : Dict Text NodeId) (q.normalizedName U) p) = [(q.normalizedName U, p)] :=
        List.perm_singleton.1 (H.perm _)
      simp only [hord, List.foldlM_cons, List.foldlM_nil] at hi2
      obtain ⟨z, hz, _⟩ := Out.bind_eq_ok hi2
      obtain ⟨w, hw, _⟩ := Out.bind_eq_ok hz
      obtain ⟨w2, hw2, _⟩ := Out.bind_eq_ok hw
      exact ih (fuel + 2) (by omega) hp hy1 w2.1 w2.2 hw2

end

/-! ## Examples -/

section Examples

private def ident (l : Text) (line : Nat) : Token := ⟨0, line, .identifier, some l, none⟩

private def ref (l : Text) (line : Nat) : SymRef := ⟨.one [ident l line], getRange .empty, none⟩

private def sym (kind : SymbolKind) (name : Text) : Symbol := { Symbol.default with kind := kind, name := name }

/-- `class A extends A {}`. -/
private def selfish : Arena Symbol :=
  let (file, a) := Arena.empty.addRoot (sym .file c!"a.php")
  (a.addChild file { sym .cls c!"A" with dataTypes := [ref c!"A" 1], inheritsFrom := some [ref c!"A" 2] }).2

/-- `class A extends B {} class B extends A {}`. -/
private def circle : Arena Symbol :=
  let (file, a) := Arena.empty.addRoot (sym .file c!"a.php")
  let (_, a) := a.addChild file { sym .cls c!"A" with dataTypes := [ref c!"A" 1], inheritsFrom := some [ref c!"B" 2] }
  (a.addChild file { sym .cls c!"B" with dataTypes := [ref c!"B" 3], inheritsFrom := some [ref c!"A" 4] }).2

/-- `class A extends B { use T; } class B {} trait T { function f() {} }`. -/
private def line : Arena Symbol :=
  let (file, a) := Arena.empty.addRoot (sym .file c!"a.php")
  let (_, a) := a.addChild file { sym .cls c!"A" with
    dataTypes := [ref c!"A" 1], inheritsFrom := some [ref c!"B" 2], imports := some [⟨.one [ident c!"T" 3], none⟩] }
  let (_, a) := a.addChild file { sym .cls c!"B" with dataTypes := [ref c!"B" 4] }
  let (t, a) := a.addChild file { sym .trait c!"T" with dataTypes := [ref c!"T" 5] }
  (a.addChild t (sym .method c!"f")).2

private def global : Dict Text NodeId := [(c!"a", ⟨1, 0⟩), (c!"b", ⟨2, 0⟩), (c!"t", ⟨3, 0⟩)]

/-- All names of all symbols. -/
private def allNames (a : Arena Symbol) : List (NodeId × TypeRef) := a.forest.flat.flatMap fun x => (namesOf x.2).map (x.1, ·)

private theorem mem_allNames {a : Arena Symbol} {n : NodeId} {t : TypeRef} (h : AtSymbol a n t) :
    ∃ i, i.idx = n.idx ∧ (i, t) ∈ allNames a := by
  obtain ⟨s, hs, ht⟩ := h
  unfold Arena.get? at hs
  cases hx : a.forest.node? n.idx with
  | none => simp [hx] at hs
  | some x =>
    obtain ⟨i, v, k⟩ := x
    simp only [hx, Option.map_some, Option.some.injEq] at hs
    subst hs
    obtain ⟨h1, h2, _⟩ := Forest.node?_some hx
    exact ⟨i, h1, List.mem_flatMap.2 ⟨_, h2, List.mem_map.2 ⟨t, ht, rfl⟩⟩⟩

/-- Only the number of a node is looked at. -/
private theorem at_idx {U : Unicode} {a : Arena Symbol} {g : Dict Text NodeId} {t : TypeRef} {n i : NodeId} (h : i.idx = n.idx) :
    keyOf a t n = keyOf a t i ∧ target U a g t n = target U a g t i := by
  unfold keyOf target Arena.ancestors? Arena.get?
  rw [h]
  exact ⟨rfl, rfl⟩

private theorem clear_of {U : Unicode} {a : Arena Symbol} {g : Dict Text NodeId}
    (h : ∀ x ∈ allNames a, ∀ y ∈ allNames a, keyOf a x.2 x.1 = keyOf a y.2 y.1 → target U a g x.2 x.1 = target U a g y.2 y.1) :
    Clear U a g (AtSymbol a) := by
  intro n t n' t' hn hn' e
  obtain ⟨i, hi, hm⟩ := mem_allNames hn
  obtain ⟨i', hi', hm'⟩ := mem_allNames hn'
  rw [(at_idx (U := U) (g := g) hi).1, (at_idx (U := U) (g := g) hi').1] at e
  rw [(at_idx hi).2, (at_idx hi').2]
  exact h _ hm _ hm' e

private theorem plain_of {a : Arena Symbol} (h : ∀ x ∈ allNames a, plainRef x.2 = true) : ∀ n t, AtSymbol a n t → plainRef t = true := by
  intro n t hn
  obtain ⟨i, _, hm⟩ := mem_allNames hn
  exact h _ hm

private theorem honest_new {U : Unicode} {a : Arena Symbol} {g : Dict Text NodeId} {n : NodeId} : Honest U a g (AtSymbol a) (.new g n) :=
  ⟨rfl, fun _ _ _ _ _ _ h => by cases h⟩

/-- The hypotheses of `C30_members_partial` are met by the class `A` with a parent and a trait. -/
example : ∃ rank : NodeId → Nat, Acyclic Unicode.ascii line global rank ∧ Clear Unicode.ascii line global (AtSymbol line) ∧
    (∀ n t, AtSymbol line n t → plainRef t = true) ∧ Honest Unicode.ascii line global (AtSymbol line) (.new global ⟨0, 0⟩) ∧
    (match allSymbols Unicode.ascii .id line 6 (.new global ⟨0, 0⟩) ⟨1, 0⟩ with
      | .ok p => p.1.map fun e => (e.1, e.2.symbol)
      | _ => []) = [(c!"f", ⟨4, 0⟩)] := by
  have get : ∀ {n : NodeId} {s : Symbol}, line.get? n = some s → ∃ i, i.idx = n.idx ∧ (i, s) ∈ line.forest.flat := by
    intro n s hs
    unfold Arena.get? at hs
    cases hx : line.forest.node? n.idx with
    | none => simp [hx] at hs
    | some x =>
      obtain ⟨i, v, k⟩ := x
      simp only [hx, Option.map_some, Option.some.injEq] at hs
      subst hs
      obtain ⟨h1, h2, _⟩ := Forest.node?_some hx
      exact ⟨i, h1, h2⟩
  have hpar : ∀ x ∈ line.forest.flat, ∀ t ∈ (x.2.inheritsFrom.getD []).map (·.typeRef), x.1.idx = 1 ∧
      target Unicode.ascii line global t x.1 = some (some ⟨2, 0⟩) := by decide +kernel
  have htyp : ∀ x ∈ line.forest.flat, ∀ t ∈ x.2.dataTypes.map (·.typeRef), x.1.stamp = 0 ∧
      target Unicode.ascii line global t x.1 = some (some x.1) := by decide +kernel
  have himp : ∀ x ∈ line.forest.flat, ∀ t ∈ (x.2.imports.getD []).map (·.path), x.1.idx = 1 ∧
      target Unicode.ascii line global t x.1 = some (some ⟨3, 0⟩) := by decide +kernel
  refine ⟨fun n => (if n.idx = 1 then 2 else 0) + (if n.stamp = 0 then 0 else 1), ⟨?_, ?_, ?_⟩, clear_of (by decide +kernel),
    plain_of (by decide +kernel), honest_new, by decide +kernel⟩
  · intro n s t p hs ht hp
    obtain ⟨i, hi, hm⟩ := get hs
    obtain ⟨h1, h2⟩ := hpar _ hm t ht
    rw [(at_idx hi).2, h2] at hp
    cases hp
    rw [hi] at h1
    simp only [h1]
    simp +decide
    omega
  · intro n s t p hs ht hp hne
    obtain ⟨i, hi, hm⟩ := get hs
    obtain ⟨h1, h2⟩ := htyp _ hm t ht
    rw [(at_idx hi).2, h2] at hp
    cases hp
    have h1' : i.stamp = 0 := h1
    simp only [hi, h1', if_true]
    rw [if_neg (c := n.stamp = 0)]
    · omega
    · intro e
      apply hne
      obtain ⟨x, y⟩ := n
      obtain ⟨x', y'⟩ := i
      simp_all
  · intro n s t p q hs ht hp _ _
    obtain ⟨i, hi, hm⟩ := get hs
    obtain ⟨h1, h2⟩ := himp _ hm t ht
    rw [(at_idx hi).2, h2] at hp
    cases hp
    rw [hi] at h1
    simp only [h1]
    simp +decide
    omega

/-- The hypotheses of `C30_child_partial` are met by the same classes, and the answer is right. -/
example : ∃ (rank : NodeId → Nat) (s : Symbol), Clear Unicode.ascii line global (AtClass line ⟨1, 0⟩) ∧
    (∀ t, AtClass line ⟨1, 0⟩ ⟨1, 0⟩ t → plainRef t = true) ∧
    (∀ n s t p, line.get? n = some s → t ∈ (s.inheritsFrom.getD []).map (·.typeRef) →
      target Unicode.ascii line global t ⟨1, 0⟩ = some (some p) → rank p < rank n) ∧
    line.get? ⟨1, 0⟩ = some s ∧ rank ⟨1, 0⟩ + 3 ≤ 5 ∧
    Honest Unicode.ascii line global (AtClass line ⟨1, 0⟩) (.new global ⟨0, 0⟩) ∧
    (match isChildOf Unicode.ascii .id line 5 (.new global ⟨0, 0⟩) s ⟨1, 0⟩ ⟨2, 0⟩ with
      | .ok p => p.1
      | _ => false) = true := by
  have hpar : ∀ x ∈ line.forest.flat, ∀ t ∈ (x.2.inheritsFrom.getD []).map (·.typeRef), x.1.idx = 1 ∧ t = .one [ident c!"B" 2] := by
    decide +kernel
  have ht : target Unicode.ascii line global (.one [ident c!"B" 2]) ⟨1, 0⟩ = some (some ⟨2, 0⟩) := by decide +kernel
  have get : ∀ {n : NodeId} {s : Symbol} {t : TypeRef}, line.get? n = some s → t ∈ (s.inheritsFrom.getD []).map (·.typeRef) →
      n.idx = 1 ∧ t = .one [ident c!"B" 2] := by
    intro n s t hs ht
    unfold Arena.get? at hs
    cases hx : line.forest.node? n.idx with
    | none => simp [hx] at hs
    | some x =>
      obtain ⟨i, v, k⟩ := x
      simp only [hx, Option.map_some, Option.some.injEq] at hs
      subst hs
      obtain ⟨h1, h2, _⟩ := Forest.node?_some hx
      exact h1 ▸ hpar _ h2 t ht
  refine ⟨fun n => if n.idx = 1 then 2 else 0, _, ?_, ?_, ?_, rfl, by decide, ⟨rfl, fun _ _ _ _ _ _ h => by cases h⟩, by decide +kernel⟩
  · rintro n t n' t' ⟨rfl, m, s, hs, hm⟩ ⟨rfl, m', s', hs', hm'⟩ _
    rw [(get hs hm).2, (get hs' hm').2]
  · rintro t ⟨_, m, s, hs, hm⟩
    rw [(get hs hm).2]
    decide +kernel
  · intro n s t p hs hm hp
    obtain ⟨h1, rfl⟩ := get hs hm
    rw [ht] at hp
    cases hp
    simp [h1]

/-- C30 fails for `class A extends B {} class B extends A {}`. -/
theorem C30_fails_circle (H : HashOrder) (fuel : Nat) (m : Members) (r' : Resolver) :
    allSymbols Unicode.ascii H circle fuel (.new global ⟨0, 0⟩) ⟨1, 0⟩ ≠ .ok (m, r') := by
  refine C30_cyclic_never (g := global) (clear_of (by decide +kernel)) (plain_of (by decide +kernel))
    (N := fun n => n = ⟨1, 0⟩ ∨ n = ⟨2, 0⟩) ?_ (.inl rfl) honest_new fuel m r'
  rintro n (rfl | rfl)
  · exact ⟨_, _, ⟨2, 0⟩, rfl, rfl, by decide +kernel, by decide +kernel, .inr rfl⟩
  · exact ⟨_, _, ⟨1, 0⟩, rfl, rfl, by decide +kernel, by decide +kernel, .inl rfl⟩

private def ownName : TypeRef := .one [ident c!"A" 1]
private def parentName : TypeRef := .one [ident c!"A" 2]

private theorem selfish_clear : Clear Unicode.ascii selfish global (AtSymbol selfish) := clear_of (by decide +kernel)

private theorem selfish_resolve {t : TypeRef} (ht : t = ownName ∨ t = parentName) (fuel : Nat) (r : Resolver)
    (hr : Honest Unicode.ascii selfish global (AtSymbol selfish) r) :
    ∃ r', resolveTypeRef Unicode.ascii selfish (fuel + 1) r t ⟨1, 0⟩ false = .ok (some ⟨1, 0⟩, r') ∧
      Honest Unicode.ascii selfish global (AtSymbol selfish) r' := by
  rcases ht with rfl | rfl
  · exact resolve_honest selfish_clear ⟨_, rfl, by decide +kernel⟩ (by decide +kernel) (by decide +kernel) (by decide +kernel)
      (by decide +kernel) fuel false r hr
  · exact resolve_honest selfish_clear ⟨_, rfl, by decide +kernel⟩ (by decide +kernel) (by decide +kernel) (by decide +kernel)
      (by decide +kernel) fuel false r hr

private def selfSymbol : Symbol := { sym .cls c!"A" with dataTypes := [ref c!"A" 1], inheritsFrom := some [ref c!"A" 2] }

private theorem selfish_parents (fuel : Nat) (r : Resolver) (hr : Honest Unicode.ascii selfish global (AtSymbol selfish) r) :
    parentNodes Unicode.ascii selfish fuel r selfSymbol ⟨1, 0⟩ = .deep ∨
    ∃ r', parentNodes Unicode.ascii selfish fuel r selfSymbol ⟨1, 0⟩ = .ok ([(c!"a", ⟨1, 0⟩)], r') ∧
      Honest Unicode.ascii selfish global (AtSymbol selfish) r' := by
  match fuel with
  | 0 => exact .inl rfl
  | 1 => exact .inl rfl
  | fuel + 2 =>
    right
    obtain ⟨r1, h1, h2⟩ := selfish_resolve (.inr rfl) fuel r hr
    refine ⟨r1, ?_, h2⟩
    have hi : selfSymbol.inheritsFrom.getD [] = [ref c!"A" 2] := rfl
    have ht : (ref c!"A" 2).typeRef = parentName := rfl
    have hg : selfish.get? ⟨1, 0⟩ = some selfSymbol := rfl
    unfold parentNodes
    simp only [hi, List.foldlM_cons, List.foldlM_nil, ht, h1, Out.bind_ok, hg, Out.ofOption_some, Out.pure_eq]
    rfl

/-- C30 fails for `class A extends A {}`: the question for the members of the class never ends, and neither does the question
whether the class is a child of another one. -/
theorem C30_fails_self (H : HashOrder) (fuel : Nat) : ∀ (r : Resolver), Honest Unicode.ascii selfish global (AtSymbol selfish) r →
    allSymbols Unicode.ascii H selfish fuel r ⟨1, 0⟩ = .deep ∧
    isChildOf Unicode.ascii H selfish fuel r selfSymbol ⟨1, 0⟩ ⟨2, 0⟩ = .deep := by
  have hi : selfSymbol.imports.getD [] = [] := rfl
  have hru : selfSymbol.importResolutions.getD [] = [] := rfl
  have hg : selfish.get? ⟨1, 0⟩ = some selfSymbol := rfl
  have hc : selfish.children? ⟨1, 0⟩ = some [] := rfl
  have hd : selfSymbol.dataTypes.map (·.typeRef) = [ownName] := rfl
  have hord : H.order ([(c!"a", ⟨1, 0⟩)] : Dict Text NodeId) = [(c!"a", ⟨1, 0⟩)] := List.perm_singleton.1 (H.perm _)
  induction fuel using Nat.strongRecOn with
  | ind fuel ih =>
    intro r hr
    match fuel, ih with
    | 0, _ => exact ⟨rfl, rfl⟩
    | 1, _ =>
      refine ⟨?_, ?_⟩
      · unfold allSymbols
        simp only [hg, hc, Out.ofOption_some, Out.bind_ok]
        rfl
      · unfold isChildOf
        rfl
    | fuel + 2, ih =>
      refine ⟨?_, ?_⟩
      · unfold allSymbols
        simp only [hg, hc, Out.ofOption_some, Out.bind_ok]
        have himp : importedSymbols Unicode.ascii H selfish (fuel + 1) r selfSymbol ⟨1, 0⟩ = .ok ([], r) := by
          unfold importedSymbols
          simp only [hi, hru, List.foldlM_nil, Out.pure_eq, Out.bind_ok]
          rfl
        obtain ⟨r1, h1, h2⟩ := selfish_resolve (.inl rfl) fuel r hr
        have htyp : resolveAll Unicode.ascii selfish (fuel + 1) r ⟨1, 0⟩ [ownName] = .ok ([⟨1, 0⟩], r1) := by
          unfold resolveAll
          simp only [List.foldlM_cons, List.foldlM_nil, h1, Out.bind_ok, Out.pure_eq]
          rfl
        simp only [himp, hd, htyp, Out.bind_ok, List.foldlM_cons, List.foldlM_nil, if_true, Out.pure_eq]
        unfold inheritedSymbols
        rcases selfish_parents fuel r1 h2 with h | ⟨r2, h, h3⟩
        · simp only [h, Out.bind_deep]
        · simp only [h, Out.bind_ok, hord, List.foldlM_cons, List.foldlM_nil, (ih fuel (by omega) r2 h3).1, Out.bind_deep]
      · unfold isChildOf
        rcases selfish_parents (fuel + 1) r hr with h | ⟨r2, h, h3⟩
        · simp only [h, Out.bind_deep]
        · have hne : (⟨1, 0⟩ : NodeId) ≠ ⟨2, 0⟩ := by decide
          simp only [h, Out.bind_ok, hord, List.foldlM_cons, List.foldlM_nil, Bool.false_eq_true, if_false, hne, hg,
            Out.ofOption_some, (ih (fuel + 1) (by omega) r2 h3).2, Out.bind_deep]

example : Honest Unicode.ascii selfish global (AtSymbol selfish) (.new global ⟨0, 0⟩) := honest_new

end Examples

end PhpLs.Resolver
