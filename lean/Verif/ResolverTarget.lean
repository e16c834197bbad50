import Verif.ResolverLemmas

/-!
# What a name stands for, apart from what is remembered
-/

namespace PhpLs.Resolver

open Out

/-- The name is none of `self`, `static` and `parent`. -/
def plainRef (t : TypeRef) : Bool :=
  match t.root with
  | some (some n) => !(n = c!"self" || n = c!"static" || n = c!"parent")
  | _ => true

/-- The symbol the global table has for a name: `none` is a panic. -/
def target (U : Unicode) (a : Arena Symbol) (g : Dict Text NodeId) (t : TypeRef) (anchor : NodeId) : Option (Option NodeId) := do
  let ancestors ← a.ancestors? anchor
  let file ← ancestors.getLast?
  let fileSymbol ← a.get? file
  let root ← t.root
  let name ← root
  let imports ← importMap U (fileSymbol.imports.getD []) []
  let anchorSymbol ← a.get? anchor
  let fileChildren ← a.children? file
  let joined ← joinedName U t name imports (currentNamespace anchorSymbol fileChildren)
  match lookupGlobal U g joined name with
  | none => some none
  | some (n, _) => (a.get? n).map fun _ => some n

theorem ne_deep_bindOption {α β : Type} {x : Option α} {f : α → Out β} (h : ∀ y, x = some y → f y ≠ .deep) :
    (Out.ofOption x >>= f) ≠ .deep := by
  cases x with
  | none => simp
  | some y => simpa using h y rfl

private theorem lookup_plain {U : Unicode} {a : Arena Symbol} {r : Resolver} {t : TypeRef} {file : NodeId} {fileName name : Text}
    {range : NodeRange} {joined : Text} {reg : Bool} :
    lookup U a r t file fileName name range joined reg ≠ .deep ∧
    OkThat (fun p => (match lookupGlobal U r.globalScope joined name with
        | none => some none
        | some (n, _) => (a.get? n).map fun _ => some n) = some p.1 ∧ p.2.cache = Dict.insert r.cache (file, range) p.1)
      (lookup U a r t file fileName name range joined reg) ∧
    ∀ v, (match lookupGlobal U r.globalScope joined name with
        | none => some none
        | some (n, _) => (a.get? n).map fun _ => some n) = some v →
      ∃ p, lookup U a r t file fileName name range joined reg = .ok p := by
  unfold lookup
  cases h : lookupGlobal U r.globalScope joined name with
  | none => exact ⟨by simp, OkThat.ok ⟨rfl, rfl⟩, fun v _ => ⟨_, rfl⟩⟩
  | some p =>
    obtain ⟨n, c⟩ := p
    simp only
    cases hg : a.get? n with
    | none => exact ⟨by simp, by simp [OkThat], by simp⟩
    | some s =>
      refine ⟨by simp, ?_, fun v _ => ⟨_, rfl⟩⟩
      intro z hz
      simp only [Out.ofOption_some, Out.bind_ok, Out.pure_eq, Out.ok.injEq] at hz
      subst hz
      refine ⟨rfl, ?_⟩
      simp only [Resolver.cached]
      split <;> split <;> rfl

/-- A name other than `self`, `static` and `parent`: what is remembered, else what the global table has for it. -/
theorem resolve_plain (U : Unicode) (a : Arena Symbol) (fuel : Nat) (r : Resolver) (t : TypeRef) (anchor : NodeId) (reg : Bool)
    (hp : plainRef t = true) :
    resolveTypeRef U a (fuel + 1) r t anchor reg ≠ .deep ∧
    OkThat (fun p => ((t.isBuiltin || t.isEmpty) = true ∧ p = (none, r)) ∨
        (t.isBuiltin || t.isEmpty) = false ∧ ∃ k, keyOf a t anchor = some k ∧
        ((Dict.get? r.cache k = some p.1 ∧ p.2 = r) ∨
          (Dict.get? r.cache k = none ∧ target U a r.globalScope t anchor = some p.1 ∧ p.2.cache = Dict.insert r.cache k p.1)))
      (resolveTypeRef U a (fuel + 1) r t anchor reg) ∧
    ∀ k v, keyOf a t anchor = some k → target U a r.globalScope t anchor = some v →
      ∃ p, resolveTypeRef U a (fuel + 1) r t anchor reg = .ok p := by
  unfold resolveTypeRef
  by_cases hb : (t.isBuiltin || t.isEmpty) = true
  · rw [if_pos hb]
    exact ⟨by simp, OkThat.ok (.inl ⟨hb, rfl⟩), fun _ _ _ _ => ⟨_, rfl⟩⟩
  · rw [if_neg hb]
    simp only [Bool.not_eq_true] at hb
    unfold target keyOf
    cases h1 : a.ancestors? anchor with
    | none => exact ⟨by simp, by simp [OkThat], by simp⟩
    | some ancestors =>
    simp only [Out.ofOption_some, Out.bind_ok, Option.bind_eq_bind, Option.bind_some]
    cases h2 : ancestors.getLast? with
    | none => exact ⟨by simp, by simp [OkThat], by simp⟩
    | some file =>
    simp only [Out.ofOption_some, Out.bind_ok, Option.bind_some]
    cases h3 : a.get? file with
    | none => exact ⟨by simp, by simp [OkThat], by simp⟩
    | some fs =>
    simp only [Out.ofOption_some, Out.bind_ok, Option.bind_some]
    cases h4 : t.root with
    | none => exact ⟨by simp, by simp [OkThat], by simp⟩
    | some root =>
    simp only [Out.ofOption_some, Out.bind_ok, Option.bind_some]
    cases h5 : root with
    | none => exact ⟨by simp, by simp [OkThat], by simp⟩
    | some name =>
    simp only [Out.ofOption_some, Out.bind_ok, Option.bind_some]
    cases h6 : t.range with
    | none => exact ⟨by simp, by simp [OkThat], by simp⟩
    | some range =>
    simp only [Out.ofOption_some, Out.bind_ok, Option.bind_some, Option.pure_def, Option.some.injEq, exists_eq_left']
    cases h7 : Dict.get? r.cache (file, range) with
    | some c => exact ⟨by simp, OkThat.ok (.inr ⟨hb, .inl ⟨rfl, rfl⟩⟩), fun _ _ _ _ => ⟨_, rfl⟩⟩
    | none =>
    have hn : ¬ (name = c!"self" ∨ name = c!"static") ∧ ¬ name = c!"parent" := by
      unfold plainRef at hp
      rw [h4, h5] at hp
      simp only [Bool.not_eq_true', Bool.or_eq_false_iff, decide_eq_false_iff_not] at hp
      exact ⟨fun e => e.elim hp.1.1 hp.1.2, hp.2⟩
    simp only [if_neg hn.1, if_neg hn.2]
    unfold resolveName
    cases h8 : importMap U (fs.imports.getD []) [] with
    | none => exact ⟨by simp, by simp [OkThat], by simp⟩
    | some imports =>
    simp only [Out.ofOption_some, Out.bind_ok, Option.bind_some]
    cases h9 : a.get? anchor with
    | none => exact ⟨by simp, by simp [OkThat], by simp⟩
    | some anchorSymbol =>
    simp only [Out.ofOption_some, Out.bind_ok, Option.bind_some]
    cases h10 : a.children? file with
    | none => exact ⟨by simp, by simp [OkThat], by simp⟩
    | some cs =>
    simp only [Out.ofOption_some, Out.bind_ok, Option.bind_some]
    cases h11 : joinedName U t name imports (currentNamespace anchorSymbol cs) with
    | none => exact ⟨by simp, by simp [OkThat], by simp⟩
    | some joined =>
    simp only [Out.ofOption_some, Out.bind_ok, Option.bind_some]
    have hl := lookup_plain (U := U) (a := a) (r := r) (t := t) (file := file) (fileName := fs.plainName) (name := name)
      (range := range) (joined := joined) (reg := reg)
    refine ⟨hl.1, hl.2.1.mono fun p hp => .inr ⟨hb, .inr ⟨trivial, hp.1, hp.2⟩⟩, fun _ v _ hv => hl.2.2 v hv⟩

/-- Names that belong together: at the node, the name. -/
abbrev Names := NodeId → TypeRef → Prop

/-- The names at the same place of a file stand for the same. -/
def Clear (U : Unicode) (a : Arena Symbol) (g : Dict Text NodeId) (Q : Names) : Prop :=
  ∀ n t n' t', Q n t → Q n' t' → keyOf a t n = keyOf a t' n' → target U a g t n = target U a g t' n'

/-- The states in which what is remembered for these names is what the global table has for them. -/
def Honest (U : Unicode) (a : Arena Symbol) (g : Dict Text NodeId) (Q : Names) (r : Resolver) : Prop :=
  r.globalScope = g ∧ ∀ n t, Q n t → ∀ k v, keyOf a t n = some k → Dict.get? r.cache k = some v → target U a g t n = some v

/-- In these states the names are resolved to what the global table has for them. -/
theorem honest_resolve {U : Unicode} {a : Arena Symbol} {g : Dict Text NodeId} {Q : Names} (hclear : Clear U a g Q) {n : NodeId}
    {t : TypeRef} (ht : Q n t) (hp : plainRef t = true) (fuel : Nat) (reg : Bool) (r : Resolver) (hr : Honest U a g Q r) :
    OkThat (fun p => Honest U a g Q p.2 ∧ (((t.isBuiltin || t.isEmpty) = true ∧ p.1 = none) ∨
        (t.isBuiltin || t.isEmpty) = false ∧ target U a g t n = some p.1))
      (resolveTypeRef U a (fuel + 1) r t n reg) := by
  obtain ⟨hg, hc⟩ := hr
  intro p he
  obtain ⟨_, h2, h3⟩ := resolve_plain U a fuel r t n reg hp
  have hq := (query_resolveTypeRef U a (fuel + 1) r t n reg p he).1.1
  rcases h2 p he with ⟨h, h'⟩ | ⟨hb, k, hk, h | h⟩
  · subst h'
    exact ⟨⟨hg, hc⟩, .inl ⟨h, rfl⟩⟩
  · rw [h.2]
    exact ⟨⟨hg, hc⟩, .inr ⟨hb, hc n t ht k p.1 hk h.1⟩⟩
  · obtain ⟨e1, e2, e3⟩ := h
    rw [hg] at e2
    refine ⟨⟨hq.globalScope.trans hg, ?_⟩, .inr ⟨hb, e2⟩⟩
    intro n' t' ht' k' v' hk' hv'
    rw [e3, Dict.get?_insert] at hv'
    split at hv'
    · next e =>
      subst e
      injection hv' with hv'
      subst hv'
      rw [← hclear n t n' t' ht ht' (hk.trans hk'.symm)]
      exact e2
    · exact hc n' t' ht' k' v' hk' hv'

/-- The same with an answer. -/
theorem resolve_honest {U : Unicode} {a : Arena Symbol} {g : Dict Text NodeId} {Q : Names} (hclear : Clear U a g Q) {n : NodeId}
    {t : TypeRef} (ht : Q n t) (hp : plainRef t = true) (hb : (t.isBuiltin || t.isEmpty) = false) (hk : keyOf a t n ≠ none)
    {v : Option NodeId} (hv : target U a g t n = some v) (fuel : Nat) (reg : Bool) (r : Resolver) (hr : Honest U a g Q r) :
    ∃ r', resolveTypeRef U a (fuel + 1) r t n reg = .ok (v, r') ∧ Honest U a g Q r' := by
  obtain ⟨k, hk⟩ := Option.ne_none_iff_exists'.1 hk
  obtain ⟨p, he⟩ := (resolve_plain U a fuel r t n reg hp).2.2 k v hk (by rw [hr.1]; exact hv)
  obtain ⟨h1, h2⟩ := honest_resolve hclear ht hp fuel reg r hr p he
  rcases h2 with ⟨h, _⟩ | ⟨_, h⟩
  · rw [hb] at h; cases h
  · rw [hv] at h
    injection h with h
    subst h
    exact ⟨p.2, he, h1⟩

end PhpLs.Resolver
