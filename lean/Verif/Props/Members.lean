import Verif.ResolverAsked

/-!
# Which members a class has: C29

`allSymbols` is the model of `Symbol::get_all_symbols`.  What a member name means is described by four sources: the members
declared in the class, those of its traits, those of its data types (the interfaces it implements) and those of its parents.
-/

namespace PhpLs.Resolver

open Out

/-- The member declared in the body of the class under this name (in lower case): the last one. -/
def declared (U : Unicode) (ctx : NodeId) (cs : List (NodeId × Symbol)) (k : Text) : Option SymbolAlias :=
  (cs.reverse.find? fun c => U.lower c.2.plainName = k).map fun c => ⟨c.1, c.2.plainName, c.2.visibility, ctx⟩

private theorem get?_foldl_insert {κ α β : Type} [DecidableEq κ] (f : β → κ) (g : β → α) (k : κ) : ∀ (l : List β) (d : Dict κ α),
    Dict.get? (l.foldl (fun d c => Dict.insert d (f c) (g c)) d) k =
      ((l.reverse.find? fun c => f c = k).map g).or (Dict.get? d k)
  | [], d => rfl
  | c :: l, d => by
    rw [List.foldl_cons, get?_foldl_insert f g k l, Dict.get?_insert, List.reverse_cons, List.find?_append]
    cases h : l.reverse.find? fun c => f c = k with
    | some x => simp
    | none =>
      simp only [Option.map_none, Option.none_or, List.find?_cons, List.find?_nil]
      by_cases hk : f c = k <;> simp [hk]

theorem get?_ownMembers (U : Unicode) (ctx : NodeId) (cs : List (NodeId × Symbol)) (k : Text) :
    Dict.get? (ownMembers U ctx cs) k = declared U ctx cs k := by
  have h := get?_foldl_insert (fun c : NodeId × Symbol => c.2.normalizedName U)
    (fun c => (⟨c.1, c.2.plainName, c.2.visibility, ctx⟩ : SymbolAlias)) k cs []
  cases cs with
  | nil => rfl
  | cons c cs =>
    unfold ownMembers declared
    refine h.trans ?_
    simp only [Dict.get?, Option.or_none]
    rfl

/-- The answer of a later question to the same resolver, behind other questions for names that stand in symbols. -/
def Later (U : Unicode) (a : Arena Symbol) (r : Resolver) (ask : Resolver → Out (Members × Resolver)) (m : Members) : Prop :=
  ∃ r1 r2, Asked U a (AtSymbol a) r r1 ∧ ask r1 = .ok (m, r2)

/-- The members of the data types of a class: for each resolved data type other than the class its members, in order. -/
private theorem typed_fold (U : Unicode) (H : HashOrder) (a : Arena Symbol) (fuel : Nat) (ctx : NodeId) (r0 : Resolver) :
    ∀ (l : List NodeId) (m0 : Members) (r : Resolver) (m : Members) (r' : Resolver), Asked U a (AtSymbol a) r0 r →
      (l.foldlM (init := (m0, r)) fun (acc : Members × Resolver) dt =>
        if ctx = dt then .ok acc
        else do
          let m ← allSymbols U H a fuel acc.2 dt
          .ok (Dict.extend acc.1 m.1, m.2)) = Out.ok (m, r') →
      Asked U a (AtSymbol a) r0 r' ∧ ∃ ty : List (NodeId × Members), ty.map (·.1) = l.filter (fun dt => ctx ≠ dt) ∧
        (∀ e ∈ ty, Later U a r0 (fun r => allSymbols U H a fuel r e.1) e.2) ∧
        ∀ k, Dict.get? m k = (ty.reverse.findSome? fun e => Dict.get? e.2 k).or (Dict.get? m0 k)
  | [], m0, r, m, r', hs, h => by
    simp only [List.foldlM_nil, Out.pure_eq, Out.ok.injEq, Prod.mk.injEq] at h
    obtain ⟨rfl, rfl⟩ := h
    exact ⟨hs, [], rfl, by simp, by simp⟩
  | dt :: l, m0, r, m, r', hs, h => by
    rw [List.foldlM_cons] at h
    by_cases hd : ctx = dt
    · simp only [if_pos hd, Out.bind_ok] at h
      obtain ⟨h1, ty, h2, h3, h4⟩ := typed_fold U H a fuel ctx r0 l m0 r m r' hs h
      exact ⟨h1, ty, by simp [h2, hd], h3, h4⟩
    · simp only [if_neg hd] at h
      obtain ⟨x, hx, h⟩ := Out.bind_eq_ok h
      obtain ⟨p, hp, hx⟩ := Out.bind_eq_ok hx
      injection hx with hx
      subst hx
      have hq := asked_allSymbols fuel dt hs p hp
      obtain ⟨h1, ty, h2, h3, h4⟩ := typed_fold U H a fuel ctx r0 l _ p.2 m r' hq h
      refine ⟨h1, (dt, p.1) :: ty, by simp [h2, hd], ?_, ?_⟩
      · intro e he
        rcases List.mem_cons.1 he with rfl | he
        · exact ⟨r, p.2, hs, hp⟩
        · exact h3 e he
      · intro k
        rw [h4 k, Dict.get?_extend, List.reverse_cons, List.findSome?_append]
        cases ty.reverse.findSome? fun e => Dict.get? e.2 k with
        | some v => simp
        | none => cases hk : Dict.get? p.1 k <;> simp [hk]

/-- C29, what the code does: for each name the inherited member wins, then the one of the data types (of these the last), then
the one of the traits, and only then the one that is declared in the class. -/
theorem C29_exact {U : Unicode} {H : HashOrder} {a : Arena Symbol} {fuel : Nat} {r r' : Resolver} {ctx : NodeId} {m : Members}
    (h : allSymbols U H a (fuel + 1) r ctx = .ok (m, r')) :
    ∃ (s : Symbol) (cs : List (NodeId × Symbol)) (imp : Members) (ty : List (NodeId × Members)) (inh : Members), a.get? ctx = some s ∧ a.children? ctx = some cs ∧
      Later U a r (fun r => importedSymbols U H a fuel r s ctx) imp ∧
      Later U a r (fun r => inheritedSymbols U H a fuel r s ctx) inh ∧
      (∃ types r1 r2, Asked U a (AtSymbol a) r r1 ∧ resolveAll U a fuel r1 ctx (s.dataTypes.map (·.typeRef)) = .ok (types, r2) ∧
        ty.map (·.1) = types.filter fun dt => ctx ≠ dt) ∧
      (∀ e ∈ ty, Later U a r (fun r => allSymbols U H a fuel r e.1) e.2) ∧
      ∀ k, Dict.get? m k = (Dict.get? inh k).or
        ((ty.reverse.findSome? fun e => Dict.get? e.2 k).or ((Dict.get? imp k).or (declared U ctx cs k))) := by
  unfold allSymbols at h
  obtain ⟨s, hs, h⟩ := Out.bind_eq_ok h
  obtain ⟨cs, hcs, h⟩ := Out.bind_eq_ok h
  obtain ⟨imp, himp, h⟩ := Out.bind_eq_ok h
  obtain ⟨ts, hts, h⟩ := Out.bind_eq_ok h
  obtain ⟨ty, hty, h⟩ := Out.bind_eq_ok h
  obtain ⟨inh, hinh, h⟩ := Out.bind_eq_ok h
  injection h with h
  injection h with h1 h2
  subst h1 h2
  have htypes : ∀ t ∈ s.dataTypes.map (·.typeRef), AtSymbol a ctx t := fun t ht => ⟨s, Out.ofOption_ok hs, by
    unfold namesOf
    exact List.mem_append_left _ (List.mem_append_left _ (List.mem_append_right _ ht))⟩
  have q1 := asked_importedSymbols fuel (Out.ofOption_ok hs) .start imp himp
  have q2 := asked_resolveAll htypes fuel q1 ts hts
  obtain ⟨q3, tys, t1, t2, t3⟩ := typed_fold U H a fuel ctx r ts.1 _ ts.2 ty.1 ty.2 q2 hty
  refine ⟨s, cs, imp.1, tys, inh.1, Out.ofOption_ok hs, Out.ofOption_ok hcs, ⟨r, imp.2, .start, himp⟩,
    ⟨ty.2, inh.2, q3, hinh⟩, ⟨ts.1, imp.2, ts.2, q1, hts, t1⟩, t2, ?_⟩
  intro k
  rw [Dict.get?_extend, t3 k, Dict.get?_extend, get?_ownMembers]
  cases Dict.get? inh.1 k <;> cases Dict.get? imp.1 k <;> simp

/-- C29, the part that holds: a name that is declared in the class is always found, and it means the declared member unless the
traits, the data types or the parents have a member of this name, too.  Missing: the declared member wins in this case; for that
see `C29_fails`. -/
theorem C29_declared_partial {U : Unicode} {H : HashOrder} {a : Arena Symbol} {fuel : Nat} {r r' : Resolver} {ctx : NodeId}
    {m : Members} (h : allSymbols U H a (fuel + 1) r ctx = .ok (m, r')) {cs : List (NodeId × Symbol)}
    (hcs : a.children? ctx = some cs) {k : Text} {d : SymbolAlias} (hd : declared U ctx cs k = some d) :
    ∃ e, Dict.get? m k = some e ∧ (e = d ∨ ∃ s other, a.get? ctx = some s ∧ Dict.get? other k = some e ∧
      (Later U a r (fun r => importedSymbols U H a fuel r s ctx) other ∨ Later U a r (fun r => inheritedSymbols U H a fuel r s ctx) other ∨
        ∃ dt, dt ≠ ctx ∧ (∃ types r1 r2, Asked U a (AtSymbol a) r r1 ∧
            resolveAll U a fuel r1 ctx (s.dataTypes.map (·.typeRef)) = .ok (types, r2) ∧ dt ∈ types) ∧
          Later U a r (fun r => allSymbols U H a fuel r dt) other)) := by
  obtain ⟨s, cs', imp, ty, inh, hs, hcs', h1, h2, ⟨types, r1, r2, h3, h3', h3''⟩, h4, h5⟩ := C29_exact h
  rw [hcs] at hcs'
  injection hcs' with hcs'
  subst hcs'
  rw [h5 k, hd]
  cases hi : Dict.get? inh k with
  | some e => exact ⟨e, by simp, .inr ⟨s, inh, hs, hi, .inr (.inl h2)⟩⟩
  | none =>
    cases ht : ty.reverse.findSome? fun e => Dict.get? e.2 k with
    | some e =>
      obtain ⟨x, hx, he⟩ := List.exists_of_findSome?_eq_some ht
      have hx := List.mem_reverse.1 hx
      have hm : x.1 ∈ types.filter fun dt => ctx ≠ dt := h3'' ▸ List.mem_map.2 ⟨x, hx, rfl⟩
      obtain ⟨hm, hne⟩ := List.mem_filter.1 hm
      exact ⟨e, by simp, .inr ⟨s, x.2, hs, he, .inr (.inr ⟨x.1, fun e => of_decide_eq_true hne e.symm,
        ⟨types, r1, r2, h3, h3', hm⟩, h4 x hx⟩)⟩⟩
    | none =>
      cases hp : Dict.get? imp k with
      | some e => exact ⟨e, by simp, .inr ⟨s, imp, hs, hp, .inl h1⟩⟩
      | none => exact ⟨d, by simp, .inl rfl⟩

private theorem inherited_fold (U : Unicode) (H : HashOrder) (a : Arena Symbol) (fuel : Nat) (r0 : Resolver) :
    ∀ (l : List (Text × NodeId)) (m0 : Members) (r : Resolver) (m : Members) (r' : Resolver), Asked U a (AtSymbol a) r0 r →
      (l.foldlM (init := (m0, r)) fun (acc : Members × Resolver) p => do
        let m ← allSymbols U H a fuel acc.2 p.2
        .ok (Dict.extend m.1 acc.1, m.2)) = Out.ok (m, r') →
      ∃ ps : List (NodeId × Members), ps.map (·.1) = l.map (·.2) ∧
        (∀ e ∈ ps, Later U a r0 (fun r => allSymbols U H a fuel r e.1) e.2) ∧
        ∀ k, Dict.get? m k = (Dict.get? m0 k).or (ps.findSome? fun e => Dict.get? e.2 k)
  | [], m0, r, m, r', hs, h => by
    simp only [List.foldlM_nil, Out.pure_eq, Out.ok.injEq, Prod.mk.injEq] at h
    obtain ⟨rfl, rfl⟩ := h
    exact ⟨[], rfl, by simp, by simp⟩
  | p :: l, m0, r, m, r', hs, h => by
    rw [List.foldlM_cons] at h
    obtain ⟨x, hx, h⟩ := Out.bind_eq_ok h
    obtain ⟨q, hq, hx⟩ := Out.bind_eq_ok hx
    injection hx with hx
    subst hx
    obtain ⟨ps, h1, h2, h3⟩ := inherited_fold U H a fuel r0 l _ q.2 m r' (asked_allSymbols fuel p.2 hs q hq) h
    refine ⟨(p.2, q.1) :: ps, by simp [h1], ?_, ?_⟩
    · intro e he
      rcases List.mem_cons.1 he with rfl | he
      · exact ⟨r, q.2, hs, hq⟩
      · exact h2 e he
    · intro k
      rw [h3 k, Dict.get?_extend]
      cases Dict.get? m0 k <;> cases hk : Dict.get? q.1 k <;> simp [hk]

private theorem get?_map {α β : Type} (f : α → β) (k : Text) : ∀ d : Dict Text α,
    Dict.get? (d.map fun e => (e.1, f e.2)) k = (Dict.get? d k).map f
  | [] => rfl
  | e :: d => by
    have ih := get?_map f k d
    rw [List.map_cons, Dict.get?, Dict.get?, ih]
    split <;> rfl

/-- C29, what is inherited: the parents are asked in the order of a hash map, and the first of them that has a member of this name
wins.  The member is said to come from the class itself. -/
theorem C29_inherited {U : Unicode} {H : HashOrder} {a : Arena Symbol} {fuel : Nat} {r r' : Resolver} {ctx : NodeId} {s : Symbol}
    {m : Members} (hs : a.get? ctx = some s) (h : inheritedSymbols U H a (fuel + 1) r s ctx = .ok (m, r')) :
    ∃ (parents : Dict Text NodeId) (r1 : Resolver) (ps : List (NodeId × Members)), parentNodes U a fuel r s ctx = .ok (parents, r1) ∧
      ps.map (·.1) = (H.order parents).map (·.2) ∧ (∀ e ∈ ps, Later U a r (fun r => allSymbols U H a fuel r e.1) e.2) ∧
      ∀ k, Dict.get? m k = (ps.findSome? fun e => Dict.get? e.2 k).map fun e => { e with origin := ctx } := by
  unfold inheritedSymbols at h
  obtain ⟨parents, hp, h⟩ := Out.bind_eq_ok h
  obtain ⟨q, hq, h⟩ := Out.bind_eq_ok h
  injection h with h
  injection h with h1 h2
  subst h1 h2
  have hn : ∀ t ∈ (s.inheritsFrom.getD []).map (·.typeRef), AtSymbol a ctx t := fun t ht => ⟨s, hs, by
    unfold namesOf
    exact List.mem_append_left _ (List.mem_append_left _ (List.mem_append_left _ ht))⟩
  have q1 := asked_parentNodes hn fuel .start parents hp
  obtain ⟨ps, p1, p2, p3⟩ := inherited_fold U H a fuel r _ _ _ q.1 q.2 q1 hq
  refine ⟨parents.1, parents.2, ps, hp, p1, p2, fun k => ?_⟩
  refine (get?_map (fun e : SymbolAlias => e.passAlong ctx) k q.1).trans ?_
  rw [p3 k]
  rfl

private theorem parents_fold (U : Unicode) (a : Arena Symbol) (fuel : Nat) (ctx : NodeId) :
    ∀ (l : List SymRef) (d0 : Dict Text NodeId) (ns0 : List NodeId) (r : Resolver) (d : Dict Text NodeId) (r' : Resolver),
      (l.foldlM (init := (d0, r)) fun (acc : Dict Text NodeId × Resolver) ref => do
        let p ← resolveTypeRef U a fuel acc.2 ref.typeRef ctx false
        match p.1 with
        | none => .ok (acc.1, p.2)
        | some node => do
          let n ← .ofOption (a.get? node)
          .ok (Dict.insert acc.1 (n.normalizedName U) node, p.2)) = Out.ok (d, r') →
      ∃ ns : List NodeId, ((l.map (·.typeRef)).foldlM (init := (ns0, r)) fun (acc : List NodeId × Resolver) t => do
          let p ← resolveTypeRef U a fuel acc.2 t ctx false
          .ok (acc.1 ++ p.1.toList, p.2)) = Out.ok (ns0 ++ ns, r') ∧ (∀ n ∈ ns, (a.get? n).isSome = true) ∧
        ∀ k, Dict.get? d k = (ns.reverse.find? fun n => (a.get? n).map (fun s => U.lower s.plainName) = some k).or (Dict.get? d0 k)
  | [], d0, ns0, r, d, r', h => by
    simp only [List.foldlM_nil, Out.pure_eq, Out.ok.injEq, Prod.mk.injEq] at h
    obtain ⟨rfl, rfl⟩ := h
    exact ⟨[], by simp, by simp, by simp⟩
  | ref :: l, d0, ns0, r, d, r', h => by
    rw [List.foldlM_cons] at h
    obtain ⟨x, hx, h⟩ := Out.bind_eq_ok h
    obtain ⟨p, hp, hx⟩ := Out.bind_eq_ok hx
    rw [List.map_cons]
    cases hn : p.1 with
    | none =>
      rw [hn] at hx
      cases hx
      obtain ⟨ns, h1, h2, h3⟩ := parents_fold U a fuel ctx l d0 ns0 p.2 d r' h
      refine ⟨ns, ?_, h2, h3⟩
      rw [List.foldlM_cons, hp]
      simp only [Out.bind_ok, hn, Option.toList_none, List.append_nil]
      exact h1
    | some node =>
      rw [hn] at hx
      obtain ⟨s, hs, hx⟩ := Out.bind_eq_ok hx
      have hs := Out.ofOption_ok hs
      cases hx
      obtain ⟨ns, h1, h2, h3⟩ := parents_fold U a fuel ctx l _ (ns0 ++ [node]) p.2 d r' h
      refine ⟨node :: ns, ?_, ?_, fun k => ?_⟩
      · rw [List.foldlM_cons, hp]
        simp only [Out.bind_ok, hn, Option.toList_some]
        rw [h1, List.append_assoc]
        rfl
      · intro n hm
        rcases List.mem_cons.1 hm with rfl | hm
        · rw [hs]; rfl
        · exact h2 n hm
      · rw [h3 k, Dict.get?_insert, List.reverse_cons, List.find?_append]
        cases ns.reverse.find? fun n => (a.get? n).map (fun s => U.lower s.plainName) = some k with
        | some v => simp
        | none =>
          simp only [Option.none_or, List.find?_cons, List.find?_nil, hs, Option.map_some, Option.some.injEq]
          have e : s.normalizedName U = U.lower s.plainName := rfl
          rw [e]
          by_cases hk : U.lower s.plainName = k <;> simp [hk]

/-- C29, the parents of a class: the symbols its names behind `extends` are resolved to, by their names in lower case, of those with
the same name the last. -/
theorem C29_parents {U : Unicode} {a : Arena Symbol} {fuel : Nat} {r r' : Resolver} {ctx : NodeId} {s : Symbol}
    {d : Dict Text NodeId} (h : parentNodes U a (fuel + 1) r s ctx = .ok (d, r')) :
    ∃ ns, resolveAll U a fuel r ctx ((s.inheritsFrom.getD []).map (·.typeRef)) = .ok (ns, r') ∧
      ∀ k, Dict.get? d k = ns.reverse.find? fun n => (a.get? n).map (fun s => U.lower s.plainName) = some k := by
  unfold parentNodes at h
  obtain ⟨ns, h1, _, h3⟩ := parents_fold U a fuel ctx _ [] [] r d r' h
  exact ⟨ns, h1, fun k => by rw [h3 k]; simp [Dict.get?]⟩

private theorem addCandidates_head (k : Text) : ∀ (m : Members) (d : Dict Text (List SymbolAlias)),
    ((Dict.get? (addCandidates d m) k).bind List.head?) = ((Dict.get? d k).bind List.head?).or (Dict.get? m k)
  | [], d => by simp [addCandidates, Dict.get?]
  | e :: m, d => by
    have ih := addCandidates_head k m (Dict.insert d e.1 ((Dict.get? d e.1).getD [] ++ [e.2]))
    unfold addCandidates at ih ⊢
    rw [List.foldl_cons, ih, Dict.get?_insert, Dict.get?]
    by_cases hk : e.1 = k
    · subst hk
      cases Dict.get? d e.1 with
      | none => simp
      | some l => cases l <;> simp
    · simp [hk]

private theorem get?_firsts (k : Text) : ∀ (d : Dict Text (List SymbolAlias)) (m : Members), firsts d = some m →
    Dict.get? m k = (Dict.get? d k).bind List.head?
  | [], m, h => by cases h; rfl
  | (k', l) :: d, m, h => by
    unfold firsts at h
    cases hl : l.head? with
    | none => rw [hl] at h; cases h
    | some x =>
      rw [hl] at h
      cases hm : firsts d with
      | none => rw [hm] at h; cases h
      | some m' =>
        rw [hm] at h
        cases h
        rw [Dict.get?, Dict.get?, get?_firsts k d m' hm]
        split
        · exact hl.symm
        · rfl

/-- The traits of a class with their members, in the order of their names behind `use`. -/
inductive TraitsOf (U : Unicode) (H : HashOrder) (a : Arena Symbol) (fuel : Nat) (ctx : NodeId) (r : Resolver) :
    List SymbolImport → List (NodeId × Members) → Prop where
  | nil : TraitsOf U H a fuel ctx r [] []
  /-- The name is not resolved. -/
  | unknown {i : SymbolImport} {l : List SymbolImport} {ts : List (NodeId × Members)} {r1 r2 : Resolver} :
      Asked U a (AtSymbol a) r r1 → resolveTypeRef U a fuel r1 i.path ctx false = .ok (none, r2) →
      TraitsOf U H a fuel ctx r l ts → TraitsOf U H a fuel ctx r (i :: l) ts
  /-- The name is resolved to something else. -/
  | other {i : SymbolImport} {l : List SymbolImport} {ts : List (NodeId × Members)} {r1 r2 : Resolver} {n : NodeId} {t : Symbol} :
      Asked U a (AtSymbol a) r r1 → resolveTypeRef U a fuel r1 i.path ctx false = .ok (some n, r2) → a.get? n = some t →
      t.kind ≠ .trait → TraitsOf U H a fuel ctx r l ts → TraitsOf U H a fuel ctx r (i :: l) ts
  | trait {i : SymbolImport} {l : List SymbolImport} {ts : List (NodeId × Members)} {r1 r2 : Resolver} {n : NodeId} {t : Symbol}
      {m : Members} : Asked U a (AtSymbol a) r r1 → resolveTypeRef U a fuel r1 i.path ctx false = .ok (some n, r2) →
      a.get? n = some t → t.kind = .trait → Later U a r (fun r => allSymbols U H a fuel r n) m →
      TraitsOf U H a fuel ctx r l ts → TraitsOf U H a fuel ctx r (i :: l) ((n, m) :: ts)

private theorem imported_fold (U : Unicode) (H : HashOrder) (a : Arena Symbol) (fuel : Nat) (ctx : NodeId) (r0 : Resolver) :
    ∀ (l : List SymbolImport) (d0 : Dict Text (List SymbolAlias)) (r : Resolver)
      (d : Dict Text (List SymbolAlias)) (r' : Resolver), Asked U a (AtSymbol a) r0 r → (∀ i ∈ l, AtSymbol a ctx i.path) →
      (l.foldlM (init := (d0, r)) fun (acc : Dict Text (List SymbolAlias) × Resolver) import_ => do
        let p ← resolveTypeRef U a fuel acc.2 import_.path ctx false
        match p.1 with
        | none => .ok (acc.1, p.2)
        | some used => do
          let t ← .ofOption (a.get? used)
          if t.kind ≠ .trait then .ok (acc.1, p.2)
          else do
            let m ← allSymbols U H a fuel p.2 used
            .ok (addCandidates acc.1 m.1, m.2)) = Out.ok (d, r') →
      ∃ ts : List (NodeId × Members), TraitsOf U H a fuel ctx r0 l ts ∧
        ∀ k, (Dict.get? d k).bind List.head? = ((Dict.get? d0 k).bind List.head?).or (ts.findSome? fun e => Dict.get? e.2 k)
  | [], d0, r, d, r', hs, hn, h => by
    simp only [List.foldlM_nil, Out.pure_eq, Out.ok.injEq, Prod.mk.injEq] at h
    obtain ⟨rfl, rfl⟩ := h
    exact ⟨[], .nil, by simp⟩
  | i :: l, d0, r, d, r', hs, hn, h => by
    rw [List.foldlM_cons] at h
    obtain ⟨x, hx, h⟩ := Out.bind_eq_ok h
    obtain ⟨⟨o, r1⟩, hp, hx⟩ := Out.bind_eq_ok hx
    have hq : Asked U a (AtSymbol a) r0 r1 := hs.ask (hn i (.head _)) hp
    have hn' : ∀ i ∈ l, AtSymbol a ctx i.path := fun i hi => hn i (.tail _ hi)
    cases o with
    | none =>
      cases hx
      obtain ⟨ts, h1, h2⟩ := imported_fold U H a fuel ctx r0 l d0 r1 d r' hq hn' h
      exact ⟨ts, .unknown hs hp h1, h2⟩
    | some used =>
      obtain ⟨t, ht, hx⟩ := Out.bind_eq_ok hx
      have ht := Out.ofOption_ok ht
      by_cases hk : t.kind = .trait
      · simp only [hk, ne_eq, not_true_eq_false, ↓reduceIte] at hx
        obtain ⟨m, hm, hx⟩ := Out.bind_eq_ok hx
        injection hx with hx
        subst hx
        obtain ⟨ts, h1, h2⟩ := imported_fold U H a fuel ctx r0 l _ m.2 d r' (asked_allSymbols fuel used hq m hm) hn' h
        refine ⟨(used, m.1) :: ts, .trait hs hp ht hk ⟨r1, m.2, hq, hm⟩ h1, fun k => ?_⟩
        rw [h2 k, addCandidates_head, List.findSome?_cons]
        cases (Dict.get? d0 k).bind List.head? <;> cases hg : Dict.get? m.1 k <;> simp
      · simp only [hk, ne_eq, not_false_eq_true, ↓reduceIte] at hx
        injection hx with hx
        subst hx
        obtain ⟨ts, h1, h2⟩ := imported_fold U H a fuel ctx r0 l d0 r1 d r' hq hn' h
        exact ⟨ts, .other hs hp ht hk h1, h2⟩

/-- C29, what comes from traits, for a class without `insteadof` and `as` rules: the names behind `use` are resolved in turn, those
that are not resolved to a trait are passed over, and the first trait that has a member of this name wins. -/
theorem C29_imported {U : Unicode} {H : HashOrder} {a : Arena Symbol} {fuel : Nat} {r r' : Resolver} {ctx : NodeId} {s : Symbol}
    {m : Members} (hs : a.get? ctx = some s) (hr : s.importResolutions.getD [] = [])
    (h : importedSymbols U H a (fuel + 1) r s ctx = .ok (m, r')) :
    ∃ ts : List (NodeId × Members), TraitsOf U H a fuel ctx r (s.imports.getD []) ts ∧
      ∀ k, Dict.get? m k = ts.findSome? fun e => Dict.get? e.2 k := by
  unfold importedSymbols at h
  obtain ⟨all, hall, h⟩ := Out.bind_eq_ok h
  rw [hr] at h
  unfold applyRules at h
  obtain ⟨kept, hkept, h⟩ := Out.bind_eq_ok h
  obtain ⟨children, hc, h⟩ := Out.bind_eq_ok h
  cases hkept
  cases h
  have hn : ∀ i ∈ s.imports.getD [], AtSymbol a ctx i.path := fun i hi => ⟨s, hs, by
    unfold namesOf
    exact List.mem_append_left _ (List.mem_append_right _ (List.mem_map.2 ⟨i, hi, rfl⟩))⟩
  obtain ⟨ts, h1, h2⟩ := imported_fold U H a fuel ctx r _ [] r all.1 all.2 .start hn hall
  refine ⟨ts, h1, fun k => ?_⟩
  rw [get?_firsts k _ _ (Out.ofOption_ok hc), h2 k]
  rfl

/-! ## Examples -/

section Examples

private def ident (l : Text) (line : Nat) : Token := ⟨0, line, .identifier, some l, none⟩

private def ref (l : Text) (line : Nat) : SymRef := ⟨.one [ident l line], getRange .empty, none⟩

/-- A file with the classes `class P { f }`, `trait T { f; g }`, `class C extends P { f }`, `class D { use T; f }`,
`class E extends P { use T; }` and `class F { f }`. -/
private def arena : Arena Symbol :=
  let sym := fun kind name => ({ Symbol.default with kind := kind, name := name } : Symbol)
  let a := Arena.empty
  let (file, a) := a.addRoot (sym .file c!"a.php")
  let (p, a) := a.addChild file { sym .cls c!"P" with dataTypes := [ref c!"P" 1] }
  let (_, a) := a.addChild p (sym .method c!"f")
  let (t, a) := a.addChild file { sym .trait c!"T" with dataTypes := [ref c!"T" 2] }
  let (_, a) := a.addChild t (sym .method c!"f")
  let (_, a) := a.addChild t (sym .method c!"g")
  let (c, a) := a.addChild file { sym .cls c!"C" with dataTypes := [ref c!"C" 3], inheritsFrom := some [ref c!"P" 4] }
  let (_, a) := a.addChild c (sym .method c!"f")
  let (d, a) := a.addChild file { sym .cls c!"D" with
    dataTypes := [ref c!"D" 5], imports := some [⟨.one [ident c!"T" 6], none⟩] }
  let (_, a) := a.addChild d (sym .method c!"f")
  let (_, a) := a.addChild file { sym .cls c!"E" with
    dataTypes := [ref c!"E" 7], inheritsFrom := some [ref c!"P" 8], imports := some [⟨.one [ident c!"T" 9], none⟩] }
  let (f, a) := a.addChild file { sym .cls c!"F" with dataTypes := [ref c!"F" 10] }
  let (_, a) := a.addChild f (sym .method c!"f")
  a

private def resolver : Resolver :=
  .new [(c!"p", ⟨1, 0⟩), (c!"t", ⟨3, 0⟩), (c!"c", ⟨6, 0⟩), (c!"d", ⟨8, 0⟩), (c!"e", ⟨10, 0⟩), (c!"f", ⟨11, 0⟩)] ⟨0, 0⟩

/-- The symbol that a member name means in a class. -/
private def member (cls : NodeId) (k : Text) : Option NodeId :=
  match allSymbols Unicode.ascii .id arena 9 resolver cls with
  | .ok p => (Dict.get? p.1 k).map (·.symbol)
  | _ => none

/-- The symbol with this name and the class (or trait) it is declared in. -/
private def methodOf (n : NodeId) : Option (Text × Text) := do
  let s ← arena.get? n
  let p ← arena.parent? n
  let c ← arena.get? (← p)
  pure (c.name, s.name)

/-- In a class on its own a name means the declared member; inherited members and members of traits are found. -/
example : (member ⟨11, 0⟩ c!"f").bind methodOf = some (c!"F", c!"f") ∧ (member ⟨8, 0⟩ c!"g").bind methodOf = some (c!"T", c!"g") ∧
    (member ⟨10, 0⟩ c!"g").bind methodOf = some (c!"T", c!"g") ∧ member ⟨11, 0⟩ c!"g" = none := by
  decide +kernel

/-- C29 fails: a method that overrides an inherited one (`C::f`, `P::f`) or one of a trait (`D::f`, `T::f`) is not found, but the
one it overrides; and the method of a trait does not win over the inherited one (`E`). -/
theorem C29_fails : (member ⟨6, 0⟩ c!"f").bind methodOf = some (c!"P", c!"f") ∧
    (member ⟨8, 0⟩ c!"f").bind methodOf = some (c!"T", c!"f") ∧
    (member ⟨10, 0⟩ c!"f").bind methodOf = some (c!"P", c!"f") ∧
    (arena.children? ⟨6, 0⟩).map (·.map (·.2.name)) = some [c!"f"] ∧ (arena.children? ⟨8, 0⟩).map (·.map (·.2.name)) = some [c!"f"] := by
  decide +kernel

end Examples

end PhpLs.Resolver
