import Verif.ResolverTarget
import Verif.Runs

/-!
# The rules for conflicting members of traits: C31

`applyRules` is the model of the part of `Symbol::get_imports` behind the collection of the members of all traits.  In the
theorems `ans` says which trait each name in the rules stands for.
-/

namespace PhpLs.Resolver

open Out

/-- The names in a rule. -/
def namesIn : TraitUseAlteration → List TypeRef
  | .asRule _ c _ _ => c.toList
  | .insteadOf c _ l => c :: l

/-- The names in the rules stand for what `ans` says: in all states that meet `I`, which each question keeps. -/
def Stands (U : Unicode) (a : Arena Symbol) (fuel : Nat) (ctx : NodeId) (I : Resolver → Prop) (ans : TypeRef → Option NodeId)
    (rules : List TraitUseAlteration) : Prop :=
  ∀ rule ∈ rules, ∀ t ∈ namesIn rule, ∀ r, I r → ∃ r', resolveTypeRef U a fuel r t ctx false = .ok (ans t, r') ∧ I r'

/-- The member `x`, whose name in lower case is `k`, is excluded by a rule `w::k insteadof ..., x's trait, ...`. -/
def Excluded (U : Unicode) (ans : TypeRef → Option NodeId) (rules : List TraitUseAlteration) (k : Text) (x : SymbolAlias) : Prop :=
  ∃ c m l w, TraitUseAlteration.insteadOf c m l ∈ rules ∧ U.lower m = k ∧ ans c = some w ∧ x.origin ≠ w ∧
    ∃ t ∈ l, ans t = some x.origin

/-- The name (in lower case) that an `as` rule is about. -/
def writes (U : Unicode) : TraitUseAlteration → Option Text
  | .insteadOf .. => none
  | .asRule _ _ m none => some (U.lower m)
  | .asRule _ _ _ (some k) => k.label.map U.lower

variable {U : Unicode} {a : Arena Symbol} {fuel : Nat} {ctx : NodeId} {I : Resolver → Prop} {ans : TypeRef → Option NodeId}

private theorem resolveAll_eq {ts : List TypeRef}
    (h : ∀ t ∈ ts, ∀ r, I r → ∃ r', resolveTypeRef U a fuel r t ctx false = .ok (ans t, r') ∧ I r') :
    ∀ (l0 : List NodeId) (r : Resolver), I r → ∃ r', (ts.foldlM (init := (l0, r)) fun acc t => do
      let p ← resolveTypeRef U a fuel acc.2 t ctx false
      .ok (acc.1 ++ p.1.toList, p.2)) = Out.ok (l0 ++ ts.filterMap ans, r') ∧ I r' := by
  induction ts with
  | nil => intro l0 r hr; exact ⟨r, by simp, hr⟩
  | cons t ts ih =>
    intro l0 r hr
    obtain ⟨r1, h1, hr1⟩ := h t List.mem_cons_self r hr
    obtain ⟨r2, h2, hr2⟩ := ih (fun t ht => h t (List.mem_cons_of_mem _ ht)) (l0 ++ (ans t).toList) r1 hr1
    refine ⟨r2, ?_, hr2⟩
    rw [List.foldlM_cons, h1]
    simp only [Out.bind_ok]
    rw [h2]
    cases h : ans t <;> simp [h]

private theorem filter_all {α : Type} (l : List α) : l.filter (fun _ => true) = l := List.filter_eq_self.2 fun _ _ => rfl

/-- The effect of one `insteadof` rule. -/
private theorem insteadOf_eq {c : TypeRef} {m : Text} {l : List TypeRef}
    (h : ∀ t ∈ c :: l, ∀ r, I r → ∃ r', resolveTypeRef U a fuel r t ctx false = .ok (ans t, r') ∧ I r')
    (acc : Dict Text (List SymbolAlias) × Resolver) (hr : I acc.2) :
    ∃ acc', insteadOf U a fuel ctx acc c m l = .ok acc' ∧ I acc'.2 ∧ ∀ k, Dict.get? acc'.1 k = (Dict.get? acc.1 k).map fun xs =>
      xs.filter fun x => !(decide (U.lower m = k) && match ans c with
        | none => false
        | some w => !(x.origin = w || !(l.filterMap ans).contains x.origin)) := by
  obtain ⟨r1, h1, hr1⟩ := resolveAll_eq (fun t ht => h t (List.mem_cons_of_mem _ ht)) [] acc.2 hr
  obtain ⟨r2, h2, hr2⟩ := h c List.mem_cons_self r1 hr1
  have h1' : resolveAll U a fuel acc.2 ctx l = .ok (l.filterMap ans, r1) := by
    unfold resolveAll
    simpa using h1
  unfold insteadOf
  rw [h1']
  simp only [Out.bind_ok, h2]
  cases hw : ans c with
  | none =>
    refine ⟨_, rfl, hr2, fun k => ?_⟩
    cases Dict.get? acc.1 k <;> simp [filter_all]
  | some w =>
    simp only
    cases hg : Dict.get? acc.1 (U.lower m) with
    | none =>
      refine ⟨_, rfl, hr2, fun k => ?_⟩
      by_cases hk : U.lower m = k
      · subst hk; simp [hg]
      · cases Dict.get? acc.1 k <;> simp [hk, filter_all]
    | some xs =>
      refine ⟨_, rfl, hr2, fun k => ?_⟩
      simp only [Dict.get?_insert]
      by_cases hk : U.lower m = k
      · subst hk
        simp [hg]
      · cases Dict.get? acc.1 k <;> simp [hk, filter_all]

/-- Is the member left by the rules? -/
private theorem insteadOfs_eq : ∀ (rules : List TraitUseAlteration) (_ : Stands U a fuel ctx I ans rules)
    (acc : Dict Text (List SymbolAlias) × Resolver), I acc.2 →
    ∃ (acc' : Dict Text (List SymbolAlias) × Resolver) (P : Text → SymbolAlias → Bool), insteadOfs U a fuel ctx rules acc = .ok acc' ∧ I acc'.2 ∧ (∀ k x, P k x = true ↔ ¬ Excluded U ans rules k x) ∧
      ∀ k, Dict.get? acc'.1 k = (Dict.get? acc.1 k).map fun xs => xs.filter (P k)
  | [], _, acc, hr => ⟨acc, fun _ _ => true, rfl, hr, fun k x => by simp [Excluded], fun k => by cases Dict.get? acc.1 k <;> simp [filter_all]⟩
  | .asRule v c m l :: rules, hs, acc, hr => by
    obtain ⟨acc', P, h1, h2, h3, h4⟩ := insteadOfs_eq rules (fun x hx => hs x (List.mem_cons_of_mem _ hx)) acc hr
    refine ⟨acc', P, by simpa [insteadOfs] using h1, h2, ?_, h4⟩
    intro k x
    rw [h3]
    simp [Excluded]
  | .insteadOf c m l :: rules, hs, acc, hr => by
    obtain ⟨acc1, g1, g2, g3⟩ := insteadOf_eq (m := m) (hs _ List.mem_cons_self) acc hr
    obtain ⟨acc', P, h1, h2, h3, h4⟩ := insteadOfs_eq rules (fun x hx => hs x (List.mem_cons_of_mem _ hx)) acc1 g2
    refine ⟨acc', fun k x => !(decide (U.lower m = k) && match ans c with
        | none => false
        | some w => !(x.origin = w || !(l.filterMap ans).contains x.origin)) && P k x, ?_, h2, ?_, ?_⟩
    · unfold insteadOfs
      rw [g1]
      simpa using h1
    · intro k x
      rw [Bool.and_eq_true, h3]
      have hone : (!(decide (U.lower m = k) && match ans c with
        | none => false
        | some w => !(x.origin = w || !(l.filterMap ans).contains x.origin))) = true ↔
          ¬ (U.lower m = k ∧ ∃ w, ans c = some w ∧ x.origin ≠ w ∧ ∃ t ∈ l, ans t = some x.origin) := by
        cases hw : ans c with
        | none => simp
        | some w =>
          simp only [Bool.not_eq_true', Bool.and_eq_false_iff, decide_eq_false_iff_not, Option.some.injEq, Bool.not_eq_false',
            Bool.or_eq_true, decide_eq_true_eq, List.contains_eq_mem, List.mem_filterMap]
          constructor
          · rintro h ⟨rfl, w', rfl, e1, t, ht, e2⟩
            rcases h with h | h | h
            · exact h rfl
            · exact e1 h
            · exact h ⟨t, ht, e2⟩
          · intro h
            by_cases e0 : U.lower m = k
            · by_cases e1 : x.origin = w
              · exact .inr (.inl e1)
              · exact .inr (.inr fun ⟨t, ht, e2⟩ => h ⟨e0, w, rfl, e1, t, ht, e2⟩)
            · exact .inl e0
      rw [hone]
      constructor
      · rintro ⟨n1, n2⟩ ⟨c', m', l', w, hm, e1, e2, e3, e4⟩
        rcases List.mem_cons.1 hm with hm | hm
        · cases hm
          exact n1 ⟨e1, w, e2, e3, e4⟩
        · exact n2 ⟨c', m', l', w, hm, e1, e2, e3, e4⟩
      · intro n
        refine ⟨?_, ?_⟩
        · rintro ⟨e1, w, e2, e3, e4⟩
          exact n ⟨c, m, l, w, List.mem_cons_self, e1, e2, e3, e4⟩
        · rintro ⟨c', m', l', w, hm, e⟩
          exact n ⟨c', m', l', w, List.mem_cons_of_mem _ hm, e⟩
    · intro k
      rw [h4 k, g3 k]
      cases Dict.get? acc.1 k with
      | none => rfl
      | some xs =>
        simp only [Option.map_some, List.filter_filter, Option.some.injEq]
        congr 1
        funext x
        rw [Bool.and_comm]

private theorem get?_firsts : ∀ {d : Dict Text (List SymbolAlias)} {m : Members}, firsts d = some m →
    ∀ k, Dict.get? m k = (Dict.get? d k).bind List.head?
  | [], m, h => by
    simp only [firsts, Option.some.injEq] at h
    subst h
    intro k
    rfl
  | (k0, l) :: d, m, h => by
    simp only [firsts, Option.bind_eq_bind, Option.bind_eq_some_iff, Option.pure_def, Option.some.injEq] at h
    obtain ⟨x, hx, m', hm, rfl⟩ := h
    intro k
    simp only [Dict.get?]
    split
    · simp [hx]
    · exact get?_firsts hm k

private theorem firsts_none : ∀ {d : Dict Text (List SymbolAlias)}, firsts d = none ↔ ∃ k, (k, []) ∈ d
  | [] => by simp [firsts]
  | (k0, l) :: d => by
    cases l with
    | nil =>
      simp only [firsts, List.head?_nil, Option.bind_eq_bind, Option.bind_none, true_iff]
      exact ⟨k0, List.mem_cons_self⟩
    | cons x l =>
      cases h : firsts d with
      | none =>
        obtain ⟨k, hk⟩ := firsts_none.1 h
        simp only [firsts, List.head?_cons, Option.bind_eq_bind, Option.bind_some, h, Option.bind_none, true_iff]
        exact ⟨k, List.mem_cons_of_mem _ hk⟩
      | some m =>
        simp only [firsts, List.head?_cons, Option.bind_eq_bind, Option.bind_some, h, Option.pure_def, reduceCtorEq, false_iff,
          not_exists, List.mem_cons, Prod.mk.injEq, List.nil_eq, reduceCtorEq, and_false, false_or]
        intro k hk
        have := firsts_none.2 ⟨k, hk⟩
        rw [h] at this
        cases this

private theorem firsts_keys : ∀ {d : Dict Text (List SymbolAlias)} {m : Members}, firsts d = some m → m.map (·.1) = d.map (·.1)
  | [], m, h => by
    simp only [firsts, Option.some.injEq] at h
    subst h
    rfl
  | (k0, l) :: d, m, h => by
    simp only [firsts, Option.bind_eq_bind, Option.bind_eq_some_iff, Option.pure_def, Option.some.injEq] at h
    obtain ⟨x, hx, m', hm, rfl⟩ := h
    simp [firsts_keys hm]

/-- The entry that an `as` rule adds or changes, if it does. -/
private theorem asRule_eq {orig : Dict Text (List SymbolAlias)} {v : Option Token} {c : Option TypeRef} {m : Text} {l : Option Token}
    (h : ∀ t ∈ c.toList, ∀ r, I r → ∃ r', resolveTypeRef U a fuel r t ctx false = .ok (ans t, r') ∧ I r')
    (acc : Members × Resolver) (hr : I acc.2) :
    ∃ acc', asRule U a fuel ctx orig acc v c m l = .ok acc' ∧ I acc'.2 ∧
      (acc'.1 = acc.1 ∨ ∃ k e, writes U (.asRule v c m l) = some k ∧ acc'.1 = Dict.insert acc.1 k e) := by
  unfold asRule
  cases l with
  | none =>
    simp only
    cases Dict.get? acc.1 (U.lower m) with
    | none => exact ⟨_, rfl, hr, .inl rfl⟩
    | some o => exact ⟨_, rfl, hr, .inr ⟨_, _, rfl, rfl⟩⟩
  | some k =>
    simp only
    cases hl : k.label with
    | none => exact ⟨_, rfl, hr, .inl rfl⟩
    | some label =>
      have hw : ∀ c, writes U (.asRule v c m (some k)) = some (U.lower label) := fun c => by simp [writes, hl]
      simp only
      cases c with
      | none =>
        simp only
        cases Dict.get? acc.1 (U.lower m) with
        | none => exact ⟨_, rfl, hr, .inl rfl⟩
        | some o => exact ⟨_, rfl, hr, .inr ⟨_, _, hw _, rfl⟩⟩
      | some c =>
        obtain ⟨r1, h1, hr1⟩ := h c (by simp) acc.2 hr
        simp only [h1, Out.bind_ok]
        cases ans c with
        | none => exact ⟨_, rfl, hr1, .inl rfl⟩
        | some n =>
          simp only
          split
          · exact ⟨_, rfl, hr1, .inl rfl⟩
          · exact ⟨_, rfl, hr1, .inr ⟨_, _, hw _, rfl⟩⟩

private theorem asRules_ok {orig : Dict Text (List SymbolAlias)} : ∀ (rules : List TraitUseAlteration)
    (_ : Stands U a fuel ctx I ans rules) (acc : Members × Resolver), I acc.2 → Dict.Ok acc.1 →
    ∃ acc', asRules U a fuel ctx orig rules acc = .ok acc' ∧ I acc'.2 ∧ Dict.Ok acc'.1 ∧
      ∀ k, (∀ rule ∈ rules, writes U rule ≠ some k) → Dict.get? acc'.1 k = Dict.get? acc.1 k
  | [], _, acc, hr, ho => ⟨acc, rfl, hr, ho, fun _ _ => rfl⟩
  | .insteadOf c m l :: rules, hs, acc, hr, ho => by
    obtain ⟨acc', h1, h2, h3, h4⟩ := asRules_ok (orig := orig) rules (fun x hx => hs x (List.mem_cons_of_mem _ hx)) acc hr ho
    exact ⟨acc', by simpa [asRules] using h1, h2, h3, fun k hk => h4 k fun x hx => hk x (List.mem_cons_of_mem _ hx)⟩
  | .asRule v c m l :: rules, hs, acc, hr, ho => by
    obtain ⟨acc1, g1, g2, g3⟩ := asRule_eq (orig := orig) (v := v) (m := m) (l := l) (hs _ List.mem_cons_self) acc hr
    have ho1 : Dict.Ok acc1.1 := by
      rcases g3 with e | ⟨k, x, _, e⟩ <;> rw [e]
      · exact ho
      · exact Dict.ok_insert ho _ _
    obtain ⟨acc', h1, h2, h3, h4⟩ := asRules_ok (orig := orig) rules (fun x hx => hs x (List.mem_cons_of_mem _ hx)) acc1 g2 ho1
    refine ⟨acc', ?_, h2, h3, ?_⟩
    · unfold asRules
      rw [g1]
      simpa using h1
    · intro k hk
      rw [h4 k fun x hx => hk x (List.mem_cons_of_mem _ hx)]
      rcases g3 with e | ⟨k', x, hw, e⟩ <;> rw [e]
      rw [Dict.get?_insert, if_neg]
      rintro rfl
      exact hk _ List.mem_cons_self hw

private theorem ok_insteadOfs : ∀ (rules : List TraitUseAlteration) (acc : Dict Text (List SymbolAlias) × Resolver),
    Dict.Ok acc.1 → OkThat (fun p => Dict.Ok p.1) (insteadOfs U a fuel ctx rules acc)
  | [], acc, h => OkThat.ok h
  | .asRule .. :: rules, acc, h => ok_insteadOfs rules acc h
  | .insteadOf c m l :: rules, acc, h => by
    have hone : OkThat (fun p => Dict.Ok p.1) (insteadOf U a fuel ctx acc c m l) := by
      unfold insteadOf
      refine (OkThat.any _).bind fun p _ => (OkThat.any _).bind fun q _ => ?_
      split
      · exact OkThat.ok h
      · split
        · exact OkThat.ok h
        · exact OkThat.ok (Dict.ok_insert h _ _)
    exact hone.bind fun p hp => ok_insteadOfs rules p hp

private theorem firsts_empty_iff {d : Dict Text (List SymbolAlias)} (hd : Dict.Ok d) :
    firsts d = none ↔ ∃ k, Dict.get? d k = some [] := by
  rw [firsts_none]
  exact ⟨fun ⟨k, hk⟩ => ⟨k, Dict.mem_get? hd hk⟩, fun ⟨k, hk⟩ => ⟨k, Dict.get?_mem hk⟩⟩

section

variable {rules : List TraitUseAlteration} {all : Dict Text (List SymbolAlias)} {r : Resolver}

/-- C31.  The rules crash exactly if all members of some name are excluded by `insteadof` rules: then `unwrap` is applied to the
first of none.  They always end. -/
theorem C31_crash_iff (hs : Stands U a fuel ctx I ans rules) (hr : I r) (ho : Dict.Ok all) :
    (applyRules U a fuel ctx rules (all, r) = .panic ↔ ∃ k l, Dict.get? all k = some l ∧ ∀ x ∈ l, Excluded U ans rules k x) ∧
      applyRules U a fuel ctx rules (all, r) ≠ .deep := by
  obtain ⟨acc, P, h1, h2, h3, h4⟩ := insteadOfs_eq rules hs (all, r) hr
  have ho' : Dict.Ok acc.1 := ok_insteadOfs rules (all, r) ho acc h1
  have hiff : firsts acc.1 = none ↔ ∃ k l, Dict.get? all k = some l ∧ ∀ x ∈ l, Excluded U ans rules k x := by
    rw [firsts_empty_iff ho']
    constructor
    · rintro ⟨k, hk⟩
      rw [h4 k] at hk
      simp only [Option.map_eq_some_iff, List.filter_eq_nil_iff] at hk
      obtain ⟨l, hl, hx⟩ := hk
      refine ⟨k, l, hl, fun x hxl => ?_⟩
      have := hx x hxl
      rw [h3] at this
      exact Classical.not_not.1 this
    · rintro ⟨k, l, hl, hx⟩
      refine ⟨k, ?_⟩
      rw [h4 k, hl]
      simp only [Option.map_some, Option.some.injEq, List.filter_eq_nil_iff]
      intro x hxl
      rw [h3]
      exact fun n => n (hx x hxl)
  rw [← hiff]
  unfold applyRules
  rw [h1]
  simp only [Out.bind_ok]
  cases hf : firsts acc.1 with
  | none => simp
  | some m =>
    have hm : Dict.Ok m := by
      unfold Dict.Ok
      rw [firsts_keys hf]
      exact ho'
    obtain ⟨z, hz, _⟩ := asRules_ok (orig := all) rules hs (m, acc.2) h2 hm
    simp [hz]

/-- C31.  The rules give each name at most one entry, and each name that no `as` rule is about means the first of its members
that the `insteadof` rules do not exclude. -/
theorem C31_select {m : Members} {r' : Resolver} (hs : Stands U a fuel ctx I ans rules) (hr : I r) (ho : Dict.Ok all)
    (h : applyRules U a fuel ctx rules (all, r) = .ok (m, r')) :
    Dict.Ok m ∧ ∀ k, (∀ rule ∈ rules, writes U rule ≠ some k) →
      (∀ e, Dict.get? m k = some e ↔ ∃ before after, Dict.get? all k = some (before ++ e :: after) ∧
        ¬ Excluded U ans rules k e ∧ ∀ x ∈ before, Excluded U ans rules k x) ∧
      (Dict.get? m k = none ↔ Dict.get? all k = none) := by
  obtain ⟨acc, P, h1, h2, h3, h4⟩ := insteadOfs_eq rules hs (all, r) hr
  have ho' : Dict.Ok acc.1 := ok_insteadOfs rules (all, r) ho acc h1
  unfold applyRules at h
  rw [h1] at h
  simp only [Out.bind_ok] at h
  cases hf : firsts acc.1 with
  | none => simp [hf] at h
  | some m0 =>
    have hm : Dict.Ok m0 := by
      unfold Dict.Ok
      rw [firsts_keys hf]
      exact ho'
    obtain ⟨z, hz, _, hz2, hz3⟩ := asRules_ok (orig := all) rules hs (m0, acc.2) h2 hm
    simp only [hf, Out.ofOption_some, Out.bind_ok, hz, Out.ok.injEq] at h
    subst h
    refine ⟨hz2, fun k hk => ?_⟩
    have hget : Dict.get? m k = (Dict.get? all k).bind fun l => l.find? (P k) := by
      rw [hz3 k hk, get?_firsts hf k, h4 k]
      cases Dict.get? all k with
      | none => rfl
      | some l => simp [List.head?_filter]
    constructor
    · intro e
      rw [hget]
      constructor
      · intro he
        obtain ⟨l, hl, he⟩ := Option.bind_eq_some_iff.1 he
        obtain ⟨hp, as, bs, rfl, hn⟩ := List.find?_eq_some_iff_append.1 he
        refine ⟨as, bs, hl, (h3 k e).1 hp, fun x hx => ?_⟩
        have := hn x hx
        simp only [Bool.not_eq_true'] at this
        exact Classical.not_not.1 fun n => by rw [(h3 k x).2 n] at this; cases this
      · rintro ⟨as, bs, hl, hn, hx⟩
        rw [hl, Option.bind_some, List.find?_eq_some_iff_append]
        refine ⟨(h3 k e).2 hn, as, bs, rfl, fun x hxa => ?_⟩
        simp only [Bool.not_eq_true']
        cases hp : P k x with
        | false => rfl
        | true => exact absurd (hx x hxa) ((h3 k x).1 hp)
    · rw [hget]
      constructor
      · intro hn
        cases hl : Dict.get? all k with
        | none => rfl
        | some l =>
          exfalso
          rw [hl, Option.bind_some, List.find?_eq_none] at hn
          have : Dict.get? acc.1 k = some [] := by
            rw [h4 k, hl]
            simp only [Option.map_some, Option.some.injEq, List.filter_eq_nil_iff]
            exact hn
          have := (firsts_empty_iff ho').2 ⟨k, this⟩
          rw [hf] at this
          cases this
      · intro hn
        rw [hn]
        rfl

private theorem asRules_append {orig : Dict Text (List SymbolAlias)} : ∀ (l l' : List TraitUseAlteration) (acc : Members × Resolver),
    asRules U a fuel ctx orig (l ++ l') acc = (asRules U a fuel ctx orig l acc >>= asRules U a fuel ctx orig l')
  | [], _, _ => rfl
  | .insteadOf .. :: l, l', acc => asRules_append l l' acc
  | .asRule v c m k :: l, l', acc => by
    simp only [List.cons_append, asRules]
    cases asRule U a fuel ctx orig acc v c m k with
    | ok p => simpa using asRules_append l l' p
    | panic => rfl
    | deep => rfl

/-- What the visibility of an entry is after a rule. -/
def visibilityBy (v : Option Token) (old : Visibility) : Visibility :=
  match Visibility.ofToken v with
  | .none => old
  | new => new

private theorem withVisibility_eq (e : SymbolAlias) (v : Option Token) :
    withVisibility e (Visibility.ofToken v) = { e with visibility := visibilityBy v e.visibility } := by
  unfold withVisibility visibilityBy
  cases Visibility.ofToken v <;> rfl

/-- The first member of a name that the `insteadof` rules do not exclude. -/
def Selected (U : Unicode) (ans : TypeRef → Option NodeId) (rules : List TraitUseAlteration) (all : Dict Text (List SymbolAlias))
    (k : Text) (e : SymbolAlias) : Prop :=
  ∃ before after, Dict.get? all k = some (before ++ e :: after) ∧ ¬ Excluded U ans rules k e ∧ ∀ x ∈ before, Excluded U ans rules k x

/-- The rules up to and including an `as` rule, and the rest. -/
private theorem at_rule {v : Option Token} {c : Option TypeRef} {m : Text} {l : Option Token} {pre post : List TraitUseAlteration}
    {mm : Members} {r' : Resolver} (hs : Stands U a fuel ctx I ans (pre ++ .asRule v c m l :: post)) (hr : I r) (ho : Dict.Ok all)
    (h : applyRules U a fuel ctx (pre ++ .asRule v c m l :: post) (all, r) = .ok (mm, r')) :
    ∃ acc acc' : Members × Resolver, I acc.2 ∧ asRule U a fuel ctx all acc v c m l = .ok acc' ∧
      (∀ k e, (∀ rule ∈ pre, writes U rule ≠ some k) → Selected U ans (pre ++ .asRule v c m l :: post) all k e →
        Dict.get? acc.1 k = some e) ∧
      ∀ k, (∀ rule ∈ post, writes U rule ≠ some k) → Dict.get? mm k = Dict.get? acc'.1 k := by
  obtain ⟨acc, P, h1, h2, h3, h4⟩ := insteadOfs_eq _ hs (all, r) hr
  have ho' : Dict.Ok acc.1 := ok_insteadOfs _ (all, r) ho acc h1
  unfold applyRules at h
  rw [h1] at h
  simp only [Out.bind_ok] at h
  cases hf : firsts acc.1 with
  | none => simp [hf] at h
  | some m0 =>
    have hm : Dict.Ok m0 := by
      unfold Dict.Ok
      rw [firsts_keys hf]
      exact ho'
    simp only [hf, Out.ofOption_some, Out.bind_ok] at h
    rw [asRules_append] at h
    obtain ⟨x, hx, hx1, hx2, hx3⟩ := asRules_ok (orig := all) pre (fun y hy => hs y (List.mem_append_left _ hy)) (m0, acc.2) h2 hm
    rw [hx] at h
    simp only [Out.bind_ok, asRules] at h
    obtain ⟨y, hy, h⟩ := Out.bind_eq_ok h
    obtain ⟨y', hy', hy1, hy2⟩ := asRule_eq (orig := all) (v := v) (m := m) (l := l)
      (hs _ (List.mem_append_right _ List.mem_cons_self)) x hx1
    rw [hy] at hy'
    injection hy' with hy'
    subst hy'
    have hyo : Dict.Ok y.1 := by
      rcases hy2 with e | ⟨_, _, _, e⟩ <;> rw [e]
      · exact hx2
      · exact Dict.ok_insert hx2 _ _
    obtain ⟨z, hz, _, _, hz3⟩ := asRules_ok (orig := all) post
      (fun w hw => hs w (List.mem_append_right _ (List.mem_cons_of_mem _ hw))) y hy1 hyo
    rw [hz] at h
    injection h with h
    subst h
    refine ⟨x, y, hx1, hy, ?_, hz3⟩
    rintro k e hk ⟨as, bs, hl, hn, hxs⟩
    rw [hx3 k hk, get?_firsts hf k, h4 k, hl]
    simp only [Option.map_some, Option.bind_some, List.head?_filter]
    rw [List.find?_eq_some_iff_append]
    refine ⟨(h3 k e).2 hn, as, bs, rfl, fun w hw => ?_⟩
    simp only [Bool.not_eq_true']
    cases hp : P k w with
    | false => rfl
    | true => exact absurd (hxs w hw) ((h3 k w).1 hp)

/-- C31.  A rule `T::m as [visibility] label` adds the entry `label` for the member `m` of the trait `T`, also if `insteadof` rules
exclude it there. -/
theorem C31_alias_of {v : Option Token} {c : TypeRef} {m label : Text} {l : Token} {pre post : List TraitUseAlteration}
    {mm : Members} {r' : Resolver} (hs : Stands U a fuel ctx I ans (pre ++ .asRule v (some c) m (some l) :: post)) (hr : I r)
    (ho : Dict.Ok all) (h : applyRules U a fuel ctx (pre ++ .asRule v (some c) m (some l) :: post) (all, r) = .ok (mm, r'))
    (hl : l.label = some label) (hpost : ∀ rule ∈ post, writes U rule ≠ some (U.lower label)) {t : NodeId} (hc : ans c = some t)
    {before after : List SymbolAlias} {o : SymbolAlias} (ha : Dict.get? all (U.lower m) = some (before ++ o :: after))
    (hot : o.origin = t) (hb : ∀ x ∈ before, x.origin ≠ t) :
    Dict.get? mm (U.lower label) = some { o with «alias» := label, visibility := visibilityBy v o.visibility } := by
  obtain ⟨acc, acc', hi, hrule, _, hrest⟩ := at_rule hs hr ho h
  rw [hrest _ hpost]
  obtain ⟨r1, h1, _⟩ := hs _ (List.mem_append_right _ List.mem_cons_self) c (by simp [namesIn]) acc.2 hi
  unfold asRule at hrule
  have hfind : ((Dict.get? all (U.lower m)).getD []).find? (fun o => o.origin = t) = some o := by
    rw [ha, Option.getD_some, List.find?_eq_some_iff_append]
    exact ⟨by simpa using hot, before, after, rfl, by simpa using hb⟩
  simp only [hl, h1, Out.bind_ok, hc, hfind, Out.ok.injEq] at hrule
  subst hrule
  rw [Dict.get?_insert, if_pos rfl, withVisibility_eq]
  rfl

/-- C31.  A rule `m as [visibility] label` adds the entry `label` for the member that `m` means, if no earlier rule changes it. -/
theorem C31_alias {v : Option Token} {m label : Text} {l : Token} {pre post : List TraitUseAlteration}
    {mm : Members} {r' : Resolver} (hs : Stands U a fuel ctx I ans (pre ++ .asRule v none m (some l) :: post)) (hr : I r)
    (ho : Dict.Ok all) (h : applyRules U a fuel ctx (pre ++ .asRule v none m (some l) :: post) (all, r) = .ok (mm, r'))
    (hl : l.label = some label) (hpre : ∀ rule ∈ pre, writes U rule ≠ some (U.lower m))
    (hpost : ∀ rule ∈ post, writes U rule ≠ some (U.lower label)) {o : SymbolAlias}
    (hsel : Selected U ans (pre ++ .asRule v none m (some l) :: post) all (U.lower m) o) :
    Dict.get? mm (U.lower label) = some { o with «alias» := label, visibility := visibilityBy v o.visibility } := by
  obtain ⟨acc, acc', hi, hrule, hfirst, hrest⟩ := at_rule hs hr ho h
  rw [hrest _ hpost]
  unfold asRule at hrule
  simp only [hl, hfirst _ o hpre hsel, Out.ok.injEq] at hrule
  subst hrule
  rw [Dict.get?_insert, if_pos rfl, withVisibility_eq]
  rfl

/-- C31.  A rule `m as visibility` changes the visibility of the member that `m` means and nothing else of it, if no other rule
changes it. -/
theorem C31_visibility {v : Option Token} {c : Option TypeRef} {m : Text} {pre post : List TraitUseAlteration}
    {mm : Members} {r' : Resolver} (hs : Stands U a fuel ctx I ans (pre ++ .asRule v c m none :: post)) (hr : I r)
    (ho : Dict.Ok all) (h : applyRules U a fuel ctx (pre ++ .asRule v c m none :: post) (all, r) = .ok (mm, r'))
    (hpre : ∀ rule ∈ pre, writes U rule ≠ some (U.lower m)) (hpost : ∀ rule ∈ post, writes U rule ≠ some (U.lower m))
    {o : SymbolAlias} (hsel : Selected U ans (pre ++ .asRule v c m none :: post) all (U.lower m) o) :
    Dict.get? mm (U.lower m) = some { o with visibility := visibilityBy v o.visibility } := by
  obtain ⟨acc, acc', hi, hrule, hfirst, hrest⟩ := at_rule hs hr ho h
  rw [hrest _ hpost]
  unfold asRule at hrule
  simp only [hfirst _ o hpre hsel, Out.ok.injEq] at hrule
  subst hrule
  rw [Dict.get?_insert, if_pos rfl, withVisibility_eq]

end

/-! ### The rules that are collected -/

/-- A name of one part, as it is written in rules. -/
def OneName (k : Token) (m : Text) : Prop := k.t = .identifier ∧ k.label = some m

/-- The node stands for the rule: the class, the member, the visibility and the alias of `class::member as visibility alias`,
and the class, the member and the excluded classes of `class::member insteadof classes`. -/
inductive WritesRule : Node → TraitUseAlteration → Prop
  | as (cls : Option TypeRef) (paa : Option Token) (k as : Token) (m : Text) (visibility asName : Option Token) : OneName k m →
    WritesRule (.useTraitAs (cls.map Node.typeRef) paa (.typeRef ⟨[k], false⟩) as visibility asName) (.asRule visibility cls m asName)
  | insteadOf (cls : TypeRef) (paa : Option Token) (k io : Token) (m : Text) (l : List TypeRef) : OneName k m →
    WritesRule (.useTraitInsteadOf (some (.typeRef cls)) paa (.typeRef ⟨[k], false⟩) io (l.map Node.typeRef)) (.insteadOf cls m l)

/-- The nodes stand for the rules, one by one. -/
inductive WriteRules : List Node → List TraitUseAlteration → Prop
  | nil : WriteRules [] []
  | cons {n : Node} {a : TraitUseAlteration} {ns : List Node} {as : List TraitUseAlteration} :
    WritesRule n a → WriteRules ns as → WriteRules (n :: ns) (a :: as)

/-- The traits of a `use` statement, each without rules or as a group with rules, stand for the rules. -/
inductive StatementRules : List Node → List TraitUseAlteration → Prop
  | nil : StatementRules [] []
  | plain (t : Node) {us : List Node} {as : List TraitUseAlteration} : StatementRules us as → StatementRules (.useTrait t :: us) as
  | block (ts : List Node) (oc cc : Token) {ns us : List Node} {bs as : List TraitUseAlteration} :
    WriteRules ns bs → StatementRules us as → StatementRules (.useTraitAlterationBlock ts oc ns cc :: us) (bs ++ as)

private theorem oneName_name {k : Token} {m : Text} (h : OneName k m) : (Node.typeRef ⟨[k], false⟩).name = some m := by
  obtain ⟨c, l, t, lb, o⟩ := k
  obtain ⟨rfl, rfl⟩ := h
  change TypeRef.displayAll [_] = _
  rw [TypeRef.displayAll, TypeRef.displayAll]
  change some (m ++ []) = some m
  rw [List.append_nil]

private theorem typeRefsOf_map (l : List TypeRef) : typeRefsOf (l.map Node.typeRef) = some l := by
  induction l with
  | nil => rfl
  | cons t l ih => rw [List.map_cons, typeRefsOf, ih]; rfl

private theorem writeRules_collected {ns : List Node} {as : List TraitUseAlteration} (h : WriteRules ns as) :
    alterationsOf ns = some as := by
  induction h with
  | nil => rfl
  | cons h1 _ ih =>
    cases h1 with
    | as cls paa k as m v a hk =>
      rw [alterationsOf, oneName_name hk, ih]
      cases cls <;> rfl
    | insteadOf cls paa k io m l hk =>
      rw [alterationsOf]
      simp only [classOf, typeRefsOf_map, oneName_name hk, ih]
      rfl

/-- **C31.** The rules that are collected from a `use` statement are the rules as they are written, in this order. -/
theorem C31_collected {us : List Node} {as : List TraitUseAlteration} (h : StatementRules us as) (k : Token) :
    collectAlterations (.useTraitStatement k us) = some as := by
  rw [collectAlterations]
  induction h with
  | nil => rfl
  | plain t _ ih => rw [collectAlterationsL, ih]; rfl
  | block ts oc cc h1 _ ih =>
    rw [collectAlterationsL, ih, collectAlterations, writeRules_collected h1]
    rfl

/-- C31 fails: an `insteadof` rule without a class is dropped silently. -/
theorem C31_dropped (paa : Option Token) (member : Node) (io : Token) (l ns : List Node) :
    alterationsOf (.useTraitInsteadOf none paa member io l :: ns) = alterationsOf ns := rfl

/-! ## Examples -/

section Examples

private def ident (l : Text) (line : Nat) : Token := ⟨0, line, .identifier, some l, none⟩

private def name (l : Text) (line : Nat) : TypeRef := .one [ident l line]

/-- The rules of the class `C`. -/
private def rulesC : List TraitUseAlteration :=
  [.insteadOf (name c!"T" 3) c!"f" [name c!"S" 4],
    .asRule (some ⟨0, 5, .kwProtected, none, none⟩) (some (name c!"S" 6)) c!"f" (some (ident c!"sf" 7)),
    .asRule none none c!"h" (some (ident c!"k" 8)), .asRule (some ⟨0, 9, .kwPrivate, none, none⟩) none c!"g" none]

/-- `trait T { f; g } trait S { f; h } class C { use T, S { T::f insteadof S; S::f as protected sf; h as k; g as private; } }` and
`class D { use T, S { T::h insteadof S; } }`. -/
private def arena : Arena Symbol :=
  let sym := fun kind name => ({ Symbol.default with kind := kind, name := name } : Symbol)
  let a := Arena.empty
  let (file, a) := a.addRoot (sym .file c!"a.php")
  let (t, a) := a.addChild file (sym .trait c!"T")
  let (_, a) := a.addChild t (sym .method c!"f")
  let (_, a) := a.addChild t (sym .method c!"g")
  let (s, a) := a.addChild file (sym .trait c!"S")
  let (_, a) := a.addChild s (sym .method c!"f")
  let (_, a) := a.addChild s (sym .method c!"h")
  let (_, a) := a.addChild file { sym .cls c!"C" with
    imports := some [⟨name c!"T" 1, none⟩, ⟨name c!"S" 2, none⟩],
    importResolutions := some rulesC }
  let (_, a) := a.addChild file { sym .cls c!"D" with
    imports := some [⟨name c!"T" 10, none⟩, ⟨name c!"S" 11, none⟩],
    importResolutions := some [.insteadOf (name c!"T" 12) c!"h" [name c!"S" 13]] }
  a

private def resolver : Resolver := .new [(c!"t", ⟨1, 0⟩), (c!"s", ⟨4, 0⟩), (c!"c", ⟨7, 0⟩), (c!"d", ⟨8, 0⟩)] ⟨0, 0⟩

private def member (k : Text) : Option (NodeId × Text × Visibility) :=
  match allSymbols Unicode.ascii .id arena 9 resolver ⟨7, 0⟩ with
  | .ok p => (Dict.get? p.1 k).map fun e => (e.symbol, e.alias, e.visibility)
  | _ => none

/-- All rules at work: `C` has `T::f`, `S::f` as `sf`, `S::h` under both names, and `T::g` with another visibility. -/
example : member c!"f" = some (⟨2, 0⟩, c!"f", .none) ∧ member c!"sf" = some (⟨5, 0⟩, c!"sf", .protected) ∧
    member c!"h" = some (⟨6, 0⟩, c!"h", .none) ∧ member c!"k" = some (⟨6, 0⟩, c!"k", .none) ∧
    member c!"g" = some (⟨3, 0⟩, c!"g", .private) := by
  decide +kernel

/-- What the names in the rules stand for. -/
private def answers (t : TypeRef) : Option NodeId :=
  (target Unicode.ascii arena resolver.globalScope t ⟨7, 0⟩).getD none

private def namesC : List TypeRef := [name c!"T" 3, name c!"S" 4, name c!"S" 6]

private def atC : Names := fun n t => n = ⟨7, 0⟩ ∧ t ∈ namesC

/-- The hypotheses of the theorems are met by the class `C`. -/
example : Stands Unicode.ascii arena 5 ⟨7, 0⟩ (Honest Unicode.ascii arena resolver.globalScope atC) answers rulesC ∧
    Honest Unicode.ascii arena resolver.globalScope atC resolver ∧ answers (name c!"T" 3) = some ⟨1, 0⟩ ∧
    answers (name c!"S" 4) = some ⟨4, 0⟩ := by
  refine ⟨?_, ⟨rfl, fun n t _ k v _ h => by cases h⟩, by decide +kernel, by decide +kernel⟩
  intro rule hrule t ht r hr
  have hmem : t ∈ namesC := by
    simp only [rulesC, List.mem_cons, List.not_mem_nil, or_false] at hrule
    rcases hrule with rfl | rfl | rfl | rfl <;> simp [namesIn] at ht
    · rcases ht with rfl | rfl <;> decide
    · subst ht; decide
  have hall : ∀ t ∈ namesC, plainRef t = true ∧ (t.isBuiltin || t.isEmpty) = false ∧ keyOf arena t ⟨7, 0⟩ ≠ none ∧
      target Unicode.ascii arena resolver.globalScope t ⟨7, 0⟩ = some (answers t) := by decide +kernel
  obtain ⟨h1, h2, h3, h4⟩ := hall t hmem
  refine resolve_honest ?_ ⟨rfl, hmem⟩ h1 h2 h3 h4 4 false r hr
  have hclear : ∀ t ∈ namesC, ∀ t' ∈ namesC, keyOf arena t ⟨7, 0⟩ = keyOf arena t' ⟨7, 0⟩ → t = t' := by decide +kernel
  rintro n t n' t' ⟨rfl, h⟩ ⟨rfl, h'⟩ e
  rw [hclear t h t' h' e]

/-- C31 fails: the members of `D` cannot be computed, the code panics: the rule excludes the only member of this name. -/
theorem C31_fails : allSymbols Unicode.ascii .id arena 9 resolver ⟨8, 0⟩ = .panic := by
  decide +kernel

/-- The rules of the traits that the first class of a text uses. -/
private def rulesIn (source : Text) : Option (List TraitUseAlteration) :=
  match treeOf source with
  | [.classStatement _ _ _ _ _ _ (.block _ b _) _ _] => collectAlterationsL b
  | _ => none

private def namedAt (l : Text) (col offset : Nat) : Token := ⟨col, 0, .identifier, some l, some offset⟩

/-- The rules of a text, from the parser to the rules that are collected; the last one is dropped. -/
example : rulesIn c!"<?php class C { use A, B { A::f insteadof B; B::f as protected g; h as private; k as j; f insteadof B; } }" =
    some [.insteadOf ⟨[namedAt c!"A" 27 9], false⟩ c!"f" [⟨[namedAt c!"B" 42 13], false⟩],
      .asRule (some ⟨53, 0, .kwProtected, none, some 19⟩) (some ⟨[namedAt c!"B" 45 15], false⟩) c!"f" (some (namedAt c!"g" 63 20)),
      .asRule (some ⟨71, 0, .kwPrivate, none, some 24⟩) none c!"h" none,
      .asRule none none c!"k" (some (namedAt c!"j" 85 28))] := by
  decide +kernel

/-- The hypothesis of `C31_collected` is met by a `use` statement with a plain trait and a group. -/
example : StatementRules [.useTrait (.typeRef ⟨[ident c!"S" 1], false⟩), .useTraitAlterationBlock [] (ident c!"" 2)
      [.useTraitInsteadOf (some (.typeRef ⟨[ident c!"A" 3], false⟩)) none (.typeRef ⟨[ident c!"f" 3], false⟩) (ident c!"" 3)
        [.typeRef ⟨[ident c!"B" 3], false⟩],
       .useTraitAs none none (.typeRef ⟨[ident c!"h" 4], false⟩) (ident c!"" 4) (some (ident c!"private" 4)) none] (ident c!"" 5)]
    [.insteadOf ⟨[ident c!"A" 3], false⟩ c!"f" [⟨[ident c!"B" 3], false⟩], .asRule (some (ident c!"private" 4)) none c!"h" none] :=
  .plain _ (.block _ _ _ (.cons (.insteadOf _ _ _ _ _ [_] ⟨rfl, rfl⟩) (.cons (.as none _ _ _ _ _ _ ⟨rfl, rfl⟩) .nil)) .nil)

end Examples

end PhpLs.Resolver
