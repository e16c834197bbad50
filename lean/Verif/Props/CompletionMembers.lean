import Verif.Suggester
import Verif.Props.Members
import Verif.Props.Visibility
import Verif.Runs

/-!
# C47: completion offers members that can be used
-/

namespace PhpLs.Suggester

open Out

/-- Collecting the results of a list of steps, each of which gives one result or none. -/
theorem collect_mem {α β : Type} {f : List β → α → Out (List β)} {step : α → Out (Option β)}
    (hf : ∀ acc e, f acc e = step e >>= fun o => .ok (acc ++ o.toList)) : ∀ (es : List α) (acc l : List β),
    es.foldlM f acc = .ok l → (∀ e ∈ es, ∃ o, step e = .ok o) ∧ ∀ x, x ∈ l ↔ x ∈ acc ∨ ∃ e ∈ es, step e = .ok (some x)
  | [], acc, l, h => by
    simp only [List.foldlM_nil, Out.pure_eq, Out.ok.injEq] at h
    subst h
    simp
  | e :: es, acc, l, h => by
    rw [List.foldlM_cons, hf] at h
    obtain ⟨y, hy, h⟩ := Out.bind_eq_ok h
    obtain ⟨o, ho, hy⟩ := Out.bind_eq_ok hy
    injection hy with hy
    subst hy
    obtain ⟨h1, h2⟩ := collect_mem hf es _ l h
    refine ⟨?_, fun x => ?_⟩
    · intro x hx
      rcases List.mem_cons.1 hx with rfl | hx
      · exact ⟨o, ho⟩
      · exact h1 x hx
    · rw [h2 x]
      simp only [List.mem_append, Option.mem_toList, List.mem_cons, exists_eq_or_imp, ho, Out.ok.injEq]
      constructor
      · rintro ((h | h) | h)
        · exact .inl h
        · exact .inr (.inl h)
        · exact .inr (.inr h)
      · rintro (h | h | h)
        · exact .inl (.inl h)
        · exact .inl (.inr h)
        · exact .inr h

/-- The same for steps that give a list of results each. -/
theorem collect_lists {α β : Type} {f : List β → α → Out (List β)} {step : α → Out (List β)}
    (hf : ∀ acc e, f acc e = step e >>= fun o => .ok (acc ++ o)) : ∀ (es : List α) (acc l : List β),
    es.foldlM f acc = .ok l → (∀ e ∈ es, ∃ o, step e = .ok o) ∧ ∀ x, x ∈ l ↔ x ∈ acc ∨ ∃ e ∈ es, ∃ o, step e = .ok o ∧ x ∈ o
  | [], acc, l, h => by
    simp only [List.foldlM_nil, Out.pure_eq, Out.ok.injEq] at h
    subst h
    simp
  | e :: es, acc, l, h => by
    rw [List.foldlM_cons, hf] at h
    obtain ⟨y, hy, h⟩ := Out.bind_eq_ok h
    obtain ⟨o, ho, hy⟩ := Out.bind_eq_ok hy
    injection hy with hy
    subst hy
    obtain ⟨h1, h2⟩ := collect_lists hf es _ l h
    refine ⟨?_, fun x => ?_⟩
    · intro x hx
      rcases List.mem_cons.1 hx with rfl | hx
      · exact ⟨o, ho⟩
      · exact h1 x hx
    · rw [h2 x]
      simp only [List.mem_append, List.mem_cons, exists_eq_or_imp, ho, Out.ok.injEq, exists_eq_left']
      constructor
      · rintro ((h | h) | h)
        · exact .inl h
        · exact .inr (.inl h)
        · exact .inr (.inr h)
      · rintro (h | h | h)
        · exact .inl (.inl h)
        · exact .inl (.inr h)
        · exact .inr h

/-- The class around a symbol: the first class on the way from the symbol to its file. -/
inductive ClassAround (a : Arena Symbol) (cursor : NodeId) : Option NodeId → Prop where
  | some {before after : List NodeId} {c : NodeId} {s : Symbol} : a.ancestors? cursor = some (before ++ c :: after) →
      (∀ x ∈ before, ∀ s, a.get? x = some s → s.kind ≠ .cls) → a.get? c = some s → s.kind = .cls → ClassAround a cursor (some c)
  | none {l : List NodeId} : a.ancestors? cursor = some l → (∀ x ∈ l, ∀ s, a.get? x = some s → s.kind ≠ .cls) →
      ClassAround a cursor none

private theorem nearestClass_spec (a : Arena Symbol) : ∀ l, OkThat (fun o => match o with
    | some c => ∃ b t s, l = b ++ c :: t ∧ (∀ x ∈ b, ∀ s, a.get? x = some s → s.kind ≠ .cls) ∧ a.get? c = some s ∧ s.kind = .cls
    | none => ∀ x ∈ l, ∀ s, a.get? x = some s → s.kind ≠ .cls) (nearestClass a l)
  | [] => OkThat.ok (by simp)
  | n :: l => by
    unfold nearestClass
    refine OkThat.bindOption fun s hs => ?_
    by_cases hk : s.kind = .cls
    · rw [if_pos hk]
      exact OkThat.ok ⟨[], l, s, rfl, by simp, hs, hk⟩
    · rw [if_neg hk]
      have hn : ∀ s', a.get? n = some s' → s'.kind ≠ .cls := by
        intro s' h
        rw [hs] at h
        injection h with h
        exact h ▸ hk
      refine (nearestClass_spec a l).mono fun o ho => ?_
      cases o with
      | none =>
        intro x hx
        rcases List.mem_cons.1 hx with rfl | hx
        · exact hn
        · exact ho x hx
      | some c =>
        obtain ⟨b, t, s', e, h1, h2⟩ := ho
        refine ⟨n :: b, t, s', by rw [e]; rfl, ?_, h2⟩
        intro x hx
        rcases List.mem_cons.1 hx with rfl | hx
        · exact hn
        · exact h1 x hx

theorem nearestClass_around {a : Arena Symbol} {cursor : NodeId} {l : List NodeId} (hl : a.ancestors? cursor = some l) :
    OkThat (ClassAround a cursor) (nearestClass a l) := by
  refine (nearestClass_spec a l).mono fun o ho => ?_
  cases o with
  | none => exact .none hl ho
  | some c =>
    obtain ⟨b, t, s, e, h1, h2, h3⟩ := ho
    exact .some (e ▸ hl) h1 h2 h3

/-- The names of the members that can be used where the cursor is: none outside of classes; in a class those that are declared
in it, those of its traits, and the inherited ones that are not private. -/
inductive Usable (h : Host) (a : Arena Symbol) (globals : Dict Text NodeId) (cursor : NodeId) : (Text → Prop) → Prop where
  | outside : ClassAround a cursor none → Usable h a globals cursor fun _ => False
  | inside {c : NodeId} {s : Symbol} {cs : List (NodeId × Symbol)} {imp inh : Members} {r r' : Resolver} :
      ClassAround a cursor (some c) → a.get? c = some s → a.children? c = some cs →
      Resolver.importedSymbols h.U h.H a h.fuel (Resolver.new globals c) s c = .ok (imp, r) →
      Resolver.inheritedSymbols h.U h.H a h.fuel r s c = .ok (inh, r') →
      Usable h a globals cursor fun k => (∃ x ∈ cs, h.U.lower x.2.plainName = k) ∨ (∃ e, (k, e) ∈ imp) ∨
        ∃ e t, (k, e) ∈ inh ∧ a.get? e.symbol = some t ∧ Access.related.Allows t.visibility

private theorem inherited_fold {a : Arena Symbol} : ∀ (l : List (Text × SymbolAlias)) (d m : Members),
    (l.foldlM (init := d) fun acc e => do
      let m ← Out.ofOption (a.get? e.2.symbol)
      if m.visibility.ge .protected then .ok (Dict.insert acc e.1 e.2) else .ok acc) = .ok m →
    ∀ k, (Dict.get? m k).isSome ↔ (Dict.get? d k).isSome ∨ ∃ e t, (k, e) ∈ l ∧ a.get? e.symbol = some t ∧
      Access.related.Allows t.visibility
  | [], d, m, h, k => by
    simp only [List.foldlM_nil, Out.pure_eq, Out.ok.injEq] at h
    subst h
    simp
  | e :: l, d, m, h, k => by
    rw [List.foldlM_cons] at h
    obtain ⟨d', hd, h⟩ := Out.bind_eq_ok h
    obtain ⟨t, ht, hd⟩ := Out.bind_eq_ok hd
    have ht := Out.ofOption_ok ht
    rw [inherited_fold l d' m h k]
    have hv := C25_admits_exactly .related t.visibility
    simp only [Access.minimum] at hv
    by_cases hg : t.visibility.ge .protected = true
    · rw [if_pos hg] at hd
      injection hd with hd
      subst hd
      rw [Dict.get?_insert]
      by_cases hk : e.1 = k
      · rw [if_pos hk]
        simp only [Option.isSome_some, true_or, List.mem_cons, true_iff]
        exact .inr ⟨e.2, t, .inl (by rw [← hk]), ht, hv.1 hg⟩
      · rw [if_neg hk]
        simp only [List.mem_cons]
        refine or_congr Iff.rfl ⟨fun ⟨x, y, h1, h2⟩ => ⟨x, y, .inr h1, h2⟩, fun ⟨x, y, h1, h2⟩ => ⟨x, y, ?_, h2⟩⟩
        rcases h1 with h1 | h1
        · exact absurd (congrArg (·.1) h1).symm hk
        · exact h1
    · rw [if_neg hg] at hd
      injection hd with hd
      subst hd
      simp only [List.mem_cons]
      refine or_congr Iff.rfl ⟨fun ⟨x, y, h1, h2⟩ => ⟨x, y, .inr h1, h2⟩, fun ⟨x, y, h1, h2⟩ => ⟨x, y, ?_, h2⟩⟩
      rcases h1 with h1 | h1
      · subst h1
        obtain ⟨h2, h3⟩ := h2
        rw [ht] at h2
        injection h2 with h2
        exact absurd (hv.2 (h2 ▸ h3)) hg
      · exact h1

private theorem isSome_mem {d : Members} {k : Text} : (Dict.get? d k).isSome ↔ ∃ e, (k, e) ∈ d := by
  cases hd : Dict.get? d k with
  | some e => exact ⟨fun _ => ⟨e, Dict.get?_mem hd⟩, fun _ => rfl⟩
  | none => exact ⟨(fun h => nomatch h), fun ⟨e, he⟩ => absurd he (Dict.get?_none.1 hd e)⟩

private theorem declared_isSome {U : Unicode} {c : NodeId} {cs : List (NodeId × Symbol)} {k : Text} :
    (Resolver.declared U c cs k).isSome ↔ ∃ x ∈ cs, U.lower x.2.plainName = k := by
  simp [Resolver.declared]

/-- The names that count as accessible are exactly those of the members that can be used where the cursor is. -/
theorem accessible_exact (h : Host) (a : Arena Symbol) (globals : Dict Text NodeId) (cursor : NodeId) :
    OkThat (fun m => ∃ N, Usable h a globals cursor N ∧ ∀ k, (Dict.get? m k).isSome ↔ N k)
      (accessibleMembers h a globals cursor) := by
  unfold accessibleMembers
  refine OkThat.bindOption fun l hl => ?_
  refine (nearestClass_around hl).bind fun o ho => ?_
  cases o with
  | none => exact OkThat.ok ⟨_, .outside ho, by simp [Dict.get?]⟩
  | some c =>
    refine OkThat.bindOption fun cs hcs => ?_
    refine OkThat.bindOption fun s hs => ?_
    intro m hm
    obtain ⟨imp, himp, hm⟩ := Out.bind_eq_ok hm
    obtain ⟨inh, hinh, hm⟩ := Out.bind_eq_ok hm
    refine ⟨_, .inside ho hs hcs himp hinh, fun k => ?_⟩
    rw [inherited_fold _ _ _ hm k, ← or_assoc]
    refine or_congr ?_ ⟨fun ⟨e, t, h1, h2⟩ => ⟨e, t, (h.H.perm _).mem_iff.1 h1, h2⟩,
      fun ⟨e, t, h1, h2⟩ => ⟨e, t, (h.H.perm _).mem_iff.2 h1, h2⟩⟩
    rw [← declared_isSome (c := c), ← isSome_mem, Dict.get?_extend, Resolver.get?_ownMembers]
    cases Dict.get? imp.1 k <;> cases Resolver.declared h.U c cs k <;> simp

/-- What a member must be like to be offered: it begins with the text that is typed, it is static if `:` was typed last, it is not
`class` behind an arrow, and it is public or has the name of a member that can be used where the cursor is. -/
structure Fits (U : Unicode) (typed : Text) (trigger : Option Char) (arrow : Bool) (N : Text → Prop) (e : SymbolAlias) (s : Symbol) :
    Prop where
  starts : typed <+: e.alias
  static : trigger = some ':' → s.isStatic = true
  noMagic : arrow = true → s.kind ≠ .magicConst
  allowed : Access.anywhere.Allows e.visibility ∨ N (U.lower s.plainName)

private theorem offered_iff {U : Unicode} {typed : Text} {trigger : Option Char} {arrow : Bool} {N : Text → Prop} {m : Members}
    (hN : ∀ k, (Dict.get? m k).isSome ↔ N k) (e : SymbolAlias) (s : Symbol) :
    offered U typed (trigger = some ':') arrow m e s = true ↔ Fits U typed trigger arrow N e s := by
  have hv := C25_admits_exactly .anywhere e.visibility
  simp only [Access.minimum] at hv
  unfold offered
  rw [Bool.and_eq_true, Bool.and_eq_true, Bool.or_eq_true, hv, hN, List.isPrefixOf_iff_prefix]
  constructor
  · rintro ⟨⟨h1, h2⟩, h3⟩
    simp only [Bool.not_eq_true', Bool.or_eq_false_iff, Bool.and_eq_false_imp] at h2
    refine ⟨h1, fun ht => ?_, fun ha => ?_, h3⟩
    · have := h2.1 (by simp [ht]); simpa using this
    · simpa using h2.2 ha
  · intro h
    refine ⟨⟨h.starts, ?_⟩, h.allowed⟩
    simp only [Bool.not_eq_true', Bool.or_eq_false_iff, Bool.and_eq_false_imp]
    exact ⟨fun ht => by simpa using h.static (by simpa using ht), fun ha => by simpa using h.noMagic ha⟩

/-- The members of one class that are offered: exactly those that fit. -/
theorem membersOf_exact {h : Host} {a : Arena Symbol} {globals : Dict Text NodeId} {cursor : NodeId} {typed : Text}
    {trigger : Option Char} {arrow : Bool} {N : Text → Prop} {m : Members} (hN : ∀ k, (Dict.get? m k).isSome ↔ N k) (c : NodeId) :
    OkThat (fun l => ∃ all r, Resolver.allSymbols h.U h.H a h.fuel (Resolver.new globals cursor) c = .ok (all, r) ∧
      ∀ x, x ∈ l ↔ ∃ k e s, (k, e) ∈ all ∧ a.get? e.symbol = some s ∧ Fits h.U typed trigger arrow N e s ∧
        x = .aliased e.symbol e.alias .call none)
      (membersOf h a globals cursor typed (trigger = some ':') arrow m c) := by
  unfold membersOf
  intro l hl
  obtain ⟨all, hall, hl⟩ := Out.bind_eq_ok hl
  refine ⟨all.1, all.2, hall, fun x => ?_⟩
  have := (collect_mem (step := fun e : Text × SymbolAlias => do
      let s ← Out.ofOption (a.get? e.2.symbol)
      if offered h.U typed (trigger = some ':') arrow m e.2 s then .ok (some (Suggestion.aliased e.2.symbol e.2.alias .call none))
      else .ok none) ?_ _ _ l hl).2 x
  · rw [this]
    simp only [List.not_mem_nil, false_or]
    constructor
    · rintro ⟨e, he, hx⟩
      obtain ⟨s, hs, hx⟩ := Out.bind_eq_ok hx
      by_cases ho : offered h.U typed (trigger = some ':') arrow m e.2 s = true
      · rw [if_pos ho] at hx
        injection hx with hx
        injection hx with hx
        exact ⟨e.1, e.2, s, (h.H.perm _).mem_iff.1 he, Out.ofOption_ok hs, (offered_iff hN _ _).1 ho, hx.symm⟩
      · rw [if_neg ho] at hx
        cases hx
    · rintro ⟨k, e, s, he, hs, hfit, rfl⟩
      refine ⟨(k, e), (h.H.perm _).mem_iff.2 he, ?_⟩
      simp only [hs, Out.ofOption_some, Out.bind_ok]
      rw [if_pos ((offered_iff hN _ _).2 hfit)]
  · intro acc e
    cases a.get? e.2.symbol with
    | none => rfl
    | some s =>
      simp only [Out.ofOption_some, Out.bind_ok]
      split <;> simp

/-- A member access with an arrow. -/
def IsArrow : Node → Prop
  | .member .. => True
  | _ => False

/-- `$this->…`: the object is the variable `this`. -/
def IsThis : Node → Prop
  | .member (.variable t) _ _ _ _ => t.label = some c!"this"
  | _ => False

/-- Where the object in front of the operator is mentioned: if the cursor is in a member access with an arrow this is where its
object starts; if it is in the name behind an arrow, this is the name of the last member of the object if that is a call of a
member or a member itself, and else the start of the access; and in all other cases the start of the node around. -/
inductive ObjectAt : Node → Node → NodeRange → Prop where
  | access {node parent object member : Node} {arrow : Token} {lb rb : Option Token} {r : NodeRange} :
      node = .member object arrow lb member rb → object.range = some r → ObjectAt node parent r
  | call {node parent inner member member' : Node} {arrow arrow' : Token} {lb rb lb' rb' : Option Token} {lp rp : Token}
      {args : List Node} {r : NodeRange} : ¬ IsArrow node →
      parent = .member (.call (.member inner arrow' lb' member' rb') lp args rp) arrow lb member rb → member'.range = some r →
      ObjectAt node parent r
  | member {node parent inner member member' : Node} {arrow arrow' : Token} {lb rb lb' rb' : Option Token} {r : NodeRange} :
      ¬ IsArrow node → parent = .member (.member inner arrow' lb' member' rb') arrow lb member rb → member'.range = some r →
      ObjectAt node parent r
  | around {node parent : Node} {r : NodeRange} : ¬ IsArrow node →
      (∀ inner arrow' lb' member' rb' lp args rp arrow lb member rb,
        parent ≠ .member (.call (.member inner arrow' lb' member' rb') lp args rp) arrow lb member rb) →
      (∀ inner arrow' lb' member' rb' arrow lb member rb,
        parent ≠ .member (.member inner arrow' lb' member' rb') arrow lb member rb) → parent.range = some r →
      ObjectAt node parent r

theorem ObjectAt.unique {node parent : Node} {r r' : NodeRange} (h : ObjectAt node parent r) (h' : ObjectAt node parent r') :
    r = r' := by
  have same : ∀ {x y : Option NodeRange}, x = y → x = some r → y = some r' → r = r' := fun e e1 e2 => by
    rw [e, e2] at e1
    exact (Option.some.inj e1).symm
  cases h with
  | access e1 e2 =>
    cases h' with
    | access f1 f2 => cases e1.symm.trans f1; exact same rfl e2 f2
    | call n => exact absurd (e1 ▸ trivial) n
    | member n => exact absurd (e1 ▸ trivial) n
    | around n => exact absurd (e1 ▸ trivial) n
  | call n e1 e2 =>
    cases h' with
    | access f1 => exact absurd (f1 ▸ trivial) n
    | call _ f1 f2 => cases e1.symm.trans f1; exact same rfl e2 f2
    | member _ f1 => cases e1.symm.trans f1
    | around _ f1 => exact absurd e1 (f1 _ _ _ _ _ _ _ _ _ _ _ _)
  | member n e1 e2 =>
    cases h' with
    | access f1 => exact absurd (f1 ▸ trivial) n
    | call _ f1 => cases e1.symm.trans f1
    | member _ f1 f2 => cases e1.symm.trans f1; exact same rfl e2 f2
    | around _ _ f1 => exact absurd e1 (f1 _ _ _ _ _ _ _ _ _)
  | around n e1 e1' e2 =>
    cases h' with
    | access f1 => exact absurd (f1 ▸ trivial) n
    | call _ f1 => exact absurd f1 (e1 _ _ _ _ _ _ _ _ _ _ _ _)
    | member _ f1 => exact absurd f1 (e1' _ _ _ _ _ _ _ _ _)
    | around _ _ _ f2 => exact same rfl e2 f2

private theorem objectOf_spec (a : Arena Symbol) (cursor : NodeId) (node parent : Node) :
    OkThat (fun o => (o.2.2 = true ↔ IsArrow node ∨ IsArrow parent) ∧ ObjectAt node parent o.1 ∧
      ∀ c, o.2.1 = some c ↔ ¬ IsArrow node ∧ IsThis parent ∧ a.parent? cursor = some (some c)) (objectOf a cursor node parent) := by
  unfold objectOf
  refine OkThat.bindOption fun r hr => ?_
  split
  · next object _ _ _ _ =>
    exact OkThat.bindOption fun r' hr' => OkThat.ok ⟨by simp [IsArrow], .access rfl hr', by simp [IsArrow]⟩
  · next hn =>
    have hn : ¬ IsArrow node := by
      cases node <;> first | exact id | exact (hn _ _ _ _ _ rfl).elim
    split
    · split
      · split
        · exact OkThat.bindOption fun r' hr' => OkThat.ok ⟨by simp [IsArrow], .call hn rfl hr', by simp [IsThis]⟩
        · next hc =>
          exact OkThat.ok ⟨by simp [IsArrow], .around hn (by simp_all) (by simp) hr, by simp [IsThis]⟩
      · exact OkThat.bindOption fun r' hr' => OkThat.ok ⟨by simp [IsArrow], .member hn rfl hr', by simp [IsThis]⟩
      · rename_i token
        by_cases ht : token.label = some c!"this"
        · rw [if_pos ht]
          refine OkThat.bindOption fun p hp => OkThat.ok ⟨by simp [IsArrow], .around hn (by simp) (by simp) hr, fun c => ?_⟩
          rw [hp]
          exact ⟨fun hc => ⟨hn, ht, congrArg some hc⟩, fun hc => Option.some.inj hc.2.2⟩
        · rw [if_neg ht]
          exact OkThat.ok ⟨by simp [IsArrow], .around hn (by simp) (by simp) hr, by simp [IsThis, ht]⟩
      · next h1 h2 h3 =>
        refine OkThat.ok ⟨by simp [IsArrow], .around hn ?_ ?_ hr, ?_⟩
        · intro _ _ _ _ _ _ _ _ _ _ _ _ e
          injection e with e
          exact h1 _ _ _ _ e
        · intro _ _ _ _ _ _ _ _ _ e
          injection e with e
          exact h2 _ _ _ _ _ e
        · intro c
          simp only [reduceCtorEq, false_iff, not_and]
          intro _ ht
          unfold IsThis at ht
          split at ht
          · next e =>
            injection e with e
            exact (h3 _ e).elim
          · exact ht.elim
    · next hp =>
      have hp : ¬ IsArrow parent := by
        cases parent <;> first | exact id | exact (hp _ _ _ _ _ rfl).elim
      refine OkThat.ok ⟨by simp [hn, hp], .around hn ?_ ?_ hr, ?_⟩
      · rintro _ _ _ _ _ _ _ _ _ _ _ _ rfl
        exact hp trivial
      · rintro _ _ _ _ _ _ _ _ _ rfl
        exact hp trivial
      · intro c
        simp only [reduceCtorEq, false_iff, not_and]
        intro _ ht
        unfold IsThis at ht
        split at ht
        · exact (hp trivial).elim
        · exact ht.elim

/-- The object in front of the operator: for `$this` the symbol around the one of the cursor, if there is one, else a symbol to
which the file refers at the place of the object. -/
inductive IsObject (a : Arena Symbol) (cursor : NodeId) (node parent : Node) (refs : FileRefs) : NodeId → Prop where
  | this {c : NodeId} : ¬ IsArrow node → IsThis parent → a.parent? cursor = some (some c) → IsObject a cursor node parent refs c
  | referenced {n : NodeId} {r x : NodeRange} {ranges : List NodeRange} :
      (∀ c, ¬ (¬ IsArrow node ∧ IsThis parent ∧ a.parent? cursor = some (some c))) → ObjectAt node parent r → (n, ranges) ∈ refs →
      x ∈ ranges → inRange ⟨r.startLine, r.startCol⟩ (getRange x) = true → IsObject a cursor node parent refs n

/-- The names of the types of an object, which are looked up where the cursor is. -/
def OfObject (cursor : NodeId) (s : Symbol) : Resolver.Names := fun n t => n = cursor ∧ t ∈ s.dataTypes.map (·.typeRef)

/-- A class of an object: its type is the class, or `$this` and the class is around the object, or the name of the type stands
for the class. -/
inductive IsType (h : Host) (a : Arena Symbol) (globals : Dict Text NodeId) (cursor object : NodeId) (s : Symbol) : NodeId → Prop where
  | node {d : SymRef} {c : NodeId} : d ∈ s.dataTypes → d.node = some c → IsType h a globals cursor object s c
  | this {d : SymRef} {c : NodeId} : d ∈ s.dataTypes → d.node = none → d.typeRef.root = some (some c!"$this") →
      a.parent? object = some (some c) → IsType h a globals cursor object s c
  | name {d : SymRef} {c : NodeId} {r r' : Resolver} : d ∈ s.dataTypes → d.node = none → d.typeRef.root ≠ some (some c!"$this") →
      Resolver.Asked h.U a (OfObject cursor s) (Resolver.new globals cursor) r →
      Resolver.resolveTypeRef h.U a h.fuel r d.typeRef cursor false = .ok (some c, r') → IsType h a globals cursor object s c

/-- No class of the object is left out. -/
structure AllTypes (h : Host) (a : Arena Symbol) (globals : Dict Text NodeId) (cursor object : NodeId) (s : Symbol) (l : List SymRef)
    (classes : List NodeId) : Prop where
  node : ∀ d ∈ l, ∀ c, d.node = some c → c ∈ classes
  this : ∀ d ∈ l, d.node = none → d.typeRef.root = some (some c!"$this") → ∀ c, a.parent? object = some (some c) → c ∈ classes
  name : ∀ d ∈ l, d.node = none → d.typeRef.root ≠ some (some c!"$this") →
    ∃ r o r', Resolver.Asked h.U a (OfObject cursor s) (Resolver.new globals cursor) r ∧
      Resolver.resolveTypeRef h.U a h.fuel r d.typeRef cursor false = .ok (o, r') ∧ ∀ c, o = some c → c ∈ classes

private theorem AllTypes.cons {h : Host} {a : Arena Symbol} {globals : Dict Text NodeId} {cursor object : NodeId} {s : Symbol}
    {d : SymRef} {l : List SymRef} {cs new : List NodeId} (ht : AllTypes h a globals cursor object s l cs)
    (hd : AllTypes h a globals cursor object s [d] new) : AllTypes h a globals cursor object s (d :: l) (new ++ cs) := by
  refine ⟨fun x hx c hc => ?_, fun x hx h1 h2 c hc => ?_, fun x hx h1 h2 => ?_⟩
  · rcases List.mem_cons.1 hx with rfl | hx
    · exact List.mem_append_left _ (hd.node x List.mem_cons_self c hc)
    · exact List.mem_append_right _ (ht.node x hx c hc)
  · rcases List.mem_cons.1 hx with rfl | hx
    · exact List.mem_append_left _ (hd.this x List.mem_cons_self h1 h2 c hc)
    · exact List.mem_append_right _ (ht.this x hx h1 h2 c hc)
  · rcases List.mem_cons.1 hx with rfl | hx
    · obtain ⟨r, o, r', e1, e2, e3⟩ := hd.name x List.mem_cons_self h1 h2
      exact ⟨r, o, r', e1, e2, fun c hc => List.mem_append_left _ (e3 c hc)⟩
    · obtain ⟨r, o, r', e1, e2, e3⟩ := ht.name x hx h1 h2
      exact ⟨r, o, r', e1, e2, fun c hc => List.mem_append_right _ (e3 c hc)⟩

private theorem typesOf_spec (h : Host) (a : Arena Symbol) (globals : Dict Text NodeId) (object cursor : NodeId) (s : Symbol) :
    ∀ (l : List SymRef) (r : Resolver), (∀ d ∈ l, d ∈ s.dataTypes) →
      Resolver.Asked h.U a (OfObject cursor s) (Resolver.new globals cursor) r →
      OkThat (fun cs => (∀ c ∈ cs, IsType h a globals cursor object s c) ∧ AllTypes h a globals cursor object s l cs)
        (typesOf h a object cursor l r)
  | [], r, _, _ => OkThat.ok ⟨by simp, by simp, by simp, by simp⟩
  | d :: l, r, hl, hr => by
    have ih := fun r hr => typesOf_spec h a globals object cursor s l r (fun d hd => hl d (List.mem_cons_of_mem _ hd)) hr
    have hd := hl d List.mem_cons_self
    unfold typesOf
    cases hn : d.node with
    | some n =>
      refine (ih r hr).bind fun cs hcs => OkThat.ok ⟨?_, hcs.2.cons (new := [n]) ⟨?_, ?_, ?_⟩⟩
      · intro c hc
        rcases List.mem_cons.1 hc with rfl | hc
        · exact .node hd hn
        · exact hcs.1 c hc
      · simp [hn]
      · simp [hn]
      · simp [hn]
    | none =>
      refine OkThat.bindOption fun root hroot => ?_
      refine OkThat.bindOption fun root' hroot' => ?_
      subst hroot'
      by_cases ht : root' = c!"$this"
      · rw [if_pos ht]
        subst ht
        refine OkThat.bindOption fun p hp => ?_
        refine (ih r hr).bind fun cs hcs => OkThat.ok ⟨?_, hcs.2.cons ⟨by simp [hn], ?_, ?_⟩⟩
        · intro c hc
          rcases List.mem_append.1 hc with hc | hc
          · rw [Option.mem_toList] at hc
            exact .this hd hn hroot (by rw [hp, hc])
          · exact hcs.1 c hc
        · intro x hx _ _ c hc
          rw [hp] at hc
          injection hc with hc
          rw [hc]
          simp
        · intro x hx _ h2
          rw [List.mem_singleton.1 hx] at h2
          exact (h2 hroot).elim
      · rw [if_neg ht]
        have hroot2 : d.typeRef.root ≠ some (some c!"$this") := by
          rw [hroot]
          simpa using ht
        intro cs hcs
        obtain ⟨p, hp, hcs⟩ := Out.bind_eq_ok hcs
        obtain ⟨cs', hcs', e⟩ := Out.bind_eq_ok hcs
        injection e with e
        subst e
        obtain ⟨i1, i2⟩ := ih p.2 (hr.ask ⟨rfl, List.mem_map.2 ⟨d, hd, rfl⟩⟩ hp) cs' hcs'
        refine ⟨?_, i2.cons ⟨by simp [hn], ?_, ?_⟩⟩
        · intro c hc
          rcases List.mem_append.1 hc with hc | hc
          · rw [Option.mem_toList] at hc
            exact .name hd hn hroot2 hr (r' := p.2) (by rw [hp, ← hc])
          · exact i1 c hc
        · intro x hx _ h2
          rw [List.mem_singleton.1 hx] at h2
          exact (hroot2 h2).elim
        · intro x hx _ _
          rw [List.mem_singleton.1 hx]
          exact ⟨r, p.1, p.2, hr, hp, fun c hc => by rw [hc]; simp⟩

/-- C47, the part that holds.  What is offered behind an operator are exactly the members of the classes of the object that fit:
they begin with the typed text, are static if a colon was typed, and are public or have the name of a member that can be used
where the cursor is.  Missing: private members of other classes are offered if their name is one that can be used
(`C47_violated_private`), constants and static properties are not offered behind `::` (`C47_violated_static`), static members and
constants are offered behind `->` (`C47_violated_arrow`), and members of the object behind `::` if no colon was typed last
(`C47_violated_untyped`). -/
theorem C47_offered_partial (h : Host) (trigger : Option Char) (node parent : Node) (a : Arena Symbol) (globals : Dict Text NodeId)
    (cursor : NodeId) (refs : FileRefs) :
    OkThat (fun l => (l = [] ∧ ∀ object, ¬ IsObject a cursor node parent refs object) ∨ ∃ (typed : Text) (object : NodeId) (s : Symbol) (N : Text → Prop) (arrow : Bool) (classes : List NodeId),
      node.name = some typed ∧ IsObject a cursor node parent refs object ∧
      a.get? object = some s ∧ Usable h a globals cursor N ∧ (arrow = true ↔ IsArrow node ∨ IsArrow parent) ∧
      (∀ c ∈ classes, IsType h a globals cursor object s c) ∧ AllTypes h a globals cursor object s s.dataTypes classes ∧
      (∀ c ∈ classes, ∃ all r, Resolver.allSymbols h.U h.H a h.fuel (Resolver.new globals cursor) c = .ok (all, r)) ∧
      ∀ x, x ∈ l ↔ ∃ c ∈ classes, ∃ all r k e t,
        Resolver.allSymbols h.U h.H a h.fuel (Resolver.new globals cursor) c = .ok (all, r) ∧ (k, e) ∈ all ∧
        a.get? e.symbol = some t ∧ Fits h.U typed trigger arrow N e t ∧ x = .aliased e.symbol e.alias .call none)
      (membersOfSymbol h trigger node parent a globals cursor refs) := by
  unfold membersOfSymbol
  refine OkThat.bindOption fun typed ht => ?_
  refine (objectOf_spec a cursor node parent).bind fun o ho => ?_
  have hobj : ∀ n, o.2.1.or (Backend.referencedSymbol h.H ⟨o.1.startLine, o.1.startCol⟩ refs) = some n →
      IsObject a cursor node parent refs n := by
    intro n hn
    cases hc : o.2.1 with
    | some c =>
      rw [hc] at hn
      simp only [Option.some_or, Option.some.injEq] at hn
      subst hn
      obtain ⟨h1, h2, h3⟩ := (ho.2.2 c).1 hc
      exact .this h1 h2 h3
    | none =>
      rw [hc, Option.none_or] at hn
      unfold Backend.referencedSymbol at hn
      rw [Option.map_eq_some_iff] at hn
      obtain ⟨e, he, rfl⟩ := hn
      have hcov : Backend.covers ⟨o.1.startLine, o.1.startCol⟩ e.2 = true :=
        List.find?_some (p := fun e : NodeId × List NodeRange => Backend.covers ⟨o.1.startLine, o.1.startCol⟩ e.2) he
      obtain ⟨x, hx, hin⟩ := List.any_eq_true.1 hcov
      refine .referenced (ranges := e.2) (fun c h3 => ?_) ho.2.1 ((h.H.perm refs).mem_iff.1 (List.mem_of_find?_eq_some he)) hx hin
      rw [(ho.2.2 c).2 h3] at hc
      cases hc
  simp only
  split
  · next hnone =>
    refine OkThat.ok (.inl ⟨rfl, fun object hobject => ?_⟩)
    obtain ⟨h1, h2⟩ := Option.or_eq_none_iff.1 hnone
    cases hobject with
    | this h3 h4 h5 =>
      rw [(ho.2.2 object).2 ⟨h3, h4, h5⟩] at h1
      cases h1
    | @referenced r x ranges _ h4 h5 h6 h7 =>
      unfold Backend.referencedSymbol at h2
      rw [Option.map_eq_none_iff, List.find?_eq_none] at h2
      refine h2 (object, ranges) ((h.H.perm refs).mem_iff.2 h5) ?_
      rw [ho.2.1.unique h4]
      exact List.any_eq_true.2 ⟨x, h6, h7⟩
  · next object hobject =>
    refine (accessible_exact h a globals cursor).bind fun m hm => ?_
    obtain ⟨N, hN, hmN⟩ := hm
    refine OkThat.bindOption fun s hs => ?_
    refine (typesOf_spec h a globals object cursor s s.dataTypes (Resolver.new globals cursor) (fun _ h => h) .start).bind
      fun classes hcl => ?_
    intro l hl
    obtain ⟨h1, h2⟩ := collect_lists (step := membersOf h a globals cursor typed (trigger = some ':') o.2.2 m)
      (fun acc e => rfl) _ _ l hl
    refine .inr ⟨typed, object, s, N, o.2.2, classes, ht, hobj object hobject, hs, hN, ho.1, hcl.1, hcl.2, ?_, fun x => ?_⟩
    · intro c hc
      obtain ⟨l', hl'⟩ := h1 c hc
      obtain ⟨all, r, hall, _⟩ := membersOf_exact (typed := typed) (arrow := o.2.2) hmN c l' hl'
      exact ⟨all, r, hall⟩
    · rw [h2 x]
      simp only [List.not_mem_nil, false_or]
      constructor
      · rintro ⟨c, hc, l', hl', hx⟩
        obtain ⟨all, r, hall, hmem⟩ := membersOf_exact (typed := typed) (arrow := o.2.2) hmN c l' hl'
        obtain ⟨k, e, t, h3, h4, h5, h6⟩ := (hmem x).1 hx
        exact ⟨c, hc, all, r, k, e, t, hall, h3, h4, h5, h6⟩
      · rintro ⟨c, hc, all, r, k, e, t, hall, h3, h4, h5, h6⟩
        obtain ⟨l', hl'⟩ := h1 c hc
        obtain ⟨all', r', hall', hmem⟩ := membersOf_exact (typed := typed) (arrow := o.2.2) hmN c l' hl'
        rw [hall] at hall'
        injection hall' with hall'
        injection hall' with hall' _
        subst hall'
        exact ⟨c, hc, l', hl', (hmem x).2 ⟨k, e, t, h3, h4, h5, h6⟩⟩

private theorem around_unique {a : Arena Symbol} {cursor : NodeId} {c : NodeId} (h : ClassAround a cursor none)
    (h' : ClassAround a cursor (some c)) : False := by
  cases h with
  | none h1 h2 =>
    cases h' with
    | some h3 h4 h5 h6 =>
      rw [h1] at h3
      injection h3 with h3
      exact h2 c (by rw [h3]; simp) _ h5 h6

/-- C47, outside of classes nothing but public members is offered. -/
theorem C47_outside {h : Host} {a : Arena Symbol} {globals : Dict Text NodeId} {cursor : NodeId} (hc : ClassAround a cursor none)
    (trigger : Option Char) (node parent : Node) (refs : FileRefs) :
    OkThat (fun l => ∀ x ∈ l, ∃ c all r k e, Resolver.allSymbols h.U h.H a h.fuel (Resolver.new globals cursor) c = .ok (all, r) ∧
      (k, e) ∈ all ∧ x.node = some e.symbol ∧ Access.anywhere.Allows e.visibility)
      (membersOfSymbol h trigger node parent a globals cursor refs) := by
  refine (C47_offered_partial h trigger node parent a globals cursor refs).mono fun l hl => ?_
  intro x hx
  rcases hl with ⟨rfl, _⟩ | ⟨typed, object, s, N, arrow, classes, _, _, _, hN, _, _, _, _, hmem⟩
  · cases hx
  · obtain ⟨c, _, all, r, k, e, t, hall, hk, _, hfit, rfl⟩ := (hmem x).1 hx
    refine ⟨c, all, r, k, e, hall, hk, rfl, ?_⟩
    cases hN with
    | outside _ => exact hfit.allowed.resolve_right id
    | inside h1 _ _ _ _ => exact (around_unique hc h1).elim

end PhpLs.Suggester

namespace PhpLs.Backend

/-- The labels of what is offered at a position of a text that is opened. -/
def offers (text : Text) (position : Pos) (trigger : Option Char) : Out (Option (List Text)) := do
  let st ← initWorkspace plainHost [(c!"a.php", text)] empty
  let st ← didOpen plainHost c!"a.php" (some text) st
  let r ← st.completion plainHost trigger position c!"a.php"
  pure (r.map fun l => l.map (·.label))

/-- Runs that meet the hypotheses: outside of classes only the public member is offered, in a class the own and the protected
inherited ones.  The labels begin with `$` even for methods, and behind an arrow (`$this->$r` is another thing in PHP). -/
example : offers c!"<?php class A { private $p; protected $q; function f() {} } function g(A $a) { $a->; }" ⟨0, 83⟩ (some '>') =
      .ok (some [c!"$f"]) ∧
    offers c!"<?php class P { private $p; protected $q; } class A extends P { private $r; function f() { $this->; } }" ⟨0, 98⟩
      (some '>') = .ok (some [c!"$q", c!"$f", c!"$r"]) := by
  decide +kernel

/-- C47 is violated: in the class `B` the private member `$q` of `A` is offered for an object of type `A`, because `B` has one of
that name, too.  `$p` and the protected `$r` are not. -/
theorem C47_violated_private :
    offers c!"<?php class A { private $p; private $q; protected $r; public $s; } class B { private $q; function f(A $a) { $a->; } }"
      ⟨0, 112⟩ (some '>') = .ok (some [c!"$s", c!"$q"]) := by
  decide +kernel

/-- C47 is violated: behind `A::` neither the constant nor the static property is offered. -/
theorem C47_violated_static :
    offers c!"<?php class A { const C = 1; static $s; static function f() {} function g() {} } function h() { A::; }" ⟨0, 99⟩
      (some ':') = .ok (some [c!"$f", c!"$class"]) := by
  decide +kernel

/-- C47 is violated: if completion is asked for without typing a colon, the method `g` of objects is offered behind `A::`. -/
theorem C47_violated_untyped :
    offers c!"<?php class A { const C = 1; static $s; static function f() {} function g() {} } function h() { A::; }" ⟨0, 99⟩
      none = .ok (some [c!"$g", c!"$f", c!"$s", c!"$C", c!"$class"]) := by
  decide +kernel

/-- C47 is violated: constants and static members are offered behind an arrow. -/
theorem C47_violated_arrow :
    offers c!"<?php class A { const C = 1; static $s; static function f() {} function g() {} } function h(A $a) { $a->; }" ⟨0, 104⟩
      (some '>') = .ok (some [c!"$g", c!"$f", c!"$s", c!"$C"]) := by
  decide +kernel

/-- C47 is violated: behind `self::` nothing is offered. -/
theorem C47_violated_self : offers c!"<?php class A { static function f() { self::; } }" ⟨0, 44⟩ (some ':') = .ok (some []) := by
  decide +kernel

/-- Asking for completion behind a `case` without statements crashes the server. -/
theorem C46_violated_completion : offers c!"<?php switch ($x) { case 1: }" ⟨0, 27⟩ none = .panic := by decide +kernel

end PhpLs.Backend
