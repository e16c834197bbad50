import Verif.Props.Members
import Verif.NameResolveLemmas
import Verif.Runs

/-!
# C65: the links of a member access

`$this->a->b`, `self::C`, `Foo::$x`: each name behind an arrow or a double colon is looked up in the class the chain has
reached.  What the chain means is stated here as a relation (`Chain`) that knows nothing of the loop of the code.
-/

namespace PhpLs.Env

open Out Resolver

/-! ## What a chain means -/

/-- The states of the resolver that are reached by looking up names, recording references and reporting. -/
inductive Went (U : Unicode) (a : Arena Symbol) (r : Resolver) : Resolver → Prop where
  | start : Went U a r r
  | ask {fuel : Nat} {t : TypeRef} {n : NodeId} {record : Bool} {r1 : Resolver} {p : Option NodeId × Resolver} : Went U a r r1 →
      resolveTypeRef U a fuel r1 t n record = .ok p → Went U a r p.2
  | note {r1 : Resolver} (file : NodeId) (x : NameRef) : Went U a r r1 → Went U a r (r1.reference file x)
  | report {r1 : Resolver} (d : Notification) : Went U a r r1 → Went U a r (r1.diagnostic d)

theorem Went.step {U : Unicode} {a : Arena Symbol} {r r' : Resolver} (h : Went U a r r') : Step r r' := by
  induction h with
  | start => exact Step.refl _
  | ask _ e ih => exact ih.trans (query_resolveTypeRef _ _ _ _ _ _ _ _ e).1.1
  | note _ _ _ ih => exact ih.trans (Step.reference _ _ _)
  | report _ _ ih => exact ih.trans (Step.diagnostic _ _)

theorem Went.trans {U : Unicode} {a : Arena Symbol} {r r' r'' : Resolver} (h : Went U a r r') (h' : Went U a r' r'') : Went U a r r'' := by
  induction h' with
  | start => exact h
  | ask _ e ih => exact ih.ask e
  | note f x _ ih => exact ih.note f x
  | report d _ ih => exact ih.report d

theorem Went.ofAsked {U : Unicode} {a : Arena Symbol} {Q : Resolver.Names} {r r' : Resolver} (h : Asked U a Q r r') : Went U a r r' := by
  induction h with
  | start => exact .start
  | ask _ _ e ih => exact ih.ask e

theorem Went.members {U : Unicode} {H : HashOrder} {a : Arena Symbol} {fuel : Nat} {r : Resolver} {root : NodeId}
    {m : Members × Resolver} (h : allSymbols U H a fuel r root = .ok m) : Went U a r m.2 :=
  .ofAsked (asked_allSymbols fuel root .start m h)

theorem Went.parent {U : Unicode} {a : Arena Symbol} {fuel : Nat} {r : Resolver} {s : Symbol} {c : NodeId}
    {p : Option NodeId × Resolver} (h : uniqueParent U a fuel r s c = .ok p) : Went U a r p.2 := by
  cases fuel with
  | zero => cases h
  | succ fuel =>
    unfold uniqueParent at h
    obtain ⟨q, hq, h⟩ := Out.bind_eq_ok h
    have := Went.ofAsked (asked_parentNodes (Q := fun _ _ => True) (fun _ _ => trivial) fuel .start q hq)
    split at h <;> (cases h; exact this)

section Meaning

variable (U : Unicode) (H : HashOrder) (a : Arena Symbol) (fuel : Nat) (r : Resolver)

/-- Asked now or later for its members, the class `root` has `o` under `name`, in any case. -/
def Offers (root : NodeId) (name : Text) (o : Option SymbolAlias) : Prop :=
  ∃ r1 m r2, Went U a r r1 ∧ allSymbols U H a fuel r1 root = .ok (m, r2) ∧ Dict.get? m (U.lower name) = o

/-- Asked now or later, the type name `t` means `o` when it is read at `anchor`. -/
def Means (t : TypeRef) (anchor : NodeId) (o : Option NodeId) : Prop :=
  ∃ r1 r2, Went U a r r1 ∧ resolveTypeRef U a fuel r1 t anchor true = .ok (o, r2)

/-- Asked now or later, the only class `c` extends is `o`. -/
def Extends (c : NodeId) (o : Option NodeId) : Prop :=
  ∃ r1 r2 sym, Went U a r r1 ∧ a.get? c = some sym ∧ uniqueParent U a fuel r1 sym c = .ok (o, r2)

/-- The type is `self`, `static` or `$this`. -/
def Own (t : TypeRef) : Prop :=
  (∃ k, t.rootToken = some k ∧ (k.t = .typeSelf ∨ k.t = .kwStatic)) ∨ t.root = some (some c!"$this")

/-- The type is `parent`. -/
def Parental (t : TypeRef) : Prop := ∃ k, t.rootToken = some k ∧ k.t = .kwParent

/-- Where the types of a property or a method of the class `root` lead: the first one that is known counts. -/
inductive Leads (root : NodeId) : List SymRef → Option NodeId → Prop
  | nowhere : Leads root [] none
  | own {ref rest} : Own ref.typeRef → Leads root (ref :: rest) (some root)
  | parent {ref rest o} : ¬ Own ref.typeRef → Parental ref.typeRef → Extends U a fuel r root o → Leads root (ref :: rest) o
  | known {ref rest n} : ¬ Own ref.typeRef → ¬ Parental ref.typeRef → Means U a fuel r ref.typeRef root (some n) →
      Leads root (ref :: rest) (some n)
  | unknown {ref rest o} : ¬ Own ref.typeRef → ¬ Parental ref.typeRef → Means U a fuel r ref.typeRef root none →
      Leads root rest o → Leads root (ref :: rest) o

/-- Where a chain goes on behind a member of the class `root`. -/
inductive Onwards (root : NodeId) (member : NodeId) : Option NodeId → Prop
  | typed {sym o} : a.get? member = some sym → (sym.kind = .property ∨ sym.kind = .method) →
      Leads U a fuel r root sym.dataTypes o → Onwards root member o
  | itself {sym} : a.get? member = some sym → ¬ (sym.kind = .property ∨ sym.kind = .method) → Onwards root member (some member)

end Meaning

/-- The link is the word `class`. -/
def IsClass (l : Node) : Prop := ∃ t, l = .literal t ∧ t.display = some c!"class"

/-- The name written at a link; a variable without its dollar. -/
inductive Written : Node → Text → Prop
  | variable {t n} : t.label = some n → Written (.variable t) n
  | literal {t n} : t.display = some n → n ≠ c!"class" → Written (.literal t) n
  | other {l n} : (∀ t, l ≠ .variable t) → (∀ t, l ≠ .literal t) → l.name = some n → Written l n

/-- From here a member of this visibility can be used; `minimal` says from where. -/
def Reachable (minimal v : Visibility) : Prop :=
  match minimal with
  | .private => True
  | .protected => v ≠ .private
  | .public => v ≠ .private ∧ v ≠ .protected
  | .none => v ≠ .private ∧ v ≠ .protected

/-- How a chain ends. -/
inductive Ending where
  | reached (n : NodeId)
  | theClass
  | missing (l : Node)
  | hidden (l : Node)
  | untyped (l : Node)

/-- The chain of links from the class `root` on: the members passed, and how it ends. -/
inductive Chain (U : Unicode) (H : HashOrder) (a : Arena Symbol) (fuel : Nat) (r : Resolver) (minimal : Visibility) :
    NodeId → List Node → List (Node × Text × SymbolAlias) → Ending → Prop
  | done {root} : Chain U H a fuel r minimal root [] [] (.reached root)
  | theClass {root l rest} : IsClass l → Chain U H a fuel r minimal root (l :: rest) [] .theClass
  | missing {root l rest name} : Written l name → Offers U H a fuel r root name none →
      Chain U H a fuel r minimal root (l :: rest) [] (.missing l)
  | hidden {root l rest name m} : Written l name → Offers U H a fuel r root name (some m) → ¬ Reachable minimal m.visibility →
      Chain U H a fuel r minimal root (l :: rest) [] (.hidden l)
  | untyped {root l rest name m} : Written l name → Offers U H a fuel r root name (some m) → Reachable minimal m.visibility →
      Onwards U a fuel r root m.symbol none → Chain U H a fuel r minimal root (l :: rest) [(l, name, m)] (.untyped l)
  | on {root l rest name m next passed e} : Written l name → Offers U H a fuel r root name (some m) →
      Reachable minimal m.visibility → Onwards U a fuel r root m.symbol (some next) →
      Chain U H a fuel r minimal next rest passed e →
      Chain U H a fuel r minimal root (l :: rest) ((l, name, m) :: passed) e

/-- The answer for a chain: the class it reaches. -/
def Ending.answer : Ending → Option NodeId
  | .reached n => some n
  | _ => none

/-- The token of a link that is underlined. -/
def tokenOf : Node → Option Token
  | .variable t => some t
  | .literal t => some t
  | _ => none

/-- What is to be recorded for a chain in the file `file`. -/
structure Noted (U : Unicode) (file : NodeId) (fileName : Text) (a : Arena Symbol) (r r' : Resolver) (passed : List (Node × Text × SymbolAlias))
    (e : Ending) : Prop where
  /-- Nothing recorded before is lost, and what is remembered was looked up. -/
  went : Went U a r r'
  /-- Each name of the chain refers to the member passed. -/
  names : ∀ p ∈ passed, ∀ t, tokenOf p.1 = some t → ∃ range, t.range = some range ∧ ⟨range, p.2.2.symbol⟩ ∈ r'.refsOf file
  /-- Every new reference is the one of a name of the chain or of a type of a member passed. -/
  only : ∀ f, ∀ x ∈ r'.refsOf f, x ∈ r.refsOf f ∨
    (f = file ∧ ∃ p ∈ passed, ∃ t, tokenOf p.1 = some t ∧ t.range = some x.range ∧ x.node = p.2.2.symbol) ∨
    (∃ p ∈ passed, ∃ sym, a.get? p.2.2.symbol = some sym ∧ ∃ ref ∈ sym.dataTypes, ref.typeRef.range = some x.range)
  /-- A name in the wrong case is reported. -/
  cases : ∀ p ∈ passed, p.2.2.alias ≠ p.2.1 → ∃ range, p.1.range = some range ∧
    ⟨fileName, c!"Case mismatch between call and definition", range, .warning⟩ ∈ r'.diagnostics
  /-- A name that is not there is reported. -/
  missing : ∀ l, e = .missing l → ∃ range shown, l.range = some range ∧ l.name = some shown ∧
    ⟨fileName, c!"Unresolvable symbol " ++ shown, range, .error⟩ ∈ r'.diagnostics
  /-- So is a member that cannot be used from here. -/
  hidden : ∀ l, e = .hidden l → ∃ range, l.range = some range ∧
    ⟨fileName, c!"Method is not accessible from this scope", range, .error⟩ ∈ r'.diagnostics
  /-- The word `class` is not looked up. -/
  theClass : e = .theClass → passed = [] → r' = r

/-! ## Lemmas -/

theorem ge_iff (minimal v : Visibility) : v.ge minimal = true ↔ Reachable minimal v := by
  cases minimal <;> cases v <;> simp [Reachable, Visibility.ge, Visibility.partialCmp]

theorem linkName_none {l : Node} (h : linkName l = some none) : IsClass l := by
  cases l
  case literal t =>
    simp only [linkName, Option.bind_eq_bind, Option.bind_eq_some_iff] at h
    obtain ⟨n, h1, h2⟩ := h
    split at h2
    · next e => exact ⟨t, rfl, by rw [h1, e]⟩
    · cases h2
  case «variable» t => cases hl : t.label <;> simp [linkName, hl] at h
  all_goals
    simp only [linkName] at h
    first
    | (simp at h; done)
    | (exfalso; revert h; cases Node.name _ <;> simp; done)

theorem linkName_some {l : Node} {n : Text} (h : linkName l = some (some n)) : Written l n := by
  cases l
  case literal t =>
    simp only [linkName, Option.bind_eq_bind, Option.bind_eq_some_iff] at h
    obtain ⟨k, h1, h2⟩ := h
    split at h2
    · cases h2
    · next e => cases h2; exact .literal h1 e
  case «variable» t =>
    simp only [linkName, Option.map_eq_some_iff] at h
    obtain ⟨k, h1, h2⟩ := h
    cases h2
    exact .variable h1
  all_goals
    refine .other (fun _ => nofun) (fun _ => nofun) ?_
    simp only [linkName, Option.map_eq_some_iff] at h
    obtain ⟨k, h1, h2⟩ := h
    cases h2
    exact h1

theorem refsOf_reference (r : Resolver) (file : NodeId) (x : NameRef) (f : NodeId) :
    (r.reference file x).refsOf f = if f = file then r.refsOf f ++ [x] else r.refsOf f := by
  simp only [refsOf, Resolver.reference, Dict.get?_insert]
  split
  · next h => subst h; simp
  · next h => rw [if_neg (fun e => h e.symm)]

/-- The references that are new after a type name has been looked up are those of the name. -/
theorem resolveTypeRef_only (U : Unicode) (a : Arena Symbol) : ∀ (fuel : Nat) (r : Resolver) (t : TypeRef) (anchor : NodeId) (reg : Bool),
    OkThat (fun p => ∀ f, ∀ x ∈ p.2.refsOf f, x ∈ r.refsOf f ∨ t.range = some x.range) (resolveTypeRef U a fuel r t anchor reg)
  | 0, _, _, _, _ => OkThat.deep
  | fuel + 1, r, t, anchor, reg => by
    unfold resolveTypeRef
    have keep : ∀ {r' : Resolver}, r'.documentReferences = r.documentReferences → ∀ f, ∀ x ∈ r'.refsOf f,
        x ∈ r.refsOf f ∨ t.range = some x.range := by
      intro r' e f x hx
      left
      rwa [refsOf, e] at hx
    split
    · exact OkThat.ok (keep rfl)
    · refine OkThat.bindOption fun ancestors ha => OkThat.bindOption fun file hf => OkThat.bindOption fun fs _ =>
        OkThat.bindOption fun root _ => OkThat.bindOption fun name _ => OkThat.bindOption fun range hr => ?_
      split
      · exact OkThat.ok (keep rfl)
      · split
        · split
          · exact OkThat.ok (keep rfl)
          · exact OkThat.ok (keep rfl)
        · split
          · split
            · refine OkThat.bindOption fun s _ => (query_uniqueParent U a fuel r s _).bind fun p hp => OkThat.ok ?_
              exact keep (hp.2 rfl)
            · exact OkThat.ok (keep rfl)
          · unfold resolveName
            refine OkThat.bindOption fun _ _ => OkThat.bindOption fun _ _ => OkThat.bindOption fun _ _ =>
              OkThat.bindOption fun _ _ => ?_
            unfold lookup
            split
            · exact OkThat.ok (keep rfl)
            · next node compName hl =>
              refine OkThat.bindOption fun s _ => OkThat.ok ?_
              intro f x hx
              have hx : x ∈ (if reg = true then r.reference file ⟨range, node⟩ else r).refsOf f := by
                revert hx
                split <;> exact fun h => h
              split at hx
              · rw [refsOf_reference] at hx
                split at hx
                · rcases List.mem_append.1 hx with hx | hx
                  · exact .inl hx
                  · rw [List.mem_singleton] at hx
                    subst hx
                    exact .inr hr
                · exact .inl hx
              · exact .inl hx

theorem Leads.later {U : Unicode} {a : Arena Symbol} {fuel : Nat} {r r' : Resolver} (hs : Went U a r r') {root : NodeId}
    {l : List SymRef} {o : Option NodeId} (h : Leads U a fuel r' root l o) : Leads U a fuel r root l o := by
  induction h with
  | nowhere => exact .nowhere
  | own h => exact .own h
  | parent h1 h2 h3 =>
    obtain ⟨r1, r2, sym, h4, h5⟩ := h3
    exact .parent h1 h2 ⟨r1, r2, sym, hs.trans h4, h5⟩
  | known h1 h2 h3 =>
    obtain ⟨r1, r2, h4, h5⟩ := h3
    exact .known h1 h2 ⟨r1, r2, hs.trans h4, h5⟩
  | unknown h1 h2 h3 _ ih =>
    obtain ⟨r1, r2, h4, h5⟩ := h3
    exact .unknown h1 h2 ⟨r1, r2, hs.trans h4, h5⟩ ih

theorem Onwards.later {U : Unicode} {a : Arena Symbol} {fuel : Nat} {r r' : Resolver} (hs : Went U a r r') {root member : NodeId}
    {o : Option NodeId} (h : Onwards U a fuel r' root member o) : Onwards U a fuel r root member o := by
  cases h with
  | typed h1 h2 h3 => exact .typed h1 h2 (h3.later hs)
  | itself h1 h2 => exact .itself h1 h2

theorem Offers.later {U : Unicode} {H : HashOrder} {a : Arena Symbol} {fuel : Nat} {r r' : Resolver} (hs : Went U a r r')
    {root : NodeId} {name : Text} {o : Option SymbolAlias} (h : Offers U H a fuel r' root name o) :
    Offers U H a fuel r root name o := by
  obtain ⟨r1, m, r2, h1, h2⟩ := h
  exact ⟨r1, m, r2, hs.trans h1, h2⟩

theorem Chain.later {U : Unicode} {H : HashOrder} {a : Arena Symbol} {fuel : Nat} {r r' : Resolver} (hs : Went U a r r')
    {minimal : Visibility} {root : NodeId} {l : List Node} {passed : List (Node × Text × SymbolAlias)} {e : Ending}
    (h : Chain U H a fuel r' minimal root l passed e) : Chain U H a fuel r minimal root l passed e := by
  induction h with
  | done => exact .done
  | theClass h => exact .theClass h
  | missing h1 h2 => exact .missing h1 (h2.later hs)
  | hidden h1 h2 h3 => exact .hidden h1 (h2.later hs) h3
  | untyped h1 h2 h3 h4 => exact .untyped h1 (h2.later hs) h3 (h4.later hs)
  | on h1 h2 h3 h4 _ ih => exact .on h1 (h2.later hs) h3 (h4.later hs) ih

/-- Where a look at the types of a member goes on. -/
def Hop.node : Hop → Option NodeId
  | .next n => some n
  | .stop => none

theorem memberTypes_leads (U : Unicode) (fuel : Nat) (fileName : Text) (range : Option NodeRange) (root : NodeId) :
    ∀ (l : List SymRef) (s : Env),
    OkThat (fun p : Hop × Env => p.2.arena = s.arena ∧ Went U s.arena s.resolver p.2.resolver ∧
      Leads U s.arena fuel s.resolver root l p.1.node ∧
      ∀ f, ∀ x ∈ p.2.resolver.refsOf f, x ∈ s.resolver.refsOf f ∨ ∃ ref ∈ l, ref.typeRef.range = some x.range)
      (memberTypes U fuel fileName range root l s)
  | [], s => OkThat.ok ⟨rfl, .start, .nowhere, fun _ _ h => .inl h⟩
  | ref :: rest, s => by
    unfold memberTypes
    refine OkThat.bindOption fun first hfirst => ?_
    split
    · next h => exact OkThat.ok ⟨rfl, .start, .own (.inl ⟨first, hfirst, h⟩), fun _ _ h => .inl h⟩
    · next hself =>
      refine OkThat.bindOption fun o ho => OkThat.bindOption fun name hname => ?_
      subst hname
      split
      · next h => exact OkThat.ok ⟨rfl, .start, .own (.inr (by rw [ho, h])), fun _ _ h => .inl h⟩
      · next hthis =>
        have hown : ¬ Own ref.typeRef := by
          rintro (⟨k, h1, h2⟩ | h)
          · rw [hfirst] at h1
            cases h1
            exact hself h2
          · rw [ho] at h
            exact hthis (Option.some.inj (Option.some.inj h))
        split
        · next hp =>
          refine OkThat.bindOption fun sym hsym => ?_
          cases he : Resolver.uniqueParent U s.arena fuel s.resolver sym root with
          | deep => exact OkThat.deep
          | panic => exact OkThat.panic
          | ok p =>
            have hq := query_uniqueParent U s.arena fuel s.resolver sym root p he
            have hg := Went.parent he
            have hx : Extends U s.arena fuel s.resolver root p.1 := ⟨_, p.2, sym, .start, hsym, he⟩
            have hrefs : ∀ f, ∀ x ∈ p.2.refsOf f, x ∈ s.resolver.refsOf f := by
              intro f x hx
              rwa [refsOf, hq.2 rfl] at hx
            rw [Out.bind_ok]
            split
            · next n hn =>
              exact OkThat.ok ⟨rfl, hg, (by rw [hn] at hx; exact .parent hown ⟨first, hfirst, hp⟩ hx), fun f x h => .inl (hrefs f x h)⟩
            · next hn =>
              refine OkThat.bindOption fun r _ => OkThat.ok ⟨rfl, hg.report _, ?_, fun f x h => .inl (hrefs f x h)⟩
              rw [hn] at hx
              exact .parent hown ⟨first, hfirst, hp⟩ hx
        · next hp =>
          have hpar : ¬ Parental ref.typeRef := by
            rintro ⟨k, h1, h2⟩
            rw [hfirst] at h1
            cases h1
            exact hp h2
          unfold Env.resolve
          cases he : Resolver.resolveTypeRef U s.arena fuel s.resolver ref.typeRef root true with
          | deep => exact OkThat.deep
          | panic => exact OkThat.panic
          | ok p =>
            have hq : Went U s.arena s.resolver p.2 := Went.start.ask he
            have ho := resolveTypeRef_only U s.arena fuel s.resolver ref.typeRef root true p he
            have hm : Means U s.arena fuel s.resolver ref.typeRef root p.1 := ⟨_, p.2, .start, he⟩
            simp only [Out.bind_ok, pure_bind]
            split
            · next n hn =>
              refine OkThat.ok ⟨rfl, hq, .known hown hpar (hn ▸ hm), fun f x h => ?_⟩
              exact (ho f x h).imp id fun h => ⟨ref, List.mem_cons_self, h⟩
            · next hn =>
              refine (memberTypes_leads U fuel fileName range root rest { s with resolver := p.2 }).mono fun q hq' => ?_
              obtain ⟨h1, h2, h3, h4⟩ := hq'
              refine ⟨h1, hq.trans h2, .unknown hown hpar (hn ▸ hm) (h3.later hq), fun f x h => ?_⟩
              rcases h4 f x h with h | ⟨k, h5, h6⟩
              · exact (ho f x h).imp id fun h => ⟨ref, List.mem_cons_self, h⟩
              · exact .inr ⟨k, List.mem_cons_of_mem _ h5, h6⟩

/-- One link: what it means, and what is recorded for it. -/
theorem link_means (U : Unicode) (H : HashOrder) (file : NodeId) (fuel : Nat) (fileName : Text) (minimal : Visibility)
    (root : NodeId) (l : Node) (s : Env) :
    OkThat (fun p : Hop × Env => p.2.arena = s.arena ∧
      match p.1 with
      | .stop => ∃ passed e, (∀ rest, Chain U H s.arena fuel s.resolver minimal root (l :: rest) passed e) ∧ e.answer = none ∧
        Noted U file fileName s.arena s.resolver p.2.resolver passed e
      | .next n => ∃ name m, Written l name ∧ Offers U H s.arena fuel s.resolver root name (some m) ∧
        Reachable minimal m.visibility ∧ Onwards U s.arena fuel s.resolver root m.symbol (some n) ∧
        Noted U file fileName s.arena s.resolver p.2.resolver [(l, name, m)] (.reached n))
      (link U H file fuel fileName minimal root l s) := by
  unfold link
  refine OkThat.bindOption fun o ho => ?_
  split
  · refine OkThat.ok ⟨rfl, [], .theClass, fun rest => .theClass (linkName_none ho), rfl, ?_⟩
    exact ⟨.start, nofun, fun _ _ h => .inl h, nofun, nofun, nofun, fun _ _ => rfl⟩
  · next name =>
    have hw := linkName_some ho
    cases he : Resolver.allSymbols U H s.arena fuel s.resolver root with
    | deep => exact OkThat.deep
    | panic => exact OkThat.panic
    | ok m =>
      have hq := query_allSymbols U H s.arena fuel s.resolver root m he
      have hg := Went.members he
      have hrefs : ∀ f, ∀ x ∈ m.2.refsOf f, x ∈ s.resolver.refsOf f := by
        intro f x hx
        rwa [refsOf, hq.2 rfl] at hx
      have hof : Offers U H s.arena fuel s.resolver root name (Dict.get? m.1 (U.lower name)) :=
        ⟨_, m.1, m.2, .start, he, rfl⟩
      rw [Out.bind_ok]
      dsimp only
      split
      · next hno =>
        rw [hno] at hof
        refine OkThat.bindOption fun range hrange => OkThat.bindOption fun shown hshown => OkThat.ok
          ⟨rfl, [], .missing l, fun rest => .missing hw hof, rfl, ?_⟩
        refine ⟨hg.report _, nofun, fun f x h => .inl (hrefs f x h), nofun, ?_, nofun, nofun⟩
        rintro l' ⟨⟩
        exact ⟨range, shown, hrange, hshown, List.mem_append_right _ List.mem_cons_self⟩
      · next child hch =>
        rw [hch] at hof
        refine OkThat.bindOption fun sym hsym => ?_
        split
        · next hge =>
          have hreach := (ge_iff _ _).1 hge
          refine OkThat.bind (Q := fun s1 : Env => s1.arena = s.arena ∧ Went U s.arena m.2 s1.resolver ∧
              s1.resolver.documentReferences = m.2.documentReferences ∧
              (child.alias ≠ name → ∃ range, l.range = some range ∧
                ⟨fileName, c!"Case mismatch between call and definition", range, .warning⟩ ∈ s1.resolver.diagnostics)) ?_
            fun s1 h1 => ?_
          · split
            · refine OkThat.bindOption fun range hrange => OkThat.ok ⟨rfl, Went.start.report _, rfl, fun _ => ⟨range, hrange, ?_⟩⟩
              exact List.mem_append_right _ List.mem_cons_self
            · next hsame => exact OkThat.ok ⟨rfl, .start, rfl, fun h => absurd h hsame⟩
          · obtain ⟨ha1, hs1, hd1, hc1⟩ := h1
            have hrefs1 : ∀ f, ∀ x ∈ s1.resolver.refsOf f, x ∈ s.resolver.refsOf f := by
              intro f x hx
              rw [refsOf, hd1] at hx
              exact hrefs f x hx
            refine OkThat.bind (Q := fun s2 : Env => s2.arena = s.arena ∧ Went U s.arena s1.resolver s2.resolver ∧
                (∀ t, tokenOf l = some t → ∃ range, t.range = some range ∧ ⟨range, child.symbol⟩ ∈ s2.resolver.refsOf file) ∧
                (∀ f, ∀ x ∈ s2.resolver.refsOf f, x ∈ s.resolver.refsOf f ∨
                  (f = file ∧ ∃ t, tokenOf l = some t ∧ t.range = some x.range ∧ x.node = child.symbol))) ?_
              fun s2 h2 => ?_
            · have put : ∀ token, tokenOf l = some token → OkThat (fun s2 : Env => s2.arena = s.arena ∧
                  Went U s.arena s1.resolver s2.resolver ∧
                  (∀ t, tokenOf l = some t → ∃ range, t.range = some range ∧ ⟨range, child.symbol⟩ ∈ s2.resolver.refsOf file) ∧
                  (∀ f, ∀ x ∈ s2.resolver.refsOf f, x ∈ s.resolver.refsOf f ∨
                    (f = file ∧ ∃ t, tokenOf l = some t ∧ t.range = some x.range ∧ x.node = child.symbol)))
                  (s1.refLocal file token child.symbol) := by
                intro token htok
                unfold refLocal referenceLocal
                rw [bind_assoc]
                refine OkThat.bindOption fun range hrange => ?_
                refine OkThat.ok ⟨ha1, Went.start.note _ _, ?_, ?_⟩
                · intro t ht
                  rw [htok] at ht
                  cases ht
                  refine ⟨range, hrange, ?_⟩
                  rw [refsOf_reference, if_pos rfl]
                  exact List.mem_append_right _ List.mem_cons_self
                · intro f x hx
                  rw [refsOf_reference] at hx
                  split at hx
                  · next hf =>
                    rcases List.mem_append.1 hx with hx | hx
                    · exact .inl (hrefs1 f x hx)
                    · rw [List.mem_singleton] at hx
                      subst hx
                      exact .inr ⟨hf, token, htok, hrange, rfl⟩
                  · exact .inl (hrefs1 f x hx)
              split
              · exact put _ rfl
              · exact put _ rfl
              · next hv hl =>
                refine OkThat.ok ⟨ha1, .start, ?_, fun f x hx => .inl (hrefs1 f x hx)⟩
                intro t ht
                cases l
                case «variable» => exact absurd rfl (hv _)
                case literal => exact absurd rfl (hl _)
                all_goals cases ht
            · obtain ⟨ha2, hs2, hn2, ho2⟩ := h2
              have hstep : Went U s.arena s.resolver s2.resolver := hg.trans (hs1.trans hs2)
              have noted : ∀ (s3 : Env) (e : Ending), s3.arena = s.arena → Went U s.arena s2.resolver s3.resolver →
                  (∀ f, ∀ x ∈ s3.resolver.refsOf f, x ∈ s2.resolver.refsOf f ∨ ∃ ref ∈ sym.dataTypes, ref.typeRef.range = some x.range) →
                  (∀ l', e ≠ .missing l') → (∀ l', e ≠ .hidden l') →
                  Noted U file fileName s.arena s.resolver s3.resolver [(l, name, child)] e := by
                intro s3 e h3 hs3 hr3 hm hh
                refine ⟨hstep.trans hs3, ?_, ?_, ?_, fun l' h => absurd h (hm l'), fun l' h => absurd h (hh l'), fun _ => nofun⟩
                · intro p hp t ht
                  rw [List.mem_singleton] at hp
                  subst hp
                  obtain ⟨range, h4, h5⟩ := hn2 t ht
                  exact ⟨range, h4, (hs3.step.refs file).subset h5⟩
                · intro f x hx
                  rcases hr3 f x hx with hx | ⟨ref, h4, h5⟩
                  · rcases ho2 f x hx with hx | ⟨h6, t, h7⟩
                    · exact .inl hx
                    · exact .inr (.inl ⟨h6, _, List.mem_cons_self, t, h7⟩)
                  · exact .inr (.inr ⟨_, List.mem_cons_self, sym, hsym, ref, h4, h5⟩)
                · intro p hp hne
                  rw [List.mem_singleton] at hp
                  subst hp
                  obtain ⟨range, h4, h5⟩ := hc1 hne
                  exact ⟨range, h4, (hs2.trans hs3).step.diagnostics.subset h5⟩
              split
              · next hk =>
                refine (memberTypes_leads U fuel fileName l.range root sym.dataTypes s2).mono fun q hq' => ?_
                obtain ⟨h3, h4, h5, h6⟩ := hq'
                rw [ha2] at h4 h5
                have hon : Onwards U s.arena fuel s.resolver root child.symbol q.1.node :=
                  .typed hsym hk (h5.later hstep)
                refine ⟨h3.trans ha2, ?_⟩
                obtain ⟨hop, s3⟩ := q
                cases hop with
                | stop =>
                  exact ⟨[(l, name, child)], .untyped l, fun rest => .untyped hw hof hreach hon, rfl,
                    noted s3 _ (h3.trans ha2) h4 h6 (fun _ => nofun) (fun _ => nofun)⟩
                | next n =>
                  exact ⟨name, child, hw, hof, hreach, hon, noted s3 _ (h3.trans ha2) h4 h6 (fun _ => nofun) (fun _ => nofun)⟩
              · next hk =>
                exact OkThat.ok ⟨ha2, name, child, hw, hof, hreach, .itself hsym hk,
                  noted s2 _ ha2 .start (fun _ _ h => .inl h) (fun _ => nofun) (fun _ => nofun)⟩
        · next hge =>
          have hreach : ¬ Reachable minimal child.visibility := fun h => hge ((ge_iff _ _).2 h)
          refine OkThat.bindOption fun range hrange => OkThat.ok
            ⟨rfl, [], .hidden l, fun rest => .hidden hw hof hreach, rfl, ?_⟩
          refine ⟨hg.report _, nofun, fun f x h => .inl (hrefs f x h), nofun, nofun, ?_, nofun⟩
          rintro l' ⟨⟩
          exact ⟨range, hrange, List.mem_append_right _ List.mem_cons_self⟩

/-! ## C65 -/

/-- **C65, the links.**  Whenever the links of a member access are looked up from a class, the answer is the end of the chain
they mean: each name is looked up among the members of the class reached, the members passed can be used from there, and exactly
their names are recorded, together with the types that were looked up on the way. -/
theorem C65_links (U : Unicode) (H : HashOrder) (file : NodeId) (fuel : Nat) (fileName : Text) (minimal : Visibility) :
    ∀ (chain : List Node) (root : NodeId) (s s' : Env) (o : Option NodeId),
    links U H file fuel fileName minimal root chain s = .ok (o, s') →
    s'.arena = s.arena ∧ ∃ passed e, Chain U H s.arena fuel s.resolver minimal root chain passed e ∧ o = e.answer ∧
      Noted U file fileName s.arena s.resolver s'.resolver passed e
  | [], root, s, s', o, h => by
    cases h
    exact ⟨rfl, [], .reached root, .done, rfl, .start, nofun, fun _ _ h => .inl h, nofun, nofun, nofun, nofun⟩
  | l :: rest, root, s, s', o, h => by
    unfold links at h
    obtain ⟨p, h1, h2⟩ := Out.bind_eq_ok h
    obtain ⟨ha, hp⟩ := link_means U H file fuel fileName minimal root l s p h1
    obtain ⟨hop, s1⟩ := p
    cases hop with
    | stop =>
      cases h2
      obtain ⟨passed, e, h3, h4, h5⟩ := hp
      exact ⟨ha, passed, e, h3 rest, h4.symm, h5⟩
    | next n =>
      obtain ⟨name, m, h3, h4, h5, h6, h7⟩ := hp
      obtain ⟨h8, passed, e, h9, h10, h11⟩ := C65_links U H file fuel fileName minimal rest n s1 s' o h2
      have ha : s1.arena = s.arena := ha
      rw [ha] at h8 h9 h11
      refine ⟨h8, (l, name, m) :: passed, e, .on h3 h4 h5 h6 (h9.later h7.went), h10, ?_⟩
      refine ⟨h7.went.trans h11.went, ?_, ?_, ?_, h11.missing, h11.hidden, nofun⟩
      · intro p hp t ht
        rcases List.mem_cons.1 hp with rfl | hp
        · obtain ⟨range, h12, h13⟩ := h7.names _ List.mem_cons_self t ht
          exact ⟨range, h12, (h11.went.step.refs file).subset h13⟩
        · exact h11.names p hp t ht
      · intro f x hx
        rcases h11.only f x hx with hx | ⟨h12, p, hp, h13⟩ | ⟨p, hp, h13⟩
        · rcases h7.only f x hx with hx | ⟨h12, p, hp, h13⟩ | ⟨p, hp, h13⟩
          · exact .inl hx
          · rw [List.mem_singleton] at hp
            exact .inr (.inl ⟨h12, p, hp ▸ List.mem_cons_self, h13⟩)
          · rw [List.mem_singleton] at hp
            exact .inr (.inr ⟨p, hp ▸ List.mem_cons_self, h13⟩)
        · exact .inr (.inl ⟨h12, p, List.mem_cons_of_mem _ hp, h13⟩)
        · exact .inr (.inr ⟨p, List.mem_cons_of_mem _ hp, h13⟩)
      · intro p hp hne
        rcases List.mem_cons.1 hp with rfl | hp
        · obtain ⟨range, h12, h13⟩ := h7.cases _ List.mem_cons_self hne
          exact ⟨range, h12, h11.went.step.diagnostics.subset h13⟩
        · exact h11.cases p hp hne

/-! ## Where the chain begins -/

/-- What is done before the beginning of a chain is looked at: an argument or a subscript is looked up, or a variable is
assigned. -/
inductive Effect where
  | look (n : Node)
  | assign (v : Token) (n : Node)

/-- The effects take place one after the other; `call` looks an expression up.  A variable that is assigned is declared, unless
it is known already; its new symbol has the type found. -/
inductive Done (file : NodeId) (call : Env → Node → Out (Option NodeId × Env)) : Env → List Effect → Env → Prop
  | nil {s} : Done file call s [] s
  | look {s n o s1 rest s2} : call s n = .ok (o, s1) → Done file call s1 rest s2 → Done file call s (.look n :: rest) s2
  | assign {s v n o s1 sym id s2 d s3 rest s4} : call s n = .ok (o, s1) → assigned v o = .ok sym → s1.addVar sym = .ok (id, s2) →
      s2.declareNew file v id = .ok (d, s3) → Done file call s3 rest s4 → Done file call s (.assign v n :: rest) s4

/-- The expression is a chain of member accesses, calls and subscripts that begins with `base`; the links in order, and what is
done before, in its order: from the outside to the inside.  The beginning `$a[i]` is `$a[]` after the subscript is looked up. -/
inductive Spine : Node → Node → List Node → List Effect → Prop
  | base {base} : Spine base base [] []
  | member {base object arrow t l t' chain es} : Spine base object chain es →
      Spine base (.member object arrow t l t') (chain ++ [l]) es
  | static {base object arrow t l t' chain es} : Spine base object chain es →
      Spine base (.staticMember object arrow t l t') (chain ++ [l]) es
  | call {base callee ob ps cb chain es} : Spine base callee chain es →
      Spine base (.call callee ob ps cb) chain (ps.map .look ++ es)
  | new {base k cls chain es} : Spine base cls chain es → Spine base (.newExpr k cls) chain es
  | clone {base k object chain es} : Spine base object chain es → Spine base (.cloneExpr k object) chain es
  | unary {base k inside chain es} : Spine base inside chain es → Spine base (.unary inside k) chain es
  | grouping {base inside chain es} : Spine base inside chain es → Spine base (.grouping inside) chain es
  | assignment {v k right} : k.t = .assignment → Spine (.variable v) (.binary (.variable v) k right) [] [.assign v right]
  | element {c ob i cb} : Spine (.field (.variable c) ob none cb) (.field (.variable c) ob (some i) cb) [] [.look i]
  | elementOfMember {base object arrow t l t' ob i cb chain es} : Spine base object chain es →
      Spine base (.field (.member object arrow t l t') ob i cb) (chain ++ [l]) ((i.toList.map .look) ++ es)
  | elementOfElement {base array ob i cb ob' i' cb' chain es} : Spine base array chain es →
      Spine base (.field (.field array ob' i' cb') ob i cb) chain ((i.toList.map .look) ++ ((i'.toList.map .look) ++ es))

/-- Where the types of the variable `n` lead, and from where its members are used then: the members of the current class are
used from inside. -/
inductive VariableOf (U : Unicode) (s : Env) (n : NodeId) : List SymRef → NodeId → Visibility → Prop
  | untyped : VariableOf U s n [] n .public
  | inside {ref rest k} : ref.node = some k → s.resolver.currentClass = some k → VariableOf U s n (ref :: rest) k .private
  | outside {ref rest k} : ref.node = some k → s.resolver.currentClass ≠ some k → VariableOf U s n (ref :: rest) k .public
  | known {ref rest k fuel} : ref.node = none → Means U s.arena fuel s.resolver ref.typeRef n (some k) →
      VariableOf U s n (ref :: rest) k .public
  | unknown {ref rest k v fuel} : ref.node = none → Means U s.arena fuel s.resolver ref.typeRef n none →
      VariableOf U s n rest k v → VariableOf U s n (ref :: rest) k v

/-- The class a chain begins with, and from where its members are used: private members through `$this`, `self` and `static`,
protected ones through `parent`, public ones through a name. -/
inductive Origin (U : Unicode) (s : Env) : Node → Option NodeId → Visibility → Prop
  | this {t n} : t.label = some c!"this" → s.resolver.getLocal t = some n → Origin U s (.variable t) (some n) .private
  | variable {t n name sym k v} : t.label = some name → name ≠ c!"this" → s.resolver.getLocal t = some n →
      s.arena.get? n = some sym → VariableOf U s n sym.dataTypes k v → Origin U s (.variable t) (some k) v
  | undeclared {t} : s.resolver.getLocal t = none → Origin U s (.variable t) none .public
  | self {t} : t.t = .typeSelf ∨ t.t = .kwStatic → Origin U s (.literal t) s.resolver.currentClass .private
  | parent {t c o fuel} : t.t = .kwParent → s.resolver.currentClass = some c → Extends U s.arena fuel s.resolver c o →
      Origin U s (.literal t) o .protected
  | orphan {t} : t.t = .kwParent → s.resolver.currentClass = none → Origin U s (.literal t) none .protected
  | string {t} : t.t = .constantEncapsedString ∨ t.t = .encapsedAndWhitespaceString → Origin U s (.literal t) none .public
  | name {t o fuel} : t.t ∉ [.typeSelf, .kwStatic, .kwParent, .constantEncapsedString, .encapsedAndWhitespaceString] →
      Means U s.arena fuel s.resolver (.one [t]) s.resolver.scopeContainer o → Origin U s (.literal t) o .public
  | type {t o fuel} : Means U s.arena fuel s.resolver t s.resolver.scopeContainer o → Origin U s (.typeRef t) o .public
  | element {c ob cb n sym before ref after k} : s.resolver.getLocal c = some n → s.arena.get? n = some sym →
      sym.dataTypes = before ++ ref :: after → (∀ x ∈ before, x.typeRef.multiple = true → x.node = none) →
      ref.typeRef.multiple = true → ref.node = some k → Origin U s (.field (.variable c) ob none cb) (some k) .public
  | noElement {c ob cb n sym} : s.resolver.getLocal c = some n → s.arena.get? n = some sym →
      (∀ x ∈ sym.dataTypes, x.typeRef.multiple = true → x.node = none) → Origin U s (.field (.variable c) ob none cb) none .public
  | noCollection {c ob cb} : s.resolver.getLocal c = none → Origin U s (.field (.variable c) ob none cb) none .public

/-- The expression a chain can begin with. -/
def Basic : Node → Prop
  | .variable _ => True
  | .literal _ => True
  | .typeRef _ => True
  | .field (.variable _) _ none _ => True
  | _ => False

/-- The variable a chain begins with. -/
def startVariable : Node → Option Token
  | .variable t => some t
  | .field (.variable t) _ _ _ => some t
  | _ => none

theorem Done.foldl {file : NodeId} {call : Env → Node → Out (Option NodeId × Env)} {Q : Root × Env → Prop}
    {k : Env → Out (Root × Env)} {es : List Effect} : ∀ (ns : List Node) (s : Env),
    (∀ s', (∀ s1, Done file call s' es s1 → Done file call s (ns.map .look ++ es) s1) → OkThat Q (k s')) →
    OkThat Q (ns.foldlM (fun s p => do let q ← call s p; pure q.2) s >>= k)
  | [], s, h => h s fun _ h => h
  | n :: ns, s, h => by
    rw [List.foldlM_cons, bind_assoc]
    cases hc : call s n with
    | deep => exact OkThat.deep
    | panic => exact OkThat.panic
    | ok p =>
      rw [Out.bind_ok]
      exact Done.foldl ns p.2 fun s' hs' => h s' fun s1 h1 => .look hc (hs' s1 h1)

theorem Done.option {file : NodeId} {call : Env → Node → Out (Option NodeId × Env)} {Q : Root × Env → Prop}
    {k : Env → Out (Root × Env)} {es : List Effect} (i : Option Node) (s : Env)
    (h : ∀ s', (∀ s1, Done file call s' es s1 → Done file call s (i.toList.map .look ++ es) s1) → OkThat Q (k s')) :
    OkThat Q ((match i with
      | some i => do let p ← call s i; pure p.2
      | none => pure s) >>= k) := by
  cases i with
  | none => exact h s fun _ h => h
  | some i =>
    dsimp only
    rw [bind_assoc]
    cases hc : call s i with
    | deep => exact OkThat.deep
    | panic => exact OkThat.panic
    | ok p => exact h p.2 fun s1 h1 => .look hc h1

theorem rootOf_spine {U : Unicode} {file : NodeId} {call : Env → Node → Out (Option NodeId × Env)} {node base : Node}
    {Q : Root × Env → Prop} {cur : Node} {chain : List Node} {es : List Effect} (h : Spine base cur chain es) :
    ∀ (s : Env) (acc : List Node) (fuel : Nat),
    (∀ s1, Done file call s es s1 → ∀ fuel, OkThat Q (rootOf U file call node fuel base (chain ++ acc) s1)) →
    OkThat Q (rootOf U file call node fuel cur acc s) := by
  induction h with
  | base => exact fun s acc fuel h => h s .nil fuel
  | member _ ih | static _ ih =>
    intro s acc fuel hq
    cases fuel with
    | zero => exact OkThat.deep
    | succ fuel =>
      rw [rootOf]
      exact ih _ _ _ fun s1 h1 fuel => by simpa using hq s1 h1 fuel
  | call _ ih =>
    intro s acc fuel hq
    cases fuel with
    | zero => exact OkThat.deep
    | succ fuel =>
      rw [rootOf]
      exact Done.foldl _ s fun s' hs' => ih _ _ _ fun s1 h1 => hq s1 (hs' s1 h1)
  | new _ ih | clone _ ih | unary _ ih | grouping _ ih =>
    intro s acc fuel hq
    cases fuel with
    | zero => exact OkThat.deep
    | succ fuel =>
      rw [rootOf]
      exact ih _ _ _ hq
  | assignment hk =>
    rename_i v k right
    intro s acc fuel hq
    cases fuel with
    | zero => exact OkThat.deep
    | succ fuel =>
      rw [rootOf, if_pos hk]
      cases h1 : call s right with
      | deep => exact OkThat.deep
      | panic => exact OkThat.panic
      | ok d =>
        rw [Out.bind_ok]
        cases h2 : assigned v d.1 with
        | deep => exact OkThat.deep
        | panic => exact OkThat.panic
        | ok sym =>
          rw [Out.bind_ok]
          cases h3 : d.2.addVar sym with
          | deep => exact OkThat.deep
          | panic => exact OkThat.panic
          | ok c =>
            rw [Out.bind_ok]
            cases h4 : c.2.declareNew file v c.1 with
            | deep => exact OkThat.deep
            | panic => exact OkThat.panic
            | ok e =>
              rw [Out.bind_ok]
              exact hq _ (.assign h1 h2 h3 h4 .nil) fuel
  | element =>
    rename_i c ob i cb
    intro s acc fuel hq
    cases fuel with
    | zero => exact OkThat.deep
    | succ fuel =>
      rw [rootOf]
      dsimp only
      rw [bind_assoc]
      cases h1 : call s i with
      | deep => exact OkThat.deep
      | panic => exact OkThat.panic
      | ok p =>
        rw [Out.bind_ok, pure_bind]
        have := hq p.2 (.look h1 .nil) (fuel + 1)
        rw [rootOf] at this
        exact this
  | elementOfMember _ ih =>
    intro s acc fuel hq
    cases fuel with
    | zero => exact OkThat.deep
    | succ fuel =>
      unfold rootOf
      exact Done.option _ s fun s' hs' => ih _ _ _ fun s1 h1 fuel => by simpa using hq s1 (hs' s1 h1) fuel
  | elementOfElement _ ih =>
    intro s acc fuel hq
    cases fuel with
    | zero => exact OkThat.deep
    | succ fuel =>
      unfold rootOf
      exact Done.option _ s fun s' hs' => Done.option _ s' fun s'' hs'' => ih _ _ _ fun s1 h1 => hq s1 (hs' s1 (hs'' s1 h1))

theorem variableType_of (U : Unicode) (fuel : Nat) (n : NodeId) : ∀ (l : List SymRef) (s : Env),
    OkThat (fun p : (NodeId × Visibility) × Env => p.2.arena = s.arena ∧ Went U s.arena s.resolver p.2.resolver ∧
      (∀ f, ∀ x ∈ p.2.resolver.refsOf f, x ∈ s.resolver.refsOf f ∨ ∃ ref ∈ l, ref.typeRef.range = some x.range) ∧
      VariableOf U s n l p.1.1 p.1.2) (variableType U fuel n l s)
  | [], s => OkThat.ok ⟨rfl, .start, fun _ _ h => .inl h, .untyped⟩
  | ref :: rest, s => by
    unfold variableType
    cases hn : ref.node with
    | some k =>
      dsimp only
      split
      · next h => exact OkThat.ok ⟨rfl, .start, fun _ _ h => .inl h, .inside hn h⟩
      · next h => exact OkThat.ok ⟨rfl, .start, fun _ _ h => .inl h, .outside hn h⟩
    | none =>
      dsimp only
      unfold Env.resolve
      cases he : Resolver.resolveTypeRef U s.arena fuel s.resolver ref.typeRef n true with
      | deep => exact OkThat.deep
      | panic => exact OkThat.panic
      | ok p =>
        have hq : Went U s.arena s.resolver p.2 := Went.start.ask he
        have hm : Means U s.arena fuel s.resolver ref.typeRef n p.1 := ⟨_, p.2, .start, he⟩
        have ho := resolveTypeRef_only U s.arena fuel s.resolver ref.typeRef n true p he
        simp only [Out.bind_ok, pure_bind]
        split
        · next k hk => exact OkThat.ok ⟨rfl, hq, fun f x h => (ho f x h).imp id fun h => ⟨ref, List.mem_cons_self, h⟩,
            .known hn (hk ▸ hm)⟩
        · next hk =>
          refine (variableType_of U fuel n rest { s with resolver := p.2 }).mono fun q hq' => ?_
          obtain ⟨h1, h2, h4, h3⟩ := hq'
          refine ⟨h1, hq.trans h2, fun f x h => ?_, .unknown hn (hk ▸ hm) ?_⟩
          · rcases h4 f x h with h | ⟨k, h5, h6⟩
            · exact (ho f x h).imp id fun h => ⟨ref, List.mem_cons_self, h⟩
            · exact .inr ⟨k, List.mem_cons_of_mem _ h5, h6⟩
          clear h1 h2 h4
          generalize q.1.1 = k at h3
          generalize q.1.2 = v at h3
          induction h3 with
          | untyped => exact .untyped
          | inside h1 h2 => exact .inside h1 (hq.step.currentClass ▸ h2)
          | outside h1 h2 => exact .outside h1 (hq.step.currentClass ▸ h2)
          | known h1 h2 =>
            obtain ⟨r1, r2, h4, h5⟩ := h2
            exact .known h1 ⟨r1, r2, hq.trans h4, h5⟩
          | unknown h1 h2 _ ih =>
            obtain ⟨r1, r2, h4, h5⟩ := h2
            exact .unknown h1 ⟨r1, r2, hq.trans h4, h5⟩ ih

theorem VariableOf.later {U : Unicode} {s s' : Env} (ha : s'.arena = s.arena) (hs : Went U s.arena s.resolver s'.resolver) {n : NodeId}
    {l : List SymRef} {k : NodeId} {v : Visibility} (h : VariableOf U s' n l k v) : VariableOf U s n l k v := by
  induction h with
  | untyped => exact .untyped
  | inside h1 h2 => exact .inside h1 (hs.step.currentClass ▸ h2)
  | outside h1 h2 => exact .outside h1 (hs.step.currentClass ▸ h2)
  | known h1 h2 =>
    obtain ⟨r1, r2, h4, h5⟩ := h2
    exact .known h1 ⟨r1, r2, hs.trans (ha ▸ h4), ha ▸ h5⟩
  | unknown h1 h2 _ ih =>
    obtain ⟨r1, r2, h4, h5⟩ := h2
    exact .unknown h1 ⟨r1, r2, hs.trans (ha ▸ h4), ha ▸ h5⟩ ih

/-- The references a beginning may be recorded with: the variable, a type of the variable, or the name. -/
def Begins (s : Env) (file : NodeId) (base : Node) (f : NodeId) (x : NameRef) : Prop :=
  (∃ t n, startVariable base = some t ∧ s.resolver.getLocal t = some n ∧
    (f = file ∧ t.range = some x.range ∧ x.node = n ∨
      ∃ sym, s.arena.get? n = some sym ∧ ∃ ref ∈ sym.dataTypes, ref.typeRef.range = some x.range)) ∨
  (∃ t, base = .literal t ∧ (TypeRef.one [t]).range = some x.range) ∨
  ∃ t, base = .typeRef t ∧ t.range = some x.range

/-- What the first loop finds for a basic expression. -/
theorem rootOf_basic (U : Unicode) (file : NodeId) (call : Env → Node → Out (Option NodeId × Env)) (node base : Node)
    (hb : Basic base) (chain : List Node) (s : Env) : ∀ fuel : Nat,
    OkThat (fun p : Root × Env => p.2.arena = s.arena ∧ Went U s.arena s.resolver p.2.resolver ∧
      (∀ t n, startVariable base = some t → s.resolver.getLocal t = some n →
        ∃ range, t.range = some range ∧ ⟨range, n⟩ ∈ p.2.resolver.refsOf file) ∧
      (∀ f, ∀ x ∈ p.2.resolver.refsOf f, x ∈ s.resolver.refsOf f ∨ Begins s file base f x) ∧
      ((p.1 = .returned none ∧ ∃ v, Origin U s base none v) ∨
        ∃ o v, p.1 = .root o v chain ∧ Origin U s base o v))
      (rootOf U file call node fuel base chain s)
  | 0 => OkThat.deep
  | fuel + 1 => by
    cases base
    case «variable» t =>
      rw [rootOf]
      cases hg : s.resolver.getLocal t with
      | none =>
        refine OkThat.ok ⟨rfl, .start, ?_, fun _ _ h => .inl h, .inl ⟨rfl, _, .undeclared hg⟩⟩
        rintro t' n ⟨⟩ h
        rw [hg] at h
        cases h
      | some n =>
        dsimp only
        unfold refLocal referenceLocal
        rw [bind_assoc, bind_assoc]
        refine OkThat.bindOption fun range hrange => ?_
        simp only [pure_bind]
        have hs1 : Went U s.arena s.resolver (s.resolver.reference file ⟨range, n⟩) := Went.start.note _ _
        have hmem : ⟨range, n⟩ ∈ (s.resolver.reference file ⟨range, n⟩).refsOf file := by
          rw [refsOf_reference, if_pos rfl]
          exact List.mem_append_right _ List.mem_cons_self
        have hbeg : ∀ f, ∀ x ∈ (s.resolver.reference file ⟨range, n⟩).refsOf f, x ∈ s.resolver.refsOf f ∨
            Begins s file (.variable t) f x := by
          intro f x hx
          rw [refsOf_reference] at hx
          split at hx
          · next hf =>
            rcases List.mem_append.1 hx with hx | hx
            · exact .inl hx
            · rw [List.mem_singleton] at hx
              subst hx
              exact .inr (.inl ⟨t, n, rfl, hg, .inl ⟨hf, hrange, rfl⟩⟩)
          · exact .inl hx
        have hrec : ∀ r' : Resolver, Went U s.arena (s.resolver.reference file ⟨range, n⟩) r' → ∀ t' n', startVariable (.variable t) = some t' →
            s.resolver.getLocal t' = some n' → ∃ range, t'.range = some range ∧ ⟨range, n'⟩ ∈ r'.refsOf file := by
          rintro r' hr t' n' ⟨⟩ h
          rw [hg] at h
          cases h
          exact ⟨range, hrange, (hr.step.refs file).subset hmem⟩
        split
        · next hl =>
          exfalso
          unfold Resolver.getLocal at hg
          rw [hl] at hg
          cases hg
        · next name hl =>
          split
          · next hthis =>
            exact OkThat.ok ⟨rfl, hs1, (by exact hrec _ .start), hbeg, .inr ⟨_, _, rfl, .this (hthis ▸ hl) hg⟩⟩
          · next hthis =>
            refine OkThat.bindOption fun sym hsym => ?_
            refine (variableType_of U fuel n sym.dataTypes _).bind fun p hp => ?_
            obtain ⟨h1, h2, h4, h3⟩ := hp
            refine OkThat.ok ⟨h1, hs1.trans h2, hrec _ h2, fun f x hx => ?_, .inr ⟨_, _, rfl, ?_⟩⟩
            · rcases h4 f x hx with hx | hx
              · exact hbeg f x hx
              · exact .inr (.inl ⟨t, n, rfl, hg, .inr ⟨sym, hsym, hx⟩⟩)
            exact .variable hl hthis hg hsym (h3.later (by rfl) (by exact hs1))
    case literal t =>
      rw [rootOf]
      have hno : ∀ r' : Resolver, ∀ t' n, startVariable (.literal t) = some t' → s.resolver.getLocal t' = some n →
          ∃ range, t'.range = some range ∧ ⟨range, n⟩ ∈ r'.refsOf file := fun _ _ _ => nofun
      split
      · next h => exact OkThat.ok ⟨rfl, .start, hno _, fun _ _ h => .inl h, .inr ⟨_, _, rfl, .self h⟩⟩
      · next h1 =>
        split
        · next h2 =>
          split
          · next hc => exact OkThat.ok ⟨rfl, .start, hno _, fun _ _ h => .inl h, .inl ⟨rfl, _, .orphan h2 hc⟩⟩
          · next c hc =>
            refine OkThat.bindOption fun sym hsym => ?_
            cases he : Resolver.uniqueParent U s.arena fuel s.resolver sym c with
            | deep => exact OkThat.deep
            | panic => exact OkThat.panic
            | ok p =>
              have hq := Went.parent he
              have hsame := (query_uniqueParent U s.arena fuel s.resolver sym c p he).2 rfl
              rw [Out.bind_ok]
              exact OkThat.ok ⟨rfl, hq, hno _, fun f x hx => .inl (by rwa [refsOf, hsame] at hx), .inr ⟨_, _, rfl, .parent h2 hc ⟨_, p.2, sym, .start, hsym, he⟩⟩⟩
        · next h2 =>
          split
          · next h3 => exact OkThat.ok ⟨rfl, .start, hno _, fun _ _ h => .inl h, .inl ⟨rfl, _, .string h3⟩⟩
          · next h3 =>
            unfold Env.resolve
            cases he : Resolver.resolveTypeRef U s.arena fuel s.resolver (.one [t]) s.resolver.scopeContainer true with
            | deep => exact OkThat.deep
            | panic => exact OkThat.panic
            | ok p =>
              have hq : Went U s.arena s.resolver p.2 := Went.start.ask he
              refine OkThat.ok ⟨rfl, hq, hno _, fun f x hx => (resolveTypeRef_only U s.arena fuel s.resolver _ _ true p he f x hx).imp id
                fun h => .inr (.inl ⟨t, rfl, h⟩), .inr ⟨_, _, rfl, .name ?_ ⟨_, p.2, .start, he⟩⟩⟩
              simp only [not_or] at h1 h3
              simp [h1, h2, h3]
    case typeRef t =>
      rw [rootOf]
      unfold Env.resolve
      cases he : Resolver.resolveTypeRef U s.arena fuel s.resolver t s.resolver.scopeContainer true with
      | deep => exact OkThat.deep
      | panic => exact OkThat.panic
      | ok p =>
        have hq : Went U s.arena s.resolver p.2 := Went.start.ask he
        have hm : Means U s.arena fuel s.resolver t s.resolver.scopeContainer p.1 := ⟨_, p.2, .start, he⟩
        have ho : ∀ f, ∀ x ∈ p.2.refsOf f, x ∈ s.resolver.refsOf f ∨ Begins s file (.typeRef t) f x := fun f x hx =>
          (resolveTypeRef_only U s.arena fuel s.resolver _ _ true p he f x hx).imp id fun h => .inr (.inr ⟨t, rfl, h⟩)
        simp only [Out.bind_ok, pure_bind]
        split
        · next n hn => exact OkThat.ok ⟨rfl, hq, fun _ _ => nofun, ho, .inr ⟨_, _, rfl, .type (hn ▸ hm)⟩⟩
        · next hn => exact OkThat.ok ⟨rfl, hq, fun _ _ => nofun, ho, .inl ⟨rfl, _, .type (hn ▸ hm)⟩⟩
    case field a ob i cb =>
      cases a <;> try cases hb
      rename_i c
      cases i with
      | some i => cases hb
      | none =>
        rw [rootOf]
        dsimp only
        rw [pure_bind]
        cases hg : s.resolver.getLocal c with
        | none =>
          refine OkThat.ok ⟨rfl, .start, ?_, fun _ _ h => .inl h, .inl ⟨rfl, _, .noCollection hg⟩⟩
          rintro t' n ⟨⟩ h
          rw [hg] at h
          cases h
        | some n =>
          dsimp only
          unfold refLocal referenceLocal
          rw [bind_assoc, bind_assoc]
          refine OkThat.bindOption fun range hrange => ?_
          simp only [pure_bind]
          have hs1 : Went U s.arena s.resolver (s.resolver.reference file ⟨range, n⟩) := Went.start.note _ _
          have hmem : ⟨range, n⟩ ∈ (s.resolver.reference file ⟨range, n⟩).refsOf file := by
            rw [refsOf_reference, if_pos rfl]
            exact List.mem_append_right _ List.mem_cons_self
          have hbeg : ∀ f, ∀ x ∈ (s.resolver.reference file ⟨range, n⟩).refsOf f, x ∈ s.resolver.refsOf f ∨
              Begins s file (.field (.variable c) ob none cb) f x := by
            intro f x hx
            rw [refsOf_reference] at hx
            split at hx
            · next hf =>
              rcases List.mem_append.1 hx with hx | hx
              · exact .inl hx
              · rw [List.mem_singleton] at hx
                subst hx
                exact .inr (.inl ⟨c, n, rfl, hg, .inl ⟨hf, hrange, rfl⟩⟩)
            · exact .inl hx
          have hrec : ∀ t' n', startVariable (.field (.variable c) ob none cb) = some t' →
              s.resolver.getLocal t' = some n' → ∃ range', t'.range = some range' ∧
                ⟨range', n'⟩ ∈ (s.resolver.reference file ⟨range, n⟩).refsOf file := by
            rintro t' n' ⟨⟩ h
            rw [hg] at h
            cases h
            exact ⟨range, hrange, hmem⟩
          refine OkThat.bindOption fun sym hsym => ?_
          split
          · next k hk =>
            obtain ⟨before, ref, after, h1, h2, h3⟩ := List.findSome?_eq_some_iff.1 hk
            refine OkThat.ok ⟨rfl, hs1, hrec, hbeg, .inr ⟨_, _, rfl, .element hg hsym h1 (fun x hx hm => ?_) ?_ ?_⟩⟩
            · simpa [hm] using h3 x hx
            · split at h2
              · assumption
              · cases h2
            · split at h2
              · exact h2
              · cases h2
          · next hk =>
            rw [List.findSome?_eq_none_iff] at hk
            refine OkThat.ok ⟨rfl, hs1, hrec, hbeg, .inl ⟨rfl, _, .noElement hg hsym fun x hx hm => ?_⟩⟩
            simpa [hm] using hk x hx
    all_goals cases hb

/-- **C65, chains.**  First the arguments, the subscripts and an assignment of a chain are dealt with.  Then a chain that begins
with a variable, an element of a variable, a name, `self`, `static` or `parent` is looked up from the class it begins with; from
where its members are used is decided there.  The variable it begins with is recorded, and so are the members passed. -/
theorem C65_chain (U : Unicode) (H : HashOrder) (file : NodeId) (fuel : Nat) (node base : Node) (chain : List Node)
    (es : List Effect) (hsp : Spine base node chain es) (hb : Basic base) (s0 s' : Env) (o : Option NodeId)
    (h : memberType U H file (fuel + 1) s0 node = .ok (o, s')) :
    ∃ s, Done file (memberType U H file fuel) s0 es s ∧ s'.arena = s.arena ∧
    (∀ t n, startVariable base = some t → s.resolver.getLocal t = some n →
      ∃ range, t.range = some range ∧ ⟨range, n⟩ ∈ s'.resolver.refsOf file) ∧
    ∃ root minimal, Origin U s base root minimal ∧
      match root with
      | none => o = none ∧ Went U s.arena s.resolver s'.resolver ∧
        ∀ f, ∀ x ∈ s'.resolver.refsOf f, x ∈ s.resolver.refsOf f ∨ Begins s file base f x
      | some root => ∃ r1 fileName passed e, Went U s.arena s.resolver r1 ∧
        (∀ f, ∀ x ∈ r1.refsOf f, x ∈ s.resolver.refsOf f ∨ Begins s file base f x) ∧
        (∃ above top f, s.arena.ancestors? s.resolver.scopeContainer = some above ∧ above.getLast? = some top ∧
          s.arena.get? top = some f ∧ fileName = f.plainName) ∧
        Chain U H s.arena fuel s.resolver minimal root chain passed e ∧ o = e.answer ∧
        Noted U file fileName s.arena r1 s'.resolver passed e := by
  unfold memberType at h
  obtain ⟨p, h1, h2⟩ := Out.bind_eq_ok h
  obtain ⟨s, hd, ha, hs, hv, hbeg, hp⟩ := rootOf_spine (Q := fun p => ∃ s, Done file (memberType U H file fuel) s0 es s ∧ _) hsp s0 []
    fuel (fun s hd fuel q hq => ⟨s, hd, rootOf_basic U file _ node base hb _ s fuel q hq⟩) p h1
  refine ⟨s, hd, ?_⟩
  obtain ⟨root, s1⟩ := p
  have ha : s1.arena = s.arena := ha
  rcases hp with ⟨rfl, v, h3⟩ | ⟨r, v, rfl, h3⟩
  · cases h2
    exact ⟨ha, hv, none, v, h3, rfl, hs, hbeg⟩
  · dsimp only at h2
    obtain ⟨anc, hanc, h2⟩ := Out.bind_eq_ok h2
    obtain ⟨top, htop, h2⟩ := Out.bind_eq_ok h2
    obtain ⟨f, hf, h2⟩ := Out.bind_eq_ok h2
    have hanc := Out.ofOption_ok hanc
    have htop := Out.ofOption_ok htop
    have hf := Out.ofOption_ok hf
    cases r with
    | none =>
      cases h2
      exact ⟨ha, hv, none, v, h3, rfl, hs, hbeg⟩
    | some root =>
      obtain ⟨h4, passed, e, h5, h6, h7⟩ := C65_links U H file fuel _ v _ root s1 s' o h2
      rw [ha] at h4 h5 h7 hanc hf
      rw [hs.step.scopeContainer] at hanc
      refine ⟨h4, ?_, some root, v, h3, s1.resolver, _, passed, e, hs, hbeg, ⟨anc, top, f, hanc, htop, hf, rfl⟩, ?_, h6, h7⟩
      · intro t n h8 h9
        obtain ⟨range, h10, h11⟩ := hv t n h8 h9
        exact ⟨range, h10, (h7.went.step.refs file).subset h11⟩
      · rw [List.append_nil] at h5
        exact h5.later hs

/-! ## Non-vacuity -/

private abbrev twoClasses : List (Text × Text) :=
  [(c!"a.php", c!"<?php class B { public $p; } class A { private function b(): B { } }")]

/-- Inside of the class `A` of these files. -/
private def insideA : Out Env := do
  let st ← startWith twoClasses
  let cls ← .ofOption (Dict.get? st.globals c!"a")
  pure ⟨st.arena, { Resolver.new st.globals cls with currentClass := some cls, localScopes := [[]] }⟩

private def thisToken : Token := ⟨0, 5, .variable, some c!"this", none⟩
private def otherToken : Token := ⟨20, 5, .variable, some c!"this", none⟩
private def bToken : Token := ⟨7, 5, .identifier, some c!"b", none⟩
private def pToken : Token := ⟨12, 5, .identifier, some c!"p", none⟩
private def mark (t : TT) : Token := ⟨0, 5, t, none, none⟩

/-- `$this->b($this)->p`. -/
private def expression : Node :=
  .member (.call (.member (.variable thisToken) (mark .objectOperator) none (.literal bToken) none) (mark .openParenthesis)
    [.variable otherToken] (mark .closeParenthesis)) (mark .objectOperator) none (.literal pToken) none

example : Spine (.variable thisToken) expression [.literal bToken, .literal pToken] [.look (.variable otherToken)] ∧
    Basic (.variable thisToken) :=
  ⟨.member (chain := [.literal bToken]) (.call (es := []) (.member (chain := []) .base)), trivial⟩


/-- The chain is walked: `$this` is the class `A`, its private method `b` is passed, then `B`'s property `p`. -/
example : (match insideA with
    | .ok s =>
      match memberType Unicode.ascii HashOrder.id ⟨0, 0⟩ 20 s expression with
      | .ok (o, s') => some (o, s'.resolver.diagnostics, s'.resolver.refsOf ⟨0, 0⟩)
      | _ => none
    | _ => none) =
    some (none, [], [⟨⟨20, 5, 25, 5⟩, ⟨4, 0⟩⟩, ⟨⟨0, 5, 5, 5⟩, ⟨4, 0⟩⟩, ⟨⟨7, 5, 8, 5⟩, ⟨6, 0⟩⟩, ⟨⟨61, 0, 62, 0⟩, ⟨1, 0⟩⟩, ⟨⟨12, 5, 13, 5⟩, ⟨3, 0⟩⟩]) := by
  decide +kernel

/-! ## Where it differs from PHP -/

/-- The errors about visibility that are shown for a file: the columns where they begin. -/
def refused (source : Text) : Option (List Nat) :=
  match startAndOpen [(c!"a.php", source)] c!"a.php" with
  | .ok st => some ((st.diagnostics.flatMap (·.2)).filterMap fun d =>
      if d.message = .text c!"Method is not accessible from this scope" then some d.range.start.character else none)
  | _ => none

/-- **C65 fails for a class named by its name:** inside of `A` the private method is refused when it is called as `A::p()`, and
accepted when it is called as `self::p()`. -/
theorem C65_violated_name :
    refused c!"<?php class A { private static function p() { } function m() { A::p(); } }" = some [66] ∧
      refused c!"<?php class A { private static function p() { } function m() { self::p(); } }" = some [] := by
  decide +kernel

/-- **C65 fails behind the first link:** a private property of another class is accepted at the end of a chain that begins with
`$this`, and one of the own class is refused at the end of a chain that begins elsewhere. -/
theorem C65_violated_later :
    refused c!"<?php class B { private $p; } class A { function b(): B { } function m() { $this->b()->p; } }" = some [] ∧
      refused c!"<?php class C { function a(): A {} } class A { private $p; function m(C $c) { $c->a()->p; } }" = some [87] := by
  decide +kernel

/-- **C65 fails for related classes:** a private property of the parent is accepted through `$this`, and a protected one is
refused through a variable of the type of the parent. -/
theorem C65_violated_parent :
    refused c!"<?php class P { private $p; } class A extends P { function m() { $this->p; } }" = some [] ∧
      refused c!"<?php class P { protected $p; } class A extends P { function m(P $x) { $x->p; } }" = some [75] := by
  decide +kernel

end PhpLs.Env
