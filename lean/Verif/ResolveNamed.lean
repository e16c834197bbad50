import Verif.ResolveLive
import Verif.NodeRange
import Verif.Props.Resolver
import Verif.ResolverTarget

/-!
# Resolving names records references to symbols of that name

`Resolver.Known g S F K N K N r`: all entries of the global table have `g`, all entries of the scopes have `S`, the current class and the
answers in the cache are symbols of the global table, all recorded references have `F`, and an answer in the cache is recorded as a
reference or reported in a file of the name that `N` says, unless its place has `K`.  Queries keep this.

`Named.Inv` is this for what `Named.Fits` says about references.  Every function of the visitor keeps it.
-/

namespace PhpLs

open Out

namespace Resolver

variable {g S : Text → NodeId → Prop} {F : NodeId → NameRef → Prop} {K : NodeRange → Prop} {N : NodeId → Text → Prop}

/-- The answer for a place is recorded as a reference, or there is a report for the place. -/
def Told (N : NodeId → Text → Prop) (r : Resolver) (k : NodeId × NodeRange) : Option NodeId → Prop
  | some n => ⟨k.2, n⟩ ∈ r.refsOf k.1
  | none => ∃ f m, N k.1 f ∧ ⟨f, m, k.2, .error⟩ ∈ r.diagnostics

theorem Told.later {N N' : NodeId → Text → Prop} {r r' : Resolver} {k : NodeId × NodeRange} {o : Option NodeId} (h : Told N r k o)
    (hN : ∀ f x, N f x → N' f x) (hr : ∀ x ∈ r.refsOf k.1, x ∈ r'.refsOf k.1) (hd : ∀ x ∈ r.diagnostics, x ∈ r'.diagnostics) :
    Told N' r' k o := by
  cases o with
  | some n => exact hr _ h
  | none =>
    obtain ⟨f, m, h1, h2⟩ := h
    exact ⟨f, m, hN _ _ h1, hd _ h2⟩

theorem foldlM_mem {α β : Type} {P : β → Prop} {f : β → α → Out β} : ∀ (l : List α) (b : β),
    (∀ b, ∀ x ∈ l, P b → OkThat P (f b x)) → P b → OkThat P (l.foldlM f b)
  | [], b, _, h => OkThat.ok h
  | x :: l, b, hf, h => by
    rw [List.foldlM_cons]
    exact (hf b x (List.mem_cons_self ..) h).bind fun b' hb' =>
      foldlM_mem l b' (fun b y hy => hf b y (List.mem_cons_of_mem _ hy)) hb'

/-- See the head of the file. -/
structure Known (g S : Text → NodeId → Prop) (F : NodeId → NameRef → Prop) (K : NodeRange → Prop) (N : NodeId → Text → Prop)
    (r : Resolver) : Prop where
  globals : ∀ e ∈ r.globalScope, g e.1 e.2
  scopes : ∀ d ∈ r.localScopes, ∀ e ∈ d, S e.1 e.2
  cls : ∀ c, r.currentClass = some c → ∃ k, g k c
  cache : ∀ e ∈ r.cache, ∀ n, e.2 = some n → ∃ k, g k n
  refs : ∀ e ∈ r.documentReferences, ∀ x ∈ e.2, F e.1 x
  told : ∀ e ∈ r.cache, K e.1.2 ∨ Told N r e.1 e.2

/-- An answer in the global table. -/
def KnownAns (g S : Text → NodeId → Prop) (F : NodeId → NameRef → Prop) (K : NodeRange → Prop) (N : NodeId → Text → Prop)
    (p : Option NodeId × Resolver) : Prop :=
  Known g S F K N p.2 ∧ ∀ n, p.1 = some n → ∃ k, g k n

/-- Members with a property. -/
def AllM (R : Text → SymbolAlias → Prop) (m : Members) : Prop := ∀ e ∈ m, R e.1 e.2

/-- Candidates with a property. -/
def AllC (R : Text → SymbolAlias → Prop) (d : Dict Text (List SymbolAlias)) : Prop := ∀ e ∈ d, ∀ x ∈ e.2, R e.1 x

theorem Known.diagnostic {r : Resolver} (h : Known g S F K N r) (n : Notification) : Known g S F K N (r.diagnostic n) :=
  ⟨h.globals, h.scopes, h.cls, h.cache, h.refs, fun e he => (h.told e he).imp_right fun x =>
    x.later (fun _ _ h => h) (fun _ h => h) fun _ h => List.mem_append_left _ h⟩

theorem Known.reference {r : Resolver} (h : Known g S F K N r) (file : NodeId) (x : NameRef) (hx : F file x) :
    Known g S F K N (r.reference file x) := by
  refine ⟨h.globals, h.scopes, h.cls, h.cache, ?_, fun e he => (h.told e he).imp_right fun x =>
    x.later (fun _ _ h => h) (fun y hy => ((Step.reference r file _).refs e.1.1).subset hy) fun _ h => h⟩
  intro e he y hy
  rcases Dict.mem_insert he with he | he
  · subst he
    rcases List.mem_append.1 hy with hy | hy
    · cases hg : Dict.get? r.documentReferences file with
      | none => rw [hg] at hy; cases hy
      | some l =>
        rw [hg] at hy
        exact h.refs _ (Dict.get?_mem hg) y hy
    · rw [List.mem_singleton.1 hy]
      exact hx
  · exact h.refs e he y hy

theorem Known.cached {r : Resolver} (h : Known g S F K N r) (k : NodeId × NodeRange) {v : Option NodeId}
    (hv : ∀ n, v = some n → ∃ k, g k n) (ht : K k.2 ∨ Told N r k v) : Known g S F K N (r.cached k v) := by
  refine ⟨h.globals, h.scopes, h.cls, ?_, h.refs, ?_⟩
  rotate_left
  · intro e he
    rcases Dict.mem_insert he with he | he
    · subst he
      exact ht.imp_right fun x => x.later (fun _ _ h => h) (fun _ h => h) fun _ h => h
    · exact (h.told e he).imp_right fun x => x.later (fun _ _ h => h) (fun _ h => h) fun _ h => h
  intro e he n hn
  rcases Dict.mem_insert he with he | he
  · subst he
    exact hv n hn
  · exact h.cache e he n hn

theorem Known.mono {S' : Text → NodeId → Prop} {F' : NodeId → NameRef → Prop} {N' : NodeId → Text → Prop} {r : Resolver}
    (h : Known g S F K N r) (hs : ∀ l n, S l n → S' l n) (hf : ∀ f x, F f x → F' f x) (hn : ∀ f x, N f x → N' f x) :
    Known g S' F' K N' r :=
  ⟨h.globals, fun d hd e he => hs _ _ (h.scopes d hd e he), h.cls, h.cache, fun e he x hx => hf _ _ (h.refs e he x hx),
    fun e he => (h.told e he).imp_right fun x => x.later hn (fun _ h => h) fun _ h => h⟩

/-- The place of a name has `K`. -/
def Exempt (K : NodeRange → Prop) (t : TypeRef) : Prop := ∀ ρ, t.range = some ρ → K ρ

/-- The names of a symbol that are looked up without being recorded. -/
def heads (s : Symbol) : List TypeRef :=
  (s.inheritsFrom.getD []).map (·.typeRef) ++ (s.imports.getD []).map (·.path) ++
    (s.importResolutions.getD []).flatMap fun
      | .asRule _ c _ _ => c.toList
      | .insteadOf c _ l => c :: l

/-- All names of the symbols of an arena that are looked up without being recorded have `K`, and `N` knows the names. -/
structure Allowed (K : NodeRange → Prop) (N : NodeId → Text → Prop) (a : Arena Symbol) : Prop where
  heads : ∀ i s, a.get? i = some s → ∀ t ∈ heads s, Exempt K t
  types : ∀ i s, a.get? i = some s → ∀ ref ∈ s.dataTypes, Exempt K ref.typeRef
  names : ∀ i s, a.get? i = some s → N i s.plainName

/-- The references a look up may record. -/
def Recordable (U : Unicode) (a : Arena Symbol) (g : Text → NodeId → Prop) (F : NodeId → NameRef → Prop) (t : TypeRef)
    (anchor : NodeId) : Prop :=
  ∀ ancestors file fs name range imports s tops joined node, a.ancestors? anchor = some ancestors →
    ancestors.getLast? = some file → a.get? file = some fs → t.root = some (some name) → t.range = some range →
    importMap U (fs.imports.getD []) [] = some imports → a.get? anchor = some s → a.children? file = some tops →
    joinedName U t name imports (currentNamespace s tops) = some joined →
    (g (U.lower joined) node ∨ g (U.lower name) node) → F file ⟨range, node⟩

theorem known_lookup {U : Unicode} {a : Arena Symbol} {r : Resolver} {t : TypeRef} {file : NodeId} {fileName name : Text}
    {range : NodeRange} {joined : Text} {reg : Bool} (h : Known g S F K N r)
    (hF : reg = true → ∀ node, g (U.lower joined) node ∨ g (U.lower name) node → F file ⟨range, node⟩)
    (hK : reg = false → K range) (hN : N file fileName) :
    OkThat (KnownAns g S F K N) (lookup U a r t file fileName name range joined reg) := by
  unfold lookup
  cases hl : lookupGlobal U r.globalScope joined name with
  | none => exact OkThat.ok ⟨(h.diagnostic _).cached _ (fun n e => nomatch e) (.inr ⟨_, _, hN, List.mem_append_right _
      (List.mem_singleton.2 rfl)⟩), fun n e => nomatch e⟩
  | some p =>
    obtain ⟨node, compName⟩ := p
    have hn : g (U.lower joined) node ∨ g (U.lower name) node := by
      unfold lookupGlobal at hl
      split at hl
      · next n e => cases hl; exact Or.inl (h.globals _ (Dict.get?_mem e))
      · split at hl
        · next n e => cases hl; exact Or.inr (h.globals _ (Dict.get?_mem e))
        · cases hl
    have hk : ∃ k, g k node := hn.elim (fun h => ⟨_, h⟩) fun h => ⟨_, h⟩
    refine OkThat.bindOption fun s _ => OkThat.ok ⟨?_, fun n e => by cases e; exact hk⟩
    have h2 : K range ∨ ⟨range, node⟩ ∈ (if reg = true then r.reference file ⟨range, node⟩ else r).refsOf file := by
      cases reg with
      | false => exact .inl (hK rfl)
      | true =>
        right
        simp only [if_true, Resolver.reference, Resolver.refsOf, Dict.get?_insert]
        simp
    refine Known.cached ?_ _ (fun n e => by cases e; exact hk) (h2.imp_right fun x => by split <;> exact x)
    have h1 : Known g S F K N (if reg = true then r.reference file ⟨range, node⟩ else r) := by
      split
      · next hr => exact h.reference _ _ (hF hr node hn)
      · exact h
    split
    · exact h1
    · exact h1.diagnostic _

private theorem known_all (U : Unicode) (a : Arena Symbol) (ha : Allowed K N a) (fuel : Nat) :
    (∀ r t anchor reg, Known g S F K N r → (reg = true → Recordable U a g F t anchor) →
      (reg = false ∨ plainRef t = false → Exempt K t) →
      OkThat (KnownAns g S F K N) (resolveTypeRef U a fuel r t anchor reg)) ∧
    (∀ r s ctx, Known g S F K N r → (∀ t ∈ heads s, Exempt K t) → OkThat (KnownAns g S F K N) (uniqueParent U a fuel r s ctx)) ∧
    (∀ r s ctx, Known g S F K N r → (∀ t ∈ heads s, Exempt K t) → OkThat (fun p => Known g S F K N p.2 ∧ ∀ e ∈ p.1, ∃ k, g k e.2) (parentNodes U a fuel r s ctx)) := by
  induction fuel with
  | zero => exact ⟨fun _ _ _ _ _ _ _ => OkThat.deep, fun _ _ _ _ _ => OkThat.deep, fun _ _ _ _ _ => OkThat.deep⟩
  | succ fuel ih =>
    obtain ⟨ih1, ih2, ih3⟩ := ih
    refine ⟨?_, ?_, ?_⟩
    · intro r t anchor reg h hF hK
      unfold resolveTypeRef
      split
      · exact OkThat.ok ⟨h, fun n e => nomatch e⟩
      · refine OkThat.bindOption fun ancestors hanc => OkThat.bindOption fun file hf => OkThat.bindOption fun fs hfs =>
          OkThat.bindOption fun root hroot => OkThat.bindOption fun name hname => OkThat.bindOption fun range hr => ?_
        have hrel : name = c!"self" ∨ name = c!"static" ∨ name = c!"parent" → K range := fun e => hK (.inr (by
          unfold plainRef
          rw [hroot, hname]
          simp only [Bool.not_eq_false', Bool.or_eq_true, decide_eq_true_eq]
          exact e.elim (fun h => .inl (.inl h)) fun e => e.elim (fun h => .inl (.inr h)) .inr)) range hr
        split
        · next c hc => exact OkThat.ok ⟨h, fun n e => h.cache _ (Dict.get?_mem hc) n e⟩
        · split
          · next hself =>
            have hk : K range := hrel (hself.imp_right .inl)
            split
            · next c hc =>
              have : ∀ n, some c = some n → ∃ k, g k n := fun n e => by cases e; exact h.cls c hc
              exact OkThat.ok ⟨h.cached _ this (.inl hk), this⟩
            · exact OkThat.ok ⟨(h.diagnostic _).cached _ (fun n e => nomatch e) (.inl hk), fun n e => nomatch e⟩
          · split
            · next hpar =>
              have hk : K range := hrel (.inr (.inr hpar))
              split
              · exact OkThat.bindOption fun s hs => (ih2 r s _ h (ha.heads _ _ hs)).bind fun p hp =>
                  OkThat.ok ⟨hp.1.cached _ hp.2 (.inl hk), hp.2⟩
              · exact OkThat.ok ⟨(h.diagnostic _).cached _ (fun n e => nomatch e) (.inl hk), fun n e => nomatch e⟩
            · unfold resolveName
              exact OkThat.bindOption fun _ hi => OkThat.bindOption fun _ hs => OkThat.bindOption fun _ hc =>
                OkThat.bindOption fun _ hj => known_lookup h (fun e node hn =>
                  hF e ancestors file fs name range _ _ _ _ node hanc hf hfs (by rw [hroot, hname]) hr hi hs hc hj hn)
                  (fun e => hK (.inl e) range hr) (ha.names _ _ hfs)
    · intro r s ctx h hs
      unfold uniqueParent
      refine (ih3 r s ctx h hs).bind fun p hp => ?_
      split
      · next e he => exact OkThat.ok ⟨hp.1, fun n hn => by cases hn; exact hp.2 e (by rw [he]; exact List.mem_singleton.2 rfl)⟩
      · exact OkThat.ok ⟨hp.1, fun n e => nomatch e⟩
    · intro r s ctx h hs
      unfold parentNodes
      refine foldlM_mem (P := fun p : Dict Text NodeId × Resolver => Known g S F K N p.2 ∧ ∀ e ∈ p.1, ∃ k, g k e.2) _ _ ?_
        ⟨h, fun e he => nomatch he⟩
      intro acc ref hm hacc
      refine (ih1 acc.2 ref.typeRef ctx false hacc.1 (fun e => nomatch e) (fun _ => hs _ (List.mem_append_left _
        (List.mem_append_left _ (List.mem_map.2 ⟨ref, hm, rfl⟩))))).bind fun p hp => ?_
      split
      · exact OkThat.ok ⟨hp.1, hacc.2⟩
      · next node hnode =>
        refine OkThat.bindOption fun n _ => OkThat.ok ⟨hp.1, ?_⟩
        intro e he
        rcases Dict.mem_insert he with he | he
        · subst he; exact hp.2 _ hnode
        · exact hacc.2 e he

theorem known_resolveTypeRef (U : Unicode) (a : Arena Symbol) (ha : Allowed K N a) (fuel : Nat) (r : Resolver) (t : TypeRef)
    (anchor : NodeId) (h : Known g S F K N r) (hF : Recordable U a g F t anchor) (hK : plainRef t = false → Exempt K t) :
    OkThat (KnownAns g S F K N) (resolveTypeRef U a fuel r t anchor true) :=
  (known_all U a ha fuel).1 r t anchor true h (fun _ => hF) fun e => hK (e.resolve_left (fun e => nomatch e))

theorem known_query (U : Unicode) (a : Arena Symbol) (ha : Allowed K N a) (fuel : Nat) (r : Resolver) (t : TypeRef) (anchor : NodeId)
    (h : Known g S F K N r) (hK : Exempt K t) : OkThat (KnownAns g S F K N) (resolveTypeRef U a fuel r t anchor false) :=
  (known_all U a ha fuel).1 r t anchor false h (fun e => nomatch e) fun _ => hK

theorem known_uniqueParent (U : Unicode) (a : Arena Symbol) (ha : Allowed K N a) (fuel : Nat) (r : Resolver) (s : Symbol)
    (ctx : NodeId) (h : Known g S F K N r) (hs : ∀ t ∈ heads s, Exempt K t) :
    OkThat (KnownAns g S F K N) (uniqueParent U a fuel r s ctx) := (known_all U a ha fuel).2.1 r s ctx h hs

theorem known_parentNodes (U : Unicode) (a : Arena Symbol) (ha : Allowed K N a) (fuel : Nat) (r : Resolver) (s : Symbol)
    (ctx : NodeId) (h : Known g S F K N r) (hs : ∀ t ∈ heads s, Exempt K t) :
    OkThat (fun p => Known g S F K N p.2) (parentNodes U a fuel r s ctx) :=
  ((known_all U a ha fuel).2.2 r s ctx h hs).mono fun _ h => h.1

theorem known_resolveAll (U : Unicode) (a : Arena Symbol) (ha : Allowed K N a) (fuel : Nat) (r : Resolver) (ctx : NodeId)
    (ts : List TypeRef) (hts : ∀ t ∈ ts, Exempt K t) (h : Known g S F K N r) :
    OkThat (fun p => Known g S F K N p.2) (resolveAll U a fuel r ctx ts) := by
  unfold resolveAll
  refine foldlM_mem (P := fun p : _ × Resolver => Known g S F K N p.2) _ _ ?_ h
  intro acc t ht hacc
  exact (known_query U a ha fuel acc.2 t ctx hacc (hts t ht)).bind fun p hp => OkThat.ok hp.1

/-! ## Members -/

/-- A property of the name a member is found under and of its alias that the rules of traits keep. -/
structure Kept (U : Unicode) (A : Text → Prop) (R : Text → SymbolAlias → Prop) : Prop where
  shown : ∀ k x v, R k x → R k { x with visibility := v }
  passed : ∀ k x o, R k x → R k { x with origin := o }
  named : ∀ k x al, R k x → A al → R (U.lower al) { x with «alias» := al }

/-- The other names that rules give. -/
def Aliases (A : Text → Prop) (l : List TraitUseAlteration) : Prop :=
  ∀ v c m k label, TraitUseAlteration.asRule v c m (some k) ∈ l → k.label = some label → A label

variable {U : Unicode} {A : Text → Prop} {R : Text → SymbolAlias → Prop}

theorem AllC.get {d : Dict Text (List SymbolAlias)} (h : AllC R d) {k : Text} {l : List SymbolAlias}
    (e : Dict.get? d k = some l) : ∀ x ∈ l, R k x := h _ (Dict.get?_mem e)

theorem AllC.getD {d : Dict Text (List SymbolAlias)} (h : AllC R d) (k : Text) : ∀ x ∈ (Dict.get? d k).getD [], R k x := by
  cases e : Dict.get? d k with
  | none => intro x hx; cases hx
  | some l => exact h.get e

theorem AllC.insert {d : Dict Text (List SymbolAlias)} (h : AllC R d) (k : Text) {l : List SymbolAlias} (hl : ∀ x ∈ l, R k x) :
    AllC R (Dict.insert d k l) := by
  intro e he
  rcases Dict.mem_insert he with he | he
  · subst he; exact hl
  · exact h e he

theorem AllM.insert {m : Members} (h : AllM R m) (k : Text) {x : SymbolAlias} (hx : R k x) : AllM R (Dict.insert m k x) := by
  intro e he
  rcases Dict.mem_insert he with he | he
  · subst he; exact hx
  · exact h e he

theorem AllM.get {m : Members} (h : AllM R m) {k : Text} {x : SymbolAlias} (e : Dict.get? m k = some x) : R k x :=
  h _ (Dict.get?_mem e)

theorem AllM.nil : AllM R [] := fun _ h => nomatch h

theorem AllC.nil : AllC R [] := fun _ h => nomatch h

theorem AllM.extend {m m' : Members} (h : AllM R m) (h' : AllM R m') : AllM R (Dict.extend m m') := by
  intro e he
  rcases Dict.mem_extend he with he | he
  · exact h e he
  · exact h' e he

theorem Kept.visible (hR : Kept U A R) {k : Text} {x : SymbolAlias} (h : R k x) (v : Visibility) : R k (withVisibility x v) := by
  unfold withVisibility
  split
  · exact h
  · exact hR.shown k x v h

theorem all_addCandidates : ∀ (m : Members) (d : Dict Text (List SymbolAlias)), AllC R d → AllM R m → AllC R (addCandidates d m)
  | [], _, h, _ => h
  | e :: m, d, h, hm => by
    refine all_addCandidates m _ (h.insert e.1 ?_) fun x hx => hm x (List.mem_cons_of_mem _ hx)
    intro x hx
    rcases List.mem_append.1 hx with hx | hx
    · exact h.getD e.1 x hx
    · rw [List.mem_singleton.1 hx]
      exact hm e (List.mem_cons_self ..)

theorem known_insteadOf (a : Arena Symbol) (ha : Allowed K N a) (fuel : Nat) (ctx : NodeId)
    (acc : Dict Text (List SymbolAlias) × Resolver) (cls : TypeRef) (member : Text) (l : List TypeRef)
    (hl : ∀ t ∈ cls :: l, Exempt K t) (h : AllC R acc.1 ∧ Known g S F K N acc.2) :
    OkThat (fun p => AllC R p.1 ∧ Known g S F K N p.2) (insteadOf U a fuel ctx acc cls member l) := by
  unfold insteadOf
  refine (known_resolveAll U a ha fuel acc.2 ctx l (fun t ht => hl t (List.mem_cons_of_mem _ ht)) h.2).bind fun p hp => ?_
  refine (known_query U a ha fuel p.2 cls ctx hp (hl _ (List.mem_cons_self ..))).bind fun q hq => ?_
  split
  · exact OkThat.ok ⟨h.1, hq.1⟩
  · split
    · exact OkThat.ok ⟨h.1, hq.1⟩
    · next aliases e =>
      exact OkThat.ok ⟨h.1.insert _ fun x hx => h.1.get e x (List.mem_filter.1 hx).1, hq.1⟩

/-- The names in rules. -/
def RuleNames (K : NodeRange → Prop) (l : List TraitUseAlteration) : Prop :=
  (∀ v c m k, TraitUseAlteration.asRule v (some c) m k ∈ l → Exempt K c) ∧
    ∀ c m ts, TraitUseAlteration.insteadOf c m ts ∈ l → ∀ t ∈ c :: ts, Exempt K t

theorem RuleNames.tail {x : TraitUseAlteration} {l : List TraitUseAlteration} (h : RuleNames K (x :: l)) : RuleNames K l :=
  ⟨fun v c m k hm => h.1 v c m k (List.mem_cons_of_mem _ hm), fun c m ts hm => h.2 c m ts (List.mem_cons_of_mem _ hm)⟩

theorem ruleNames {s : Symbol} (h : ∀ t ∈ heads s, Exempt K t) : RuleNames K (s.importResolutions.getD []) := by
  refine ⟨fun v c m k hm => h c ?_, fun c m ts hm t ht => h t ?_⟩
  · exact List.mem_append_right _ (List.mem_flatMap.2 ⟨_, hm, List.mem_singleton.2 rfl⟩)
  · exact List.mem_append_right _ (List.mem_flatMap.2 ⟨_, hm, ht⟩)

theorem known_insteadOfs (a : Arena Symbol) (ha : Allowed K N a) (fuel : Nat) (ctx : NodeId) : ∀ (l : List TraitUseAlteration)
    (acc : Dict Text (List SymbolAlias) × Resolver), RuleNames K l → AllC R acc.1 ∧ Known g S F K N acc.2 →
    OkThat (fun p => AllC R p.1 ∧ Known g S F K N p.2) (insteadOfs U a fuel ctx l acc)
  | [], _, _, h => OkThat.ok h
  | .asRule .. :: r, acc, hl, h => known_insteadOfs a ha fuel ctx r acc hl.tail h
  | .insteadOf c m l :: r, acc, hl, h =>
    (known_insteadOf a ha fuel ctx acc c m l (hl.2 c m l (List.mem_cons_self ..)) h).bind fun p hp =>
      known_insteadOfs a ha fuel ctx r p hl.tail hp

theorem known_asRule (hR : Kept U A R) (a : Arena Symbol) (ha : Allowed K N a) (fuel : Nat) (ctx : NodeId) (orig : Dict Text (List SymbolAlias))
    (acc : Members × Resolver) (visibility : Option Token) (cls : Option TypeRef) (member : Text) (al : Option Token)
    (hcls : ∀ c, cls = some c → Exempt K c) (hal : ∀ k label, al = some k → k.label = some label → A label)
    (ho : AllC R orig) (h : AllM R acc.1 ∧ Known g S F K N acc.2) :
    OkThat (fun p => AllM R p.1 ∧ Known g S F K N p.2) (asRule U a fuel ctx orig acc visibility cls member al) := by
  unfold asRule
  dsimp only
  split
  · next k =>
    split
    · exact OkThat.ok h
    · next label hlabel =>
      have hA : A label := hal k label rfl hlabel
      split
      · refine (known_query U a ha fuel acc.2 _ ctx h.2 (hcls _ rfl)).bind fun q hq => ?_
        split
        · exact OkThat.ok ⟨h.1, hq.1⟩
        · split
          · exact OkThat.ok ⟨h.1, hq.1⟩
          · next o e =>
            exact OkThat.ok ⟨h.1.insert _ (hR.visible (hR.named _ o label (ho.getD _ o (List.mem_of_find?_eq_some e)) hA) _), hq.1⟩
      · split
        · exact OkThat.ok h
        · next o e => exact OkThat.ok ⟨h.1.insert _ (hR.visible (hR.named _ o label (h.1.get e) hA) _), h.2⟩
  · split
    · exact OkThat.ok h
    · next o e => exact OkThat.ok ⟨h.1.insert _ (hR.visible (h.1.get e) _), h.2⟩

theorem known_asRules (hR : Kept U A R) (a : Arena Symbol) (ha : Allowed K N a) (fuel : Nat) (ctx : NodeId)
    (orig : Dict Text (List SymbolAlias)) (ho : AllC R orig) : ∀ (l : List TraitUseAlteration) (acc : Members × Resolver),
    RuleNames K l → Aliases A l →
    AllM R acc.1 ∧ Known g S F K N acc.2 → OkThat (fun p => AllM R p.1 ∧ Known g S F K N p.2) (asRules U a fuel ctx orig l acc)
  | [], _, _, _, h => OkThat.ok h
  | .insteadOf .. :: r, acc, hn, hl, h => known_asRules hR a ha fuel ctx orig ho r acc hn.tail
    (fun v c m k label hm e => hl v c m k label (List.mem_cons_of_mem _ hm) e) h
  | .asRule v c m l :: r, acc, hn, hl, h =>
    (known_asRule hR a ha fuel ctx orig acc v c m l (fun x e => hn.1 v x m l (by rw [← e]; exact List.mem_cons_self ..))
      (fun k label e e' => hl v c m k label (by rw [← e]; exact List.mem_cons_self ..) e') ho h).bind fun p hp =>
        known_asRules hR a ha fuel ctx orig ho r p hn.tail (fun v c m k label hm e => hl v c m k label (List.mem_cons_of_mem _ hm) e) hp

theorem all_firsts : ∀ (d : Dict Text (List SymbolAlias)) (m : Members), AllC R d → firsts d = some m → AllM R m
  | [], m, _, e => by cases e; intro x hx; cases hx
  | (k, l) :: d, m, h, e => by
    simp only [firsts, Option.bind_eq_bind, Option.bind_eq_some_iff] at e
    obtain ⟨x, hx, m', hm', e⟩ := e
    cases e
    intro y hy
    rcases List.mem_cons.1 hy with hy | hy
    · subst hy
      exact h (k, l) (List.mem_cons_self ..) x (List.mem_of_head? hx)
    · exact all_firsts d m' (fun z hz => h z (List.mem_cons_of_mem _ hz)) hm' y hy

theorem known_applyRules (hR : Kept U A R) (a : Arena Symbol) (ha : Allowed K N a) (fuel : Nat) (ctx : NodeId)
    (rules : List TraitUseAlteration) (hnames : RuleNames K rules) (hrules : Aliases A rules) (all : Dict Text (List SymbolAlias) × Resolver) (h : AllC R all.1 ∧ Known g S F K N all.2) :
    OkThat (fun p => AllM R p.1 ∧ Known g S F K N p.2) (applyRules U a fuel ctx rules all) := by
  refine (known_insteadOfs a ha fuel ctx _ all hnames h).bind fun k hk => OkThat.bindOption fun c hc => ?_
  exact known_asRules hR a ha fuel ctx all.1 h.1 _ (c, k.2) hnames hrules ⟨all_firsts _ _ hk.1 hc, hk.2⟩

theorem all_ownMembers (ctx : NodeId) (l : List (NodeId × Symbol))
    (h : ∀ c ∈ l, R (c.2.normalizedName U) ⟨c.1, c.2.plainName, c.2.visibility, ctx⟩) : AllM R (ownMembers U ctx l) := by
  have key : ∀ (l : List (NodeId × Symbol)) (d : Members),
      (∀ c ∈ l, R (c.2.normalizedName U) ⟨c.1, c.2.plainName, c.2.visibility, ctx⟩) → AllM R d → AllM R
      (l.foldl (fun d c => Dict.insert d (c.2.normalizedName U) ⟨c.1, c.2.plainName, c.2.visibility, ctx⟩) d) := by
    intro l
    induction l with
    | nil => intro d _ hd; exact hd
    | cons c l ih =>
      intro d h hd
      exact ih _ (fun x hx => h x (List.mem_cons_of_mem _ hx)) (hd.insert _ (h c (List.mem_cons_self ..)))
  cases l with
  | nil => intro x hx; cases hx
  | cons c l => exact key (c :: l) [] h (fun x hx => nomatch hx)

private theorem known_members (hR : Kept U A R) (H : HashOrder) (a : Arena Symbol) (ha : Allowed K N a)
    (hch : ∀ i cs, a.children? i = some cs → ∀ c ∈ cs, ∀ ctx, R (c.2.normalizedName U) ⟨c.1, c.2.plainName, c.2.visibility, ctx⟩)
    (hA : ∀ i v, a.get? i = some v → Aliases A (v.importResolutions.getD [])) (fuel : Nat) :
    (∀ r ctx, Known g S F K N r → OkThat (fun p => AllM R p.1 ∧ Known g S F K N p.2) (allSymbols U H a fuel r ctx)) ∧
    (∀ r s ctx, (∀ t ∈ heads s, Exempt K t) → Aliases A (s.importResolutions.getD []) → Known g S F K N r →
      OkThat (fun p => AllM R p.1 ∧ Known g S F K N p.2) (importedSymbols U H a fuel r s ctx)) ∧
    (∀ r s ctx, (∀ t ∈ heads s, Exempt K t) → Known g S F K N r →
      OkThat (fun p => AllM R p.1 ∧ Known g S F K N p.2) (inheritedSymbols U H a fuel r s ctx)) := by
  induction fuel with
  | zero => exact ⟨fun _ _ _ => OkThat.deep, fun _ _ _ _ _ _ => OkThat.deep, fun _ _ _ _ _ => OkThat.deep⟩
  | succ fuel ih =>
    obtain ⟨ih1, ih2, ih3⟩ := ih
    refine ⟨?_, ?_, ?_⟩
    · intro r ctx h
      unfold allSymbols
      refine OkThat.bindOption fun s hs => OkThat.bindOption fun cs hcs => ?_
      have hown := all_ownMembers (R := R) ctx cs (fun c hc => hch ctx cs hcs c hc ctx)
      refine (ih2 r s ctx (ha.heads _ _ hs) (hA _ _ hs) h).bind fun p hp => (known_resolveAll U a ha fuel p.2 ctx _ (fun t ht => by
        obtain ⟨ref, href, rfl⟩ := List.mem_map.1 ht
        exact ha.types _ _ hs ref href) hp.2).bind fun q hq => ?_
      refine (OkThat.foldlM (P := fun x : Members × Resolver => AllM R x.1 ∧ Known g S F K N x.2) ?_ _ _
        ⟨hown.extend hp.1, hq⟩).bind fun w hw => ?_
      · intro acc dt hacc
        split
        · exact OkThat.ok hacc
        · exact (ih1 acc.2 dt hacc.2).bind fun m hm => OkThat.ok ⟨hacc.1.extend hm.1, hm.2⟩
      · exact (ih3 w.2 s ctx (ha.heads _ _ hs) hw.2).bind fun z hz => OkThat.ok ⟨hw.1.extend hz.1, hz.2⟩
    · intro r s ctx hn hs h
      unfold importedSymbols
      refine (foldlM_mem (P := fun x : Dict Text (List SymbolAlias) × Resolver => AllC R x.1 ∧ Known g S F K N x.2) _ _ ?_
        ⟨AllC.nil, h⟩).bind fun w hw => ?_
      · intro acc i hm hacc
        refine (known_query U a ha fuel acc.2 i.path ctx hacc.2 (hn _ (List.mem_append_left _
          (List.mem_append_right _ (List.mem_map.2 ⟨i, hm, rfl⟩))))).bind fun p hp => ?_
        split
        · exact OkThat.ok ⟨hacc.1, hp.1⟩
        · refine OkThat.bindOption fun t _ => ?_
          split
          · exact OkThat.ok ⟨hacc.1, hp.1⟩
          · exact (ih1 p.2 _ hp.1).bind fun m hm => OkThat.ok ⟨all_addCandidates m.1 acc.1 hacc.1 hm.1, hm.2⟩
      · exact known_applyRules hR a ha fuel ctx _ (ruleNames hn) hs w hw
    · intro r s ctx hn h
      unfold inheritedSymbols
      refine (known_parentNodes U a ha fuel r s ctx h hn).bind fun p hp => ?_
      refine (OkThat.foldlM (P := fun x : Members × Resolver => AllM R x.1 ∧ Known g S F K N x.2) ?_ _ _
        ⟨AllM.nil, hp⟩).bind fun w hw => OkThat.ok ⟨?_, hw.2⟩
      · intro acc e hacc
        exact (ih1 acc.2 e.2 hacc.2).bind fun m hm => OkThat.ok ⟨hm.1.extend hacc.1, hm.2⟩
      · intro e he
        obtain ⟨x, hx, rfl⟩ := List.mem_map.1 he
        exact hR.passed _ _ _ (hw.1 x hx)

theorem known_allSymbols (hR : Kept U A R) (H : HashOrder) (a : Arena Symbol) (ha : Allowed K N a)
    (hch : ∀ i cs, a.children? i = some cs → ∀ c ∈ cs, ∀ ctx, R (c.2.normalizedName U) ⟨c.1, c.2.plainName, c.2.visibility, ctx⟩)
    (hA : ∀ i v, a.get? i = some v → Aliases A (v.importResolutions.getD [])) (fuel : Nat) (r : Resolver) (ctx : NodeId)
    (h : Known g S F K N r) : OkThat (fun p => AllM R p.1 ∧ Known g S F K N p.2) (allSymbols U H a fuel r ctx) :=
  (known_members hR H a ha hch hA fuel).1 r ctx h

end Resolver

/-! ## What a reference is -/

namespace Named

/-- A symbol without its data types, which are what resolving names changes. -/
def bare (v : Symbol) : Symbol := { v with dataTypes := [] }

theorem heads_bare {u v : Symbol} (h : bare u = bare v) : Resolver.heads u = Resolver.heads v :=
  show Resolver.heads (bare u) = Resolver.heads (bare v) by rw [h]

/-- The symbol of a node, apart from its data types. -/
def At (a : Arena Symbol) (n : NodeId) (c : Symbol) : Prop := ∃ v, (n, v) ∈ a.forest.flat ∧ bare v = c

/-- What the specification speaks about: the tokens and nodes of the tree of a file, the names in data types of the symbols that
are there before, the global table, and the names that are looked up without being recorded, among which are the variables, the
types of variables in comments and the types of caught exceptions of the tree. -/
structure World where
  U : Unicode
  toks : Token → Prop
  nodes : Node → Prop
  old : List Token → Prop
  globals : Dict Text NodeId
  asked : TypeRef → Prop
  sub : ∀ n, nodes n → ∀ c ∈ n.children, nodes c
  toksOf : ∀ n, nodes n → ∀ k ∈ n.toks, toks k
  vars : ∀ k, nodes (.variable k) → asked (.one [k])
  docs : ∀ k ts d, nodes (.docCommentVar k ts d) → ∀ t ∈ ts.getD [], asked t
  caught : ∀ a b types v c d, nodes (.catchBlock a b types v c d) → ∀ t ∈ types.flatMap getTypeRef, asked t

/-- A namespace that some symbol is in, or that is declared. -/
def Namespace (a : Arena Symbol) (ns : Text) : Prop :=
  ∃ i c, At a i c ∧ (c.namespace = some ns ∨ c.kind = .namespace ∧ c.plainName = ns)

/-- A name that a rule `as` gives to a method of a trait. -/
def Renamed (a : Arena Symbol) (al : Text) : Prop :=
  ∃ i c v cl m k, At a i c ∧ TraitUseAlteration.asRule v cl m (some k) ∈ c.importResolutions.getD [] ∧ k.label = some al

/-- The text of a token without a leading dollar sign. -/
def undollared (k : Token) : Option Text :=
  k.display.map fun
    | '$' :: r => r
    | x => x

/-- What a name that is written in a file may stand for. -/
inductive Means (U : Unicode) (a : Arena Symbol) (file : NodeId) (t : TypeRef) : Text → Prop where
  /-- Behind a leading backslash is the full name. -/
  | full {k : Token} {r : List Token} {x : Text} : t.kind = k :: r → k.t = .namespaceSeparator →
      TypeRef.displayAll t.kind = some x → Means U a file t (x.drop 1)
  /-- The first segment is the local name of an import of the file. -/
  | imported {k : Token} {r : List Token} {c : Symbol} {i : SymbolImport} {x l f y : Text} : t.kind = k :: r → At a file c →
      i ∈ c.imports.getD [] → k.display = some x → i.name = some l → U.lower l = U.lower x → i.fullName = some f →
      TypeRef.displayAll r = some y → Means U a file t (f ++ y)
  /-- The name is in the current namespace. -/
  | below {ns x : Text} : Namespace a ns → TypeRef.displayAll t.kind = some x → Means U a file t (ns ++ '\\' :: x)
  /-- There is no namespace. -/
  | plain {x : Text} : TypeRef.displayAll t.kind = some x → Means U a file t x
  /-- The first segment alone. -/
  | first {k : Token} {r : List Token} {x : Text} : t.kind = k :: r → k.display = some x → Means U a file t x
  /-- The first segment alone, behind a leading backslash. -/
  | second {k k' : Token} {r : List Token} {x : Text} : t.kind = k :: k' :: r → k.t = .namespaceSeparator →
      k'.display = some x → Means U a file t x

/-- The name of a variable with a label: the label, or what is shown for a token that is no variable. -/
def Label (w : World) (label plain : Text) : Prop :=
  plain = label ∨ ∃ k, w.toks k ∧ k.t ≠ .variable ∧ k.label = some label ∧ undollared k = some plain

/-- The tokens of a name are tokens of the tree, or they are the name in a data type that was there before. -/
def Typed (w : World) (kind : List Token) : Prop := (∀ k ∈ kind, w.toks k) ∨ w.old kind

/-- A place for whose answer there need not be a reference or a report. -/
def Quiet (w : World) (ρ : NodeRange) : Prop :=
  ∃ t : TypeRef, t.range = some ρ ∧ (w.asked t ∨ Resolver.plainRef t = false ∧ Typed w t.kind)

/-- A name in a data type. -/
def Held (w : World) (t : TypeRef) : Prop := Typed w t.kind ∧ Resolver.Exempt (Quiet w) t

theorem exempt {w : World} {t : TypeRef} (h : w.asked t) : Resolver.Exempt (Quiet w) t := fun _ hr => ⟨t, hr, .inl h⟩

/-- The name of the symbol of a node. -/
def NameOf (a : Arena Symbol) (n : NodeId) (x : Text) : Prop := ∃ j c, At a j c ∧ j.idx = n.idx ∧ c.plainName = x

/-- Why the place `ρ` of the file `file` is a reference to the symbol `n` with the name `plain` and the full name `whole`. -/
inductive Fits (w : World) (a : Arena Symbol) (file : NodeId) (ρ : NodeRange) (n : NodeId) (plain whole : Text) : Prop where
  /-- A variable of this name. -/
  | var {k : Token} {label : Text} : w.toks k → k.range = some ρ → k.label = some label → Label w label plain →
      Fits w a file ρ n plain whole
  /-- `$this`, which is a symbol of the global table. -/
  | this {k : Token} : w.toks k → k.range = some ρ → k.label = some c!"this" → (∃ key, (key, n) ∈ w.globals) →
      Fits w a file ρ n plain whole
  /-- The `@param` comment of a parameter of this name. -/
  | docParam {t d : Option Node} {name k : Token} {s e f : Option Token} {ts : Option (List TypeRef)} {text : Text}
      {ats : List Node} : w.nodes (.functionArgument t name s d e f (some (.docCommentParam k ts text)) ats) →
      k.range = some ρ → name.label = some plain → Fits w a file ρ n plain whole
  /-- The declaration of a function, a method, a property or a constant of this name. -/
  | declared {k : Token} : w.toks k → k.range = some ρ → (k.label = some plain ∨ k.display = some plain) →
      Fits w a file ρ n plain whole
  /-- The access to a member of this name, or of a name a rule `as` gives, in upper or lower case. -/
  | member {k : Token} {text al : Text} : w.toks k → k.range = some ρ → (k.label = some text ∨ k.display = some text) →
      w.U.lower text = w.U.lower al → (al = plain ∨ Renamed a al) → Fits w a file ρ n plain whole
  /-- A name that stands for the full name, in upper or lower case. -/
  | type {t : TypeRef} {x : Text} : Typed w t.kind → t.range = some ρ → Means w.U a file t x → w.U.lower x = w.U.lower whole →
      Fits w a file ρ n plain whole
  /-- A use declaration of the full name, in upper or lower case. -/
  | imported {u s al : Option Token} {d : Node} {x : Text} : w.nodes (.useDeclaration u d s al) →
      (Node.useDeclaration u d s al).range = some ρ → d.name = some x → w.U.lower x = w.U.lower whole →
      Fits w a file ρ n plain whole

theorem Means.mono {U : Unicode} {a b : Arena Symbol} {file : NodeId} {t : TypeRef} {x : Text} (h : Means U a file t x)
    (hk : ∀ n c, At a n c → At b n c) : Means U b file t x := by
  cases h with
  | full h1 h2 h3 => exact .full h1 h2 h3
  | imported h1 h2 h3 h4 h5 h6 h7 h8 => exact .imported h1 (hk _ _ h2) h3 h4 h5 h6 h7 h8
  | below h1 h2 =>
    obtain ⟨i, c, h, h'⟩ := h1
    exact .below ⟨i, c, hk _ _ h, h'⟩ h2
  | plain h => exact .plain h
  | first h1 h2 => exact .first h1 h2
  | second h1 h2 h3 => exact .second h1 h2 h3

theorem Fits.mono {w : World} {a b : Arena Symbol} {file n : NodeId} {ρ : NodeRange} {plain whole : Text}
    (h : Fits w a file ρ n plain whole) (hk : ∀ n c, At a n c → At b n c) : Fits w b file ρ n plain whole := by
  cases h with
  | var h1 h2 h3 h4 => exact .var h1 h2 h3 h4
  | this h1 h2 h3 h4 => exact .this h1 h2 h3 h4
  | docParam h1 h2 h3 => exact .docParam h1 h2 h3
  | declared h1 h2 h3 => exact .declared h1 h2 h3
  | member h1 h2 h3 h4 h5 =>
    refine .member h1 h2 h3 h4 (h5.imp_right ?_)
    rintro ⟨i, c, v, cl, m, k, h, h'⟩
    exact ⟨i, c, v, cl, m, k, hk _ _ h, h'⟩
  | type h1 h2 h3 h4 => exact .type h1 h2 (h3.mono hk) h4
  | imported h1 h2 h3 h4 => exact .imported h1 h2 h3 h4

/-- A recorded reference leads to a symbol and is one to it. -/
def Ref (w : World) (a : Arena Symbol) (file : NodeId) (x : NameRef) : Prop :=
  ∃ c, At a x.node c ∧ Fits w a file x.range x.node c.plainName c.fqdn

/-- An entry of a scope leads to a symbol of this name, or to the current class. -/
def Scoped (w : World) (a : Arena Symbol) (label : Text) (n : NodeId) : Prop :=
  (∃ c, At a n c ∧ Label w label c.plainName) ∨ label = c!"this" ∧ ∃ key, (key, n) ∈ w.globals

theorem Ref.mono {w : World} {a b : Arena Symbol} (hk : ∀ n c, At a n c → At b n c) (file : NodeId) (x : NameRef)
    (h : Ref w a file x) : Ref w b file x := by
  obtain ⟨c, h1, h2⟩ := h
  exact ⟨c, hk _ _ h1, h2.mono hk⟩

theorem Scoped.mono {w : World} {a b : Arena Symbol} (hk : ∀ n c, At a n c → At b n c) (label : Text) (n : NodeId)
    (h : Scoped w a label n) : Scoped w b label n :=
  h.imp_left fun ⟨c, h1, h2⟩ => ⟨c, hk _ _ h1, h2⟩

/-! ## The invariant of the walk -/

/-- What is known about the resolver. -/
abbrev Kn (w : World) (a : Arena Symbol) (r : Resolver) : Prop :=
  r.Known (fun k n => (k, n) ∈ w.globals) (Scoped w a) (Ref w a) (Quiet w) (NameOf a)

/-- See the head of the file. -/
structure Inv (w : World) (s : Env) : Prop where
  arena : s.arena.Ok
  known : Kn w s.arena s.resolver
  types : ∀ n v, (n, v) ∈ s.arena.forest.flat → ∀ ref ∈ v.dataTypes, Held w ref.typeRef
  heads : ∀ n v, (n, v) ∈ s.arena.forest.flat → ∀ t ∈ Resolver.heads v, w.asked t
  globals : ∀ k n, (k, n) ∈ w.globals → ∃ c, At s.arena n c ∧ w.U.lower c.fqdn = k

/-- What a function of the visitor does. -/
structure Up (w : World) (s s' : Env) : Prop where
  inv : Inv w s'
  keep : ∀ n c, At s.arena n c → At s'.arena n c

variable {w : World}

theorem Inv.up {s : Env} (h : Inv w s) : Up w s s := ⟨h, fun _ _ h => h⟩

theorem Up.trans {s s' s'' : Env} (h : Up w s s') (h' : Up w s' s'') : Up w s s'' :=
  ⟨h'.inv, fun n c hi => h'.keep n c (h.keep n c hi)⟩

theorem Inv.set {s : Env} (h : Inv w s) {r : Resolver} (hr : Kn w s.arena r) : Up w s { s with resolver := r } :=
  ⟨⟨h.arena, hr, h.types, h.heads, h.globals⟩, fun _ _ h => h⟩

theorem Inv.diagnostic {s : Env} (h : Inv w s) (n : Notification) : Up w s (s.diagnostic n) := h.set (h.known.diagnostic n)

theorem Inv.addRef {s : Env} (h : Inv w s) (file : NodeId) (range : NodeRange) {n : NodeId}
    (hn : Ref w s.arena file ⟨range, n⟩) : Up w s (s.addRef file range n) := h.set (h.known.reference file _ hn)

/-- The arena is replaced by one with the same symbols, apart from data types. -/
theorem Inv.grow {s : Env} (h : Inv w s) {b : Arena Symbol} (hb : b.Ok) (hk : ∀ n c, At s.arena n c → At b n c)
    (ht : ∀ n v, (n, v) ∈ b.forest.flat → ∀ ref ∈ v.dataTypes, Held w ref.typeRef)
    (hh : ∀ n v, (n, v) ∈ b.forest.flat → ∀ t ∈ Resolver.heads v, w.asked t) : Up w s { s with arena := b } := by
  refine ⟨⟨hb, h.known.mono (Scoped.mono hk) (Ref.mono hk) (fun f x ⟨j, c, h1, h2⟩ => ⟨j, c, hk _ _ h1, h2⟩), ht, hh, ?_⟩, hk⟩
  intro k n hkn
  obtain ⟨c, h1, h2⟩ := h.globals k n hkn
  exact ⟨c, hk _ _ h1, h2⟩

theorem flat_modify {a : Arena Symbol} (ha : a.Ok) (i : NodeId) (u : Symbol → Symbol) (n : NodeId) :
    (∀ v, (n, v) ∈ (a.modify i u).forest.flat → ∃ v0, (n, v0) ∈ a.forest.flat ∧ (v = v0 ∨ (v = u v0 ∧ n.idx = i.idx))) ∧
    (∀ v, (n, v) ∈ a.forest.flat → (n, v) ∈ (a.modify i u).forest.flat ∨ (n, u v) ∈ (a.modify i u).forest.flat) := by
  unfold Arena.modify
  cases hx : a.forest.node? i.idx with
  | none =>
    rw [Forest.update_notMem (Forest.node?_none.1 hx)]
    exact ⟨fun v h => ⟨v, h, Or.inl rfl⟩, fun v h => Or.inl h⟩
  | some x =>
    obtain ⟨j, w, k⟩ := x
    obtain ⟨s, t, e1, e2⟩ := Forest.flat_update ha.forest hx fun v k => (u v, k)
    have hj := (Forest.node?_some hx).1
    dsimp only at e2 ⊢
    rw [e1, e2]
    constructor
    · intro v h
      simp only [List.mem_append, List.mem_cons, Prod.mk.injEq] at h ⊢
      rcases h with (h | ⟨rfl, rfl⟩ | h) | h
      · exact ⟨v, Or.inl (Or.inl h), Or.inl rfl⟩
      · exact ⟨w, Or.inl (Or.inr (Or.inl ⟨rfl, rfl⟩)), Or.inr ⟨rfl, hj⟩⟩
      · exact ⟨v, Or.inl (Or.inr (Or.inr h)), Or.inl rfl⟩
      · exact ⟨v, Or.inr h, Or.inl rfl⟩
    · intro v h
      simp only [List.mem_append, List.mem_cons, Prod.mk.injEq] at h ⊢
      rcases h with (h | ⟨rfl, rfl⟩ | h) | h
      · exact Or.inl (Or.inl (Or.inl h))
      · exact Or.inr (Or.inl (Or.inr (Or.inl ⟨rfl, rfl⟩)))
      · exact Or.inl (Or.inl (Or.inr (Or.inr h)))
      · exact Or.inl (Or.inr h)

theorem Inv.modify {s : Env} (h : Inv w s) (i : NodeId) (u : Symbol → Symbol) (hu : ∀ v, bare (u v) = bare v)
    (ht : ∀ v, (∀ ref ∈ v.dataTypes, Held w ref.typeRef) → ∀ ref ∈ (u v).dataTypes, Held w ref.typeRef) :
    Up w s { s with arena := s.arena.modify i u } := by
  refine h.grow (Arena.ok_modify h.arena i u) ?_ ?_ ?_
  · rintro n c ⟨v, h1, h2⟩
    rcases (flat_modify h.arena i u n).2 v h1 with h3 | h3
    · exact ⟨v, h3, h2⟩
    · exact ⟨u v, h3, by rw [hu, h2]⟩
  · intro n v hv
    obtain ⟨v0, h1, h2⟩ := (flat_modify h.arena i u n).1 v hv
    rcases h2 with rfl | ⟨rfl, _⟩
    · exact h.types n _ h1
    · exact ht v0 (h.types n _ h1)
  · intro n v hv
    obtain ⟨v0, h1, h2⟩ := (flat_modify h.arena i u n).1 v hv
    rcases h2 with rfl | ⟨rfl, _⟩
    · exact h.heads n _ h1
    · rw [heads_bare (hu v0)]
      exact h.heads n _ h1

theorem Inv.move {s : Env} (h : Inv w s) {p c : NodeId} {b : Arena Symbol} (e : s.arena.moveTo p c = some b) :
    Up w s { s with arena := b } := by
  have hp := (Arena.moveTo_perm h.arena e).1
  refine h.grow (Arena.ok_moveTo h.arena e) ?_ ?_ ?_
  · rintro n c ⟨v, h1, h2⟩
    exact ⟨v, hp.mem_iff.2 h1, h2⟩
  · exact fun n v hv => h.types n v (hp.mem_iff.1 hv)
  · exact fun n v hv => h.heads n v (hp.mem_iff.1 hv)

theorem mem_of_get? {a : Arena Symbol} {n : NodeId} {v : Symbol} (h : a.get? n = some v) :
    ∃ j, (j, v) ∈ a.forest.flat ∧ j.idx = n.idx := by
  unfold Arena.get? at h
  cases hx : a.forest.node? n.idx with
  | none => rw [hx] at h; cases h
  | some x =>
    obtain ⟨j, w, k⟩ := x
    rw [hx] at h
    cases h
    exact ⟨j, (Forest.node?_some hx).2.1, (Forest.node?_some hx).1⟩

theorem Inv.typesOf {s : Env} (h : Inv w s) {n : NodeId} {v : Symbol} (e : s.arena.get? n = some v) :
    ∀ ref ∈ v.dataTypes, Held w ref.typeRef := by
  obtain ⟨j, hj, _⟩ := mem_of_get? e
  exact h.types j v hj

theorem Inv.headsOf {s : Env} (h : Inv w s) {n : NodeId} {v : Symbol} (e : s.arena.get? n = some v) :
    ∀ t ∈ Resolver.heads v, Resolver.Exempt (Quiet w) t := by
  obtain ⟨j, hj, _⟩ := mem_of_get? e
  exact fun t ht ρ hr => ⟨t, hr, .inl (h.heads j v hj t ht)⟩

theorem Inv.allowed {s : Env} (h : Inv w s) : Resolver.Allowed (Quiet w) (NameOf s.arena) s.arena where
  heads := fun _ _ e => h.headsOf e
  types := fun _ _ e ref href => (h.typesOf e ref href).2
  names := fun i v e => by
    obtain ⟨j, hj, hi⟩ := mem_of_get? e
    exact ⟨j, _, ⟨v, hj, rfl⟩, hi, rfl⟩

theorem mem_of_children? {a : Arena Symbol} {i : NodeId} {cs : List (NodeId × Symbol)} (h : a.children? i = some cs)
    {c : NodeId × Symbol} (hc : c ∈ cs) : c ∈ a.forest.flat := by
  unfold Arena.children? at h
  cases hx : a.forest.node? i.idx with
  | none => rw [hx] at h; cases h
  | some x =>
    rw [hx] at h
    cases h
    obtain ⟨j, w, k⟩ := x
    exact (Forest.node?_some hx).2.2 _ (Forest.tops_flat hc)

theorem at_of_mem {a : Arena Symbol} {n : NodeId} {v : Symbol} (h : (n, v) ∈ a.forest.flat) : At a n (bare v) := ⟨v, h, rfl⟩

theorem firstNamespace_mem {l : List (NodeId × Symbol)} {x : Text} (h : Resolver.firstNamespace l = some x) :
    ∃ c ∈ l, c.2.kind = .namespace ∧ c.2.plainName = x := by
  induction l with
  | nil => cases h
  | cons c l ih =>
    obtain ⟨i, v⟩ := c
    unfold Resolver.firstNamespace at h
    split at h
    · next hk => cases h; exact ⟨(i, v), List.mem_cons_self .., hk, rfl⟩
    · obtain ⟨d, h1, h2⟩ := ih h
      exact ⟨d, List.mem_cons_of_mem _ h1, h2⟩

/-- The place of a name and the symbol that is found for it. -/
theorem Inv.recordable {s : Env} (h : Inv w s) {t : TypeRef} (ht : Typed w t.kind) (anchor : NodeId) :
    Resolver.Recordable w.U s.arena (fun k n => (k, n) ∈ w.globals) (Ref w s.arena) t anchor := by
  intro ancestors file fs name range imports sym tops joined node ha hf hfs hroot hr hi hs hc hj hg
  obtain ⟨v0, hfile⟩ : ∃ v, (file, v) ∈ s.arena.forest.flat := by
    have := (Forest.path?_some ha).2.2 file (List.mem_of_getLast? hf)
    exact Forest.mem_ids.1 this
  have hv0 : v0 = fs := by
    obtain ⟨v, h1, h2⟩ := Arena.live_get? h.arena (Forest.mem_ids.2 ⟨v0, hfile⟩)
    rw [hfs] at h1
    cases h1
    exact ((Forest.flat_unique h.arena.forest hfile h2 rfl).2)
  subst hv0
  have key : ∀ x, Means w.U s.arena file t x → (w.U.lower x, node) ∈ w.globals → Ref w s.arena file ⟨range, node⟩ := by
    intro x hx hm
    obtain ⟨c, h1, h2⟩ := h.globals _ _ hm
    exact ⟨c, h1, .type ht hr hx h2.symm⟩
  have hfirst : Means w.U s.arena file t name := by
    unfold TypeRef.root at hroot
    split at hroot
    · cases hroot
    · split at hroot
      · cases hroot
      · next k r hk =>
        split at hroot
        · next hq =>
          split at hroot
          · cases hroot
          · next k' r' =>
            have hq' : k.t = .namespaceSeparator := by simpa [TypeRef.isFullyQualified, hk] using hq
            cases hd : k'.display with
            | none => rw [hd] at hroot; cases hroot
            | some x => rw [hd] at hroot; cases hroot; exact .second hk hq' hd
        · cases hd : k.display with
          | none => rw [hd] at hroot; cases hroot
          | some x => rw [hd] at hroot; cases hroot; exact .first hk hd
  have hjoined : Means w.U s.arena file t joined := by
    unfold Resolver.joinedName at hj
    split at hj
    · next hq =>
      unfold TypeRef.isFullyQualified at hq
      split at hq
      · cases hq
      · next k r hk =>
        unfold TypeRef.toFqdn at hj
        obtain ⟨x, hx, rfl⟩ := Option.map_eq_some_iff.1 hj
        exact .full hk (by simpa using hq) hx
    · next hq =>
      split at hj
      · next f hf =>
        rw [Resolver.importMap_get hi] at hf
        split at hf
        · next i hfind =>
          have him : i ∈ v0.imports.getD [] := List.mem_reverse.1 (List.mem_of_find?_eq_some hfind)
          have hname : Option.map w.U.lower i.name = some (w.U.lower name) := by simpa using List.find?_some hfind
          obtain ⟨l, hl, hle⟩ := Option.map_eq_some_iff.1 hname
          have hk : ∃ k r, t.kind = k :: r ∧ k.display = some name := by
            unfold TypeRef.root at hroot
            split at hroot
            · cases hroot
            · split at hroot
              · cases hroot
              · next k r hk =>
                cases hd : k.display with
                | none => rw [hd] at hroot; cases hroot
                | some x => rw [hd] at hroot; cases hroot; exact ⟨k, r, hk, hd⟩
          obtain ⟨k, r, hk, hd⟩ := hk
          have hstem : t.stem = r := by simp [TypeRef.stem, hq, hk]
          have : ∃ y, TypeRef.displayAll r = some y ∧ joined = f ++ y := by
            split at hj
            · rw [hstem] at hj
              obtain ⟨y, hy, rfl⟩ := Option.map_eq_some_iff.1 hj
              exact ⟨y, hy, rfl⟩
            · next hlen =>
              cases hj
              rw [hk] at hlen
              have : r = [] := by
                cases r with
                | nil => rfl
                | cons _ _ => simp at hlen
              subst this
              exact ⟨[], rfl, (List.append_nil _).symm⟩
          obtain ⟨y, hy, rfl⟩ := this
          exact .imported hk (at_of_mem hfile) him hd hl hle hf hy
        · cases hf
      · split at hj
        · exact .plain hj
        · next hns =>
          unfold TypeRef.toFqdn at hj
          obtain ⟨x, hx, rfl⟩ := Option.map_eq_some_iff.1 hj
          refine .below ?_ hx
          unfold Resolver.currentNamespace at hns ⊢
          split
          · next ns hns' =>
            obtain ⟨j, hj, _⟩ := mem_of_get? hs
            exact ⟨j, _, at_of_mem hj, Or.inl hns'⟩
          · next hnone =>
            simp only [hnone] at hns
            cases hfn : Resolver.firstNamespace tops with
            | none => rw [hfn] at hns; exact absurd rfl hns
            | some ns =>
              obtain ⟨c, hc1, hc2, hc3⟩ := firstNamespace_mem hfn
              exact ⟨c.1, _, at_of_mem (mem_of_children? hc hc1), Or.inr ⟨hc2, hc3⟩⟩
  rcases hg with hg | hg
  · exact key _ hjoined hg
  · exact key _ hfirst hg

/-! ## The functions of the visitor -/

/-- All tokens of a node are tokens of the tree. -/
def Toks (w : World) (n : Node) : Prop := ∀ k ∈ n.toks, w.toks k

/-- A node of the tree. -/
def In (w : World) (n : Node) : Prop := w.nodes n

theorem In.toks {n : Node} (h : In w n) : Toks w n := w.toksOf n h

theorem In.child {n c : Node} (h : In w n) (hc : c ∈ n.children) : In w c := w.sub n h c hc

/-- A result of a function of the visitor that is a symbol of the global table. -/
def UpAns (w : World) (s : Env) (p : Option NodeId × Env) : Prop :=
  Up w s p.2 ∧ ∀ n, p.1 = some n → ∃ key, (key, n) ∈ w.globals

theorem up_resolve (fuel : Nat) {s : Env} (h : Inv w s) {t : TypeRef} (ht : Typed w t.kind) (anchor : NodeId) :
    OkThat (UpAns w s) (s.resolve w.U fuel t anchor) :=
  OkThat.bind (Resolver.known_resolveTypeRef w.U s.arena h.allowed fuel s.resolver t anchor h.known (h.recordable ht anchor)
    fun e _ hr => ⟨t, hr, .inr ⟨e, ht⟩⟩)
    fun _ hp => OkThat.ok ⟨h.set hp.1, hp.2⟩

theorem up_uniqueParent (fuel : Nat) {s : Env} (h : Inv w s) {sym : Symbol} {ctx : NodeId} (hs : s.arena.get? ctx = some sym) :
    OkThat (fun p : Option NodeId × Resolver => UpAns w s (p.1, { s with resolver := p.2 }))
      (Resolver.uniqueParent w.U s.arena fuel s.resolver sym ctx) :=
  (Resolver.known_uniqueParent w.U s.arena h.allowed fuel s.resolver sym ctx h.known (h.headsOf hs)).mono fun _ hp => ⟨h.set hp.1, hp.2⟩

theorem up_resolveEach (fuel : Nat) {s : Env} (h : Inv w s) (ts : List TypeRef) (ht : ∀ t ∈ ts, Typed w t.kind)
    (anchor : NodeId) : OkThat (Up w s) (s.resolveEach w.U fuel ts anchor) := by
  refine Resolver.foldlM_mem (P := Up w s) ts s ?_ h.up
  intro s' t hm h
  exact (up_resolve fuel h.inv (ht t hm) anchor).bind fun p hp => OkThat.ok (h.trans hp.1)

theorem up_resolveTypes (fuel : Nat) {s : Env} (h : Inv w s) (ts : List TypeRef) (ht : ∀ t ∈ ts, Held w t) (anchor : NodeId) :
    OkThat (fun p : List SymRef × Env => Up w s p.2 ∧ ∀ ref ∈ p.1, Held w ref.typeRef) (s.resolveTypes w.U fuel ts anchor) := by
  refine Resolver.foldlM_mem (P := fun p : List SymRef × Env => Up w s p.2 ∧ ∀ ref ∈ p.1, Held w ref.typeRef) ts ([], s) ?_
    ⟨h.up, (fun _ h => nomatch h)⟩
  intro acc t hm h
  refine (up_resolve fuel h.1.inv (ht t hm).1 anchor).bind fun p hp => OkThat.bindOption fun ref hr => OkThat.ok
    ⟨h.1.trans hp.1, ?_⟩
  have href : ref.typeRef = t := by
    split at hr
    · simp only [SymRef.toNode, Option.bind_eq_bind, Option.bind_eq_some_iff] at hr
      obtain ⟨_, _, e⟩ := hr
      cases e
      rfl
    · simp only [SymRef.toType, Option.bind_eq_bind, Option.bind_eq_some_iff] at hr
      obtain ⟨_, _, e⟩ := hr
      cases e
      rfl
  intro x hx
  rcases List.mem_append.1 hx with hx | hx
  · exact h.2 x hx
  · rw [List.mem_singleton.1 hx, href]
    exact ht t hm

theorem up_refLocal {s : Env} (h : Inv w s) (file : NodeId) (token : Token) {n : NodeId}
    (hn : ∀ ρ, token.range = some ρ → Ref w s.arena file ⟨ρ, n⟩) : OkThat (Up w s) (s.refLocal file token n) := by
  unfold Env.refLocal Resolver.referenceLocal
  refine OkThat.bind (Q := fun r => Kn w s.arena r) ?_ fun r hr => OkThat.ok (h.set hr)
  exact OkThat.bindOption fun range hr => OkThat.ok (h.known.reference file _ (hn range hr))

/-- A variable in a scope. -/
theorem Scoped.ref {s : Env} (h : Inv w s) {token : Token} (hk : w.toks token) {label : Text} (hl : token.label = some label)
    {n : NodeId} (hn : Scoped w s.arena label n) (file : NodeId) (ρ : NodeRange) (hr : token.range = some ρ) :
    Ref w s.arena file ⟨ρ, n⟩ := by
  rcases hn with ⟨c, h1, h2⟩ | ⟨rfl, key, hkey⟩
  · exact ⟨c, h1, .var hk hr hl h2⟩
  · obtain ⟨c, h1, _⟩ := h.globals key n hkey
    exact ⟨c, h1, .this hk hr hl ⟨key, hkey⟩⟩

theorem Inv.getLocal {s : Env} (h : Inv w s) {token : Token} {n : NodeId} (e : s.resolver.getLocal token = some n) :
    ∃ label, token.label = some label ∧ Scoped w s.arena label n := by
  unfold Resolver.getLocal at e
  split at e
  · cases e
  · next label hlabel =>
    refine ⟨label, hlabel, ?_⟩
    split at e
    · next c hc =>
      cases e
      split at hc
      · next hthis =>
        exact Or.inr ⟨hthis.2, h.known.cls _ hc⟩
      · cases hc
    · split at e
      · cases e
      · next top rest ht => exact h.known.scopes top (by rw [ht]; exact List.mem_cons_self ..) _ (Dict.get?_mem e)

theorem known_setTop {s : Env} (h : Inv w s) {top : Dict Text NodeId} {rest : List (Dict Text NodeId)}
    (e : s.resolver.localScopes = top :: rest) (name : Text) {n : NodeId} (hn : Scoped w s.arena name n) :
    Kn w s.arena { s.resolver with localScopes := Dict.insert top name n :: rest } := by
  refine ⟨h.known.globals, ?_, h.known.cls, h.known.cache, h.known.refs, fun e he => (h.known.told e he).imp_right fun x =>
    x.later (fun _ _ h => h) (fun _ h => h) fun _ h => h⟩
  intro d hd x hx
  rcases List.mem_cons.1 hd with hd | hd
  · subst hd
    rcases Dict.mem_insert hx with hx | hx
    · subst hx; exact hn
    · exact h.known.scopes top (by rw [e]; exact List.mem_cons_self ..) x hx
  · exact h.known.scopes d (by rw [e]; exact List.mem_cons_of_mem _ hd) x hx

theorem up_declareNew {s : Env} (h : Inv w s) (file : NodeId) {token : Token} (hk : w.toks token) {n : NodeId}
    (hn : ∀ label, token.label = some label → Scoped w s.arena label n) :
    OkThat (fun p : Option NodeId × Env => Up w s p.2) (s.declareNew file token n) := by
  unfold Env.declareNew Resolver.declareLocalIfNew
  refine OkThat.bind (Q := fun p => Up w s { s with resolver := p.2 }) ?_ fun r hr => OkThat.ok hr
  split
  · exact OkThat.ok h.up
  · exact OkThat.ok h.up
  · next top rest name h1 h2 =>
    split
    · next node e =>
      have hnode : Scoped w s.arena name node :=
        h.known.scopes top (by rw [h1]; exact List.mem_cons_self ..) _ (Dict.get?_mem e)
      exact OkThat.bindOption fun range hr => OkThat.ok (h.set (h.known.reference file _ (hnode.ref h hk h2 file range hr)))
    · refine OkThat.bind (Q := fun r => Kn w s.arena r) ?_ fun r hr => OkThat.ok (h.set hr)
      exact OkThat.bindOption fun range hr =>
        OkThat.ok ((known_setTop h h1 name (hn name h2)).reference file _ ((hn name h2).ref h hk h2 file range hr))

theorem up_declareOver {s : Env} (h : Inv w s) (file : NodeId) {token : Token} (hk : w.toks token) {n : NodeId}
    (hn : ∀ label, token.label = some label → Scoped w s.arena label n) (addRef : Bool)
    (hadd : addRef = true → token.label ≠ none) : OkThat (Up w s) (s.declareOver file token n addRef) := by
  unfold Env.declareOver
  refine OkThat.bind (Q := fun r => Kn w s.arena r) ?_ fun r hr => OkThat.ok (h.set hr)
  have key : ∀ r : Resolver, Kn w s.arena r → OkThat (fun r => Kn w s.arena r)
        (if addRef then r.referenceLocal file token n else .ok r) := by
    intro r h'
    split
    · next ha =>
      unfold Resolver.referenceLocal
      obtain ⟨label, hl⟩ := Option.ne_none_iff_exists'.1 (hadd ha)
      exact OkThat.bindOption fun range hr => OkThat.ok (h'.reference file _ ((hn label hl).ref h hk hl file range hr))
    · exact OkThat.ok h'
  refine key _ ?_
  split
  · next top rest name h1 h2 => exact known_setTop h h1 name (hn name h2)
  · exact h.known

theorem up_addVar {s : Env} (h : Inv w s) (v : Symbol) (hv : ∀ ref ∈ v.dataTypes, Held w ref.typeRef)
    (hh : Resolver.heads v = []) :
    OkThat (fun p : NodeId × Env => Up w s p.2 ∧ At p.2.arena p.1 (bare v)) (s.addVar v) := by
  unfold Env.addVar
  refine OkThat.bindOption fun u hu => OkThat.ok ?_
  have hp := Arena.idx_of_get? hu
  have hperm := Arena.addChild_flat h.arena hp v
  refine ⟨h.grow (Arena.ok_addChild h.arena hp v) ?_ ?_ ?_, v, hperm.mem_iff.2 (by simp [Arena.addChild]), rfl⟩
  · rintro n c ⟨x, h1, h2⟩
    exact ⟨x, hperm.mem_iff.2 (by simp [h1]), h2⟩
  · intro n x hx
    have := hperm.mem_iff.1 hx
    simp only [List.mem_cons, Prod.mk.injEq] at this
    rcases this with ⟨_, rfl⟩ | h1
    · exact hv
    · exact h.types n x h1
  · intro n x hx
    have := hperm.mem_iff.1 hx
    simp only [List.mem_cons, Prod.mk.injEq] at this
    rcases this with ⟨_, rfl⟩ | h1
    · rw [hh]
      exact fun _ h => nomatch h
    · exact h.heads n x h1

/-- The symbol of a variable has the name of the token. -/
theorem ofToken_scoped {token : Token} (hk : w.toks token) {v : Symbol} (hv : Symbol.ofToken token = some v) {a : Arena Symbol}
    {n : NodeId} {u : Symbol} (hu : bare u = bare v) (hn : At a n (bare u)) (label : Text) (hl : token.label = some label) :
    Scoped w a label n := by
  refine Or.inl ⟨_, hn, ?_⟩
  have hp : (bare u).plainName = v.plainName := by rw [hu]; rfl
  rw [hp]
  simp only [Symbol.ofToken, Option.bind_eq_bind, Option.bind_eq_some_iff] at hv
  obtain ⟨r, _, nm, hnm, e⟩ := hv
  cases e
  by_cases ht : token.t = .variable
  · left
    simp only [Token.display, hl, ht, Option.some.injEq] at hnm
    subst hnm
    rfl
  · right
    refine ⟨token, hk, ht, hl, ?_⟩
    unfold undollared
    rw [hnm]
    rfl

theorem toNode_typeRef {t : TypeRef} {n : NodeId} {ref : SymRef} (h : SymRef.toNode t n = some ref) : ref.typeRef = t := by
  simp only [SymRef.toNode, Option.bind_eq_bind, Option.bind_eq_some_iff] at h
  obtain ⟨_, _, e⟩ := h
  cases e
  rfl

theorem toType_typeRef {t : TypeRef} {ref : SymRef} (h : SymRef.toType t = some ref) : ref.typeRef = t := by
  simp only [SymRef.toType, Option.bind_eq_bind, Option.bind_eq_some_iff] at h
  obtain ⟨_, _, e⟩ := h
  cases e
  rfl

theorem ofToken_types {k : Token} {v : Symbol} (h : Symbol.ofToken k = some v) : v.dataTypes = [] := by
  simp only [Symbol.ofToken, Option.bind_eq_bind, Option.bind_eq_some_iff] at h
  obtain ⟨_, _, _, _, e⟩ := h
  cases e
  rfl

theorem ofToken_heads {k : Token} {v : Symbol} (h : Symbol.ofToken k = some v) : Resolver.heads v = [] := by
  simp only [Symbol.ofToken, Option.bind_eq_bind, Option.bind_eq_some_iff] at h
  obtain ⟨_, _, _, _, e⟩ := h
  cases e
  rfl

theorem typed_one {token : Token} (hk : w.toks token) : Typed w (TypeRef.one [token]).kind :=
  Or.inl fun k h => by rw [List.mem_singleton.1 h]; exact hk

theorem held_variable {token : Token} (h : In w (.variable token)) : Held w (.one [token]) :=
  ⟨typed_one (h.toks token (List.mem_singleton.2 rfl)), exempt (w.vars token h)⟩

/-- Declaring a variable. -/
theorem up_assign {s : Env} (h : Inv w s) {token : Token} (hin : In w (.variable token)) (d : Option NodeId) (file : NodeId) {β : Type}
    {P : β → Prop} {f : NodeId × Env → Option NodeId × Env → Out β}
    (hf : ∀ (c : NodeId × Env) (e : Option NodeId × Env), Up w s e.2 → OkThat P (f c e)) :
    OkThat P (do
      let sym ← Env.assigned token d
      let c ← s.addVar sym
      let e ← c.2.declareNew file token c.1
      f c e) := by
  have hk : w.toks token := hin.toks token (List.mem_singleton.2 rfl)
  refine OkThat.bind (Q := fun sym => (∃ v, Symbol.ofToken token = some v ∧ bare sym = bare v) ∧
    ∀ ref ∈ sym.dataTypes, Held w ref.typeRef) ?_ fun sym hsym => ?_
  · unfold Env.assigned
    split
    · refine OkThat.bindOption fun r hr => OkThat.bindOption fun v hv => OkThat.ok ⟨⟨v, hv, rfl⟩, ?_⟩
      intro ref href
      rw [List.mem_singleton.1 href, toNode_typeRef hr]
      exact held_variable hin
    · intro v hv
      cases ho : Symbol.ofToken token with
      | none => rw [ho] at hv; cases hv
      | some v' =>
        rw [ho] at hv
        cases hv
        exact ⟨⟨_, rfl, rfl⟩, by rw [ofToken_types ho]; exact fun _ h => nomatch h⟩
  · obtain ⟨⟨v, hv, hb⟩, ht⟩ := hsym
    refine (up_addVar h sym ht ((heads_bare hb).trans (ofToken_heads hv))).bind fun c hc => ?_
    refine (up_declareNew hc.1.inv file hk (ofToken_scoped hk hv hb hc.2)).bind fun e he => hf c e (hc.1.trans he)

theorem up_variableType (fuel : Nat) (node : NodeId) : ∀ (l : List SymRef) (s : Env), Inv w s →
    (∀ ref ∈ l, Held w ref.typeRef) →
    OkThat (fun p : (NodeId × Visibility) × Env => Up w s p.2) (Env.variableType w.U fuel node l s)
  | [], s, h, _ => OkThat.ok h.up
  | ref :: rest, s, h, hl => by
    unfold Env.variableType
    split
    · exact OkThat.ok h.up
    · refine (up_resolve fuel h (hl ref (List.mem_cons_self ..)).1 node).bind fun p hp => ?_
      split
      · exact OkThat.ok hp.1
      · exact (up_variableType fuel node rest p.2 hp.1.inv (fun r hr => hl r (List.mem_cons_of_mem _ hr))).mono fun q hq =>
          hp.1.trans hq

/-- A function that keeps the invariant. -/
def UpFn (w : World) (call : Env → Node → Out (Option NodeId × Env)) : Prop :=
  ∀ s n, Inv w s → In w n → OkThat (fun p : Option NodeId × Env => Up w s p.2) (call s n)

theorem UpFn.each {call : Env → Node → Out (Option NodeId × Env)} (hc : UpFn w call) (l : List Node) (hl : ∀ n ∈ l, In w n)
    {s : Env} (h : Inv w s) : OkThat (Up w s) (l.foldlM (fun s c => do let q ← call s c; pure q.2) s) := by
  refine Resolver.foldlM_mem (P := Up w s) l s ?_ h.up
  intro s' n hm h'
  exact (hc s' n h'.inv (hl n hm)).bind fun q hq => OkThat.ok (h'.trans hq)

theorem UpFn.opt {call : Env → Node → Out (Option NodeId × Env)} (hc : UpFn w call) (o : Option Node) (ho : ∀ n, o = some n → In w n)
    {s : Env} (h : Inv w s) : OkThat (Up w s) (match (generalizing := false) o with
      | some i => do let p ← call s i; pure p.2
      | none => pure s) := by
  cases o with
  | none => exact OkThat.ok h.up
  | some n => exact (hc s n h (ho n rfl)).bind fun q hq => OkThat.ok hq

/-- The result of the first loop: all links are parts of the tree. -/
def UpRoot (w : World) (s : Env) (p : Env.Root × Env) : Prop :=
  Up w s p.2 ∧ ∀ r minimal chain, p.1 = .root r minimal chain → ∀ l ∈ chain, In w l

theorem in_variable {k : Token} (h : In w (.variable k)) : w.toks k := h.toks k (List.mem_singleton.2 rfl)

theorem in_literal {k : Token} (h : In w (.literal k)) : w.toks k := h.toks k (List.mem_singleton.2 rfl)

theorem in_typeRef {t : TypeRef} (h : Toks w (.typeRef t)) : Typed w t.kind := Or.inl h

theorem up_rootOf (file : NodeId) {call : Env → Node → Out (Option NodeId × Env)} (hc : UpFn w call)
    {node : Node} (hnode : In w node) : ∀ (fuel : Nat) (cur : Node) (chain : List Node) (s : Env), Inv w s → In w cur →
    (∀ l ∈ chain, In w l) → OkThat (UpRoot w s) (Env.rootOf w.U file call node fuel cur chain s)
  | 0, _, _, _, _, _, _ => OkThat.deep
  | fuel + 1, cur, chain, s, h, hcur, hch => by
    have ih := up_rootOf file hc hnode fuel
    have done : ∀ {s' : Env} (o : Option NodeId), Up w s s' → UpRoot w s (.returned o, s') :=
      fun o h => ⟨h, fun _ _ _ e => nomatch e⟩
    have got : ∀ {s' : Env} (o : Option NodeId) (m : Visibility), Up w s s' → UpRoot w s (.root o m chain, s') :=
      fun o m h => ⟨h, fun _ _ _ e => by cases e; exact hch⟩
    have cons : ∀ {m : Node}, In w m → ∀ l ∈ m :: chain, In w l := fun hm l hl => by
      rcases List.mem_cons.1 hl with rfl | hl
      · exact hm
      · exact hch l hl
    have next : ∀ {s' : Env} {p : Env.Root × Env}, Up w s s' → UpRoot w s' p → UpRoot w s p := fun h h' => ⟨h.trans h'.1, h'.2⟩
    have kid : ∀ c ∈ cur.children, In w c := fun c hc => hcur.child hc
    unfold Env.rootOf
    split
    · next left token right =>
      have hl : In w left := kid _ (by simp [Node.children])
      have hr : In w right := kid _ (by simp [Node.children])
      split
      · split
        · next v =>
          refine (hc s right h hr).bind fun d hd => ?_
          refine up_assign hd.inv hl d.1 file fun c e he => ?_
          exact (ih _ chain e.2 he.inv hl hch).mono fun q hq => next (hd.trans he) hq
        · exact OkThat.ok (done _ h.up)
      · refine (hc s left h hl).bind fun p hp => ?_
        refine (hc p.2 right hp.inv hr).bind fun q hq => ?_
        exact OkThat.ok (done _ (hp.trans hq))
    · next check qm trueArm colon falseArm =>
      refine (hc s check h (kid _ (by simp [Node.children]))).bind fun p hp => ?_
      refine OkThat.bind (Q := fun q : Option NodeId × Env => Up w s q.2) ?_ fun q hq => ?_
      · cases trueArm with
        | none => exact OkThat.ok hp
        | some t => exact (hc p.2 t hp.inv (kid _ (by simp [Node.children]))).mono fun q hq => hp.trans hq
      · exact (hc q.2 falseArm hq.inv (kid _ (by simp [Node.children]))).bind fun v hv => OkThat.ok (done _ (hq.trans hv))
    · exact ih _ chain s h (kid _ (by simp [Node.children])) hch
    · exact ih _ chain s h (kid _ (by simp [Node.children])) hch
    · exact ih _ chain s h (kid _ (by simp [Node.children])) hch
    · exact ih _ chain s h (kid _ (by simp [Node.children])) hch
    · next callee op ps cp =>
      refine (hc.each ps (fun n hn => kid _ (by simp [Node.children, hn])) h).bind fun s' h' => ?_
      exact (ih _ chain s' h'.inv (kid _ (by simp [Node.children])) hch).mono fun q hq => next h' hq
    · next ob es cb =>
      exact (hc.each es (fun n hn => kid _ (by simp [Node.children, hn])) h).bind fun s' h' => OkThat.ok (done _ h')
    · exact (hc s _ h (kid _ (by simp [Node.children]))).bind fun p hp => OkThat.ok (done _ hp)
    · exact ih _ _ s h (kid _ (by simp [Node.children])) (cons (kid _ (by simp [Node.children])))
    · exact ih _ _ s h (kid _ (by simp [Node.children])) (cons (kid _ (by simp [Node.children])))
    · next token =>
      split
      · exact OkThat.ok (done _ h.up)
      · next n hn =>
        obtain ⟨label, hlabel, hscoped⟩ := h.getLocal hn
        refine (up_refLocal h file token (hscoped.ref h (in_variable hcur) hlabel file)).bind fun s' h' => ?_
        split
        · exact OkThat.ok (got _ _ h')
        · split
          · exact OkThat.ok (got _ _ h')
          · refine OkThat.bindOption fun sym hsym => ?_
            exact (up_variableType fuel n sym.dataTypes s' h'.inv (h'.inv.typesOf hsym)).bind fun p hp =>
              OkThat.ok (got _ _ (h'.trans hp))
    · next token =>
      split
      · exact OkThat.ok (got _ _ h.up)
      · split
        · split
          · exact OkThat.ok (done _ h.up)
          · next c _ =>
            refine OkThat.bindOption fun sym hsym => ?_
            exact (up_uniqueParent fuel h hsym).bind fun p hp => OkThat.ok (got _ _ hp.1)
        · split
          · exact OkThat.ok (done _ h.up)
          · exact (up_resolve fuel h (typed_one (in_literal hcur)) _).bind fun p hp => OkThat.ok (got _ _ hp.1)
    · refine (up_resolve fuel h (in_typeRef hcur.toks) _).bind fun p hp => ?_
      split
      · exact OkThat.ok (got _ _ hp.1)
      · exact OkThat.ok (done _ hp.1)
    · next array ob index cb =>
      have harr : In w array := kid _ (by simp [Node.children])
      refine (hc.opt index (fun n hn => kid _ (by simp [Node.children, hn])) h).bind fun s' h' => ?_
      split
      · next collection =>
        split
        · exact OkThat.ok (done _ h')
        · next v hv =>
          obtain ⟨label, hlabel, hscoped⟩ := h'.inv.getLocal hv
          refine (up_refLocal h'.inv file collection (hscoped.ref h'.inv (in_variable harr) hlabel file)).bind fun s2 h2 => ?_
          refine OkThat.bindOption fun sym _ => ?_
          split
          · exact OkThat.ok (got _ _ (h'.trans h2))
          · exact OkThat.ok (done _ (h'.trans h2))
      · exact (ih _ _ s' h'.inv (harr.child (by simp [Node.children])) (cons (harr.child (by simp [Node.children])))).mono
          fun q hq => next h' hq
      · next array2 a index2 b =>
        refine (hc.opt index2 (fun n hn => harr.child (by simp [Node.children, hn])) h'.inv).bind fun s2 h2 => ?_
        exact (ih _ _ s2 h2.inv (harr.child (by simp [Node.children])) hch).mono fun q hq => next (h'.trans h2) hq
      · exact OkThat.ok (done _ h')
    · exact (hc.each node.children (fun n hn => hnode.child hn) h).bind fun s' h' => OkThat.ok (done _ h')

theorem up_memberTypes (fuel : Nat) (fileName : Text) (range : Option NodeRange) (root : NodeId) :
    ∀ (l : List SymRef) (s : Env), Inv w s → (∀ ref ∈ l, Held w ref.typeRef) →
    OkThat (fun p : Env.Hop × Env => Up w s p.2) (Env.memberTypes w.U fuel fileName range root l s)
  | [], s, h, _ => OkThat.ok h.up
  | ref :: rest, s, h, hl => by
    unfold Env.memberTypes
    refine OkThat.bindOption fun first _ => ?_
    split
    · exact OkThat.ok h.up
    · refine OkThat.bindOption fun o _ => OkThat.bindOption fun name _ => ?_
      split
      · exact OkThat.ok h.up
      · split
        · refine OkThat.bindOption fun sym hsym => ?_
          refine (up_uniqueParent fuel h hsym).bind fun p hp => ?_
          split
          · exact OkThat.ok hp.1
          · exact OkThat.bindOption fun r _ => OkThat.ok (hp.1.trans (hp.1.inv.diagnostic _))
        · refine (up_resolve fuel h (hl ref (List.mem_cons_self ..)).1 _).bind fun p hp => ?_
          split
          · exact OkThat.ok hp.1
          · exact (up_memberTypes fuel fileName range root rest p.2 hp.1.inv
              (fun r hr => hl r (List.mem_cons_of_mem _ hr))).mono fun q hq => hp.1.trans hq

/-- What is known about the members of a symbol. -/
def MemberOk (w : World) (a : Arena Symbol) (k : Text) (x : SymbolAlias) : Prop :=
  k = w.U.lower x.alias ∧ ∃ c, At a x.symbol c ∧ (x.alias = c.plainName ∨ Renamed a x.alias)

theorem memberOk_kept (a : Arena Symbol) : Resolver.Kept w.U (Renamed a) (MemberOk w a) where
  shown := fun _ _ _ h => h
  passed := fun _ _ _ h => h
  named := fun _ _ _ h hal => by
    obtain ⟨_, c, h1, _⟩ := h
    exact ⟨rfl, c, h1, Or.inr hal⟩

theorem up_link (H : HashOrder) (file : NodeId) (fuel : Nat) (fileName : Text) (minimal : Visibility)
    (root : NodeId) {l : Node} (hl : In w l) {s : Env} (h : Inv w s) :
    OkThat (fun p : Env.Hop × Env => Up w s p.2) (Env.link w.U H file fuel fileName minimal root l s) := by
  unfold Env.link
  refine OkThat.bindOption fun o ho => ?_
  split
  · exact OkThat.ok h.up
  · next name =>
    refine (Resolver.known_allSymbols (memberOk_kept s.arena) H s.arena h.allowed ?_ ?_ fuel s.resolver root h.known).bind fun m hm => ?_
    · intro i cs hcs c hc ctx
      exact ⟨rfl, _, at_of_mem (mem_of_children? hcs hc), Or.inl rfl⟩
    · intro i v hv vis c m k label hmem hlabel
      obtain ⟨j, hj, _⟩ := mem_of_get? hv
      exact ⟨j, _, vis, c, m, k, at_of_mem hj, hmem, hlabel⟩
    have hu : Up w s { s with resolver := m.2 } := h.set hm.2
    dsimp only
    split
    · exact OkThat.bindOption fun r _ => OkThat.bindOption fun n _ => OkThat.ok (hu.trans (hu.inv.diagnostic _))
    · next child hchild =>
      obtain ⟨hkey, c, hat, hal⟩ := hm.1.get hchild
      have href : ∀ {s' : Env} (k : Token), w.toks k → (k.label = some name ∨ k.display = some name) → Up w s s' →
          OkThat (Up w s') (s'.refLocal file k child.symbol) := by
        intro s' k hk hn h'
        refine up_refLocal h'.inv file k fun ρ hr => Ref.mono h'.keep file _ ⟨c, hat, .member hk hr hn hkey ?_⟩
        exact hal
      refine OkThat.bindOption fun sym hsym => ?_
      split
      · refine OkThat.bind (Q := fun s' : Env => Up w s s') ?_ fun s' h' => ?_
        · split
          · exact OkThat.bindOption fun r _ => OkThat.ok (hu.trans (hu.inv.diagnostic _))
          · exact OkThat.ok hu
        · refine OkThat.bind (Q := fun s' : Env => Up w s s') ?_ fun s2 h2 => ?_
          · split
            · next token =>
              refine (href token (in_variable hl) (Or.inl ?_) h').mono fun _ h2 => h'.trans h2
              simp only [Env.linkName, Option.map_eq_some_iff] at ho
              obtain ⟨x, hx, e⟩ := ho
              cases e
              exact hx
            · next token =>
              refine (href token (in_literal hl) (Or.inr ?_) h').mono fun _ h2 => h'.trans h2
              simp only [Env.linkName, Option.bind_eq_bind, Option.bind_eq_some_iff] at ho
              obtain ⟨x, hx, e⟩ := ho
              split at e
              · cases e
              · cases e; exact hx
            · exact OkThat.ok h'
          · split
            · exact (up_memberTypes fuel fileName l.range root sym.dataTypes s2 h2.inv (h.typesOf hsym)).mono fun q hq =>
                h2.trans hq
            · exact OkThat.ok h2
      · exact OkThat.bindOption fun r _ => OkThat.ok (hu.trans (hu.inv.diagnostic _))

theorem up_links (H : HashOrder) (file : NodeId) (fuel : Nat) (fileName : Text) (minimal : Visibility) :
    ∀ (l : List Node) (root : NodeId) (s : Env), Inv w s → (∀ n ∈ l, In w n) →
    OkThat (fun p : Option NodeId × Env => Up w s p.2) (Env.links w.U H file fuel fileName minimal root l s)
  | [], root, s, h, _ => OkThat.ok h.up
  | l :: rest, root, s, h, hl => by
    unfold Env.links
    refine (up_link H file fuel fileName minimal root (hl l (List.mem_cons_self ..)) h).bind fun p hp => ?_
    split
    · exact OkThat.ok hp
    · exact (up_links H file fuel fileName minimal rest _ p.2 hp.inv (fun n hn => hl n (List.mem_cons_of_mem _ hn))).mono
        fun q hq => hp.trans hq

theorem up_memberType (H : HashOrder) (file : NodeId) : ∀ fuel : Nat, UpFn w (Env.memberType w.U H file fuel)
  | 0 => fun _ _ _ _ => OkThat.deep
  | fuel + 1 => by
    intro s node h hn
    unfold Env.memberType
    refine (up_rootOf file (up_memberType H file fuel) hn fuel node [] s h hn (fun _ h => nomatch h)).bind fun p hp => ?_
    split
    · exact OkThat.ok hp.1
    · next r minimal chain hroot =>
      refine OkThat.bindOption fun anc _ => OkThat.bindOption fun top _ => OkThat.bindOption fun f _ => ?_
      split
      · exact OkThat.ok hp.1
      · exact (up_links H file fuel _ _ _ _ p.2 hp.1.inv (hp.2 _ _ _ hroot)).mono fun q hq => hp.1.trans hq

theorem childNamed_at (s : Env) (name : Text) :
    OkThat (fun o : Option NodeId => ∀ n, o = some n → ∃ c, At s.arena n c ∧ c.plainName = name) (Env.childNamed s name) := by
  unfold Env.childNamed
  refine OkThat.bindOption fun cs hcs => OkThat.ok ?_
  intro n hn
  obtain ⟨c, hc, rfl⟩ := Option.map_eq_some_iff.1 hn
  have e : c.2.plainName = name := by simpa using List.find?_some hc
  exact ⟨_, at_of_mem (mem_of_children? hcs (List.mem_of_find?_eq_some hc)), e⟩

theorem itemTypes_typed : ∀ {l ts : List SymRef}, Env.itemTypes l = some ts → (∀ ref ∈ l, Held w ref.typeRef) →
    ∀ ref ∈ ts, Held w ref.typeRef
  | [], ts, h, _ => by
    cases h
    exact fun _ h => nomatch h
  | r :: l, ts, h, hl => by
    simp only [Env.itemTypes, Option.bind_eq_bind, Option.bind_eq_some_iff] at h
    obtain ⟨x, hx, rs, hrs, e⟩ := h
    cases e
    have hr := hl r (List.mem_cons_self ..)
    have ih := itemTypes_typed hrs fun y hy => hl y (List.mem_cons_of_mem _ hy)
    intro ref href
    rcases List.mem_cons.1 href with rfl | href
    · split at hx
      · split at hx
        · rw [toNode_typeRef hx]; exact hr
        · cases hx; exact hr
      · cases hx; exact hr
    · exact ih ref href

theorem up_foreachItem (file collection : NodeId) {kv : Node} (hkv : In w kv) {s : Env} (h : Inv w s) :
    OkThat (Up w s) (Env.foreachItem file collection kv s) := by
  unfold Env.foreachItem
  refine OkThat.bindOption fun c hc => ?_
  split
  · next a b item =>
    have hitem : w.toks item := in_variable (hkv.child (by simp [Node.children]))
    refine OkThat.bindOption fun ts hts => OkThat.bindOption fun v hv => ?_
    refine (up_addVar h { v with dataTypes := ts } (itemTypes_typed hts (h.typesOf hc))
      (ofToken_heads (v := v) hv)).bind fun n hn => ?_
    exact (up_declareOver hn.1.inv file hitem (ofToken_scoped hitem hv rfl hn.2) false (fun e => nomatch e)).mono
      fun _ h => hn.1.trans h
  · exact OkThat.ok h.up

theorem up_visitArgument (file : NodeId) (fuel : Nat) {t d : Option Node} {name : Token} {x e f : Option Token}
    {doc : Option Node} {ats : List Node} (hnode : w.nodes (.functionArgument t name x d e f doc ats)) (hname : w.toks name)
    (parent : NodeId) {s : Env} (h : Inv w s) : OkThat (Up w s) (Env.visitArgument w.U file fuel name doc parent s) := by
  unfold Env.visitArgument
  refine OkThat.bind (Q := fun o : Option NodeId => ∀ n, o = some n → ∃ c, At s.arena n c ∧ name.label = some c.plainName) ?_
    fun arg harg => ?_
  · split
    · next l hl =>
      refine (childNamed_at s l).mono fun o ho n hn => ?_
      obtain ⟨c, h1, h2⟩ := ho n hn
      exact ⟨c, h1, by rw [hl, h2]⟩
    · exact OkThat.bindOption fun _ _ => OkThat.ok fun n e => nomatch e
  · split
    · exact OkThat.ok h.up
    · next arg =>
      obtain ⟨c, hc, hl⟩ := harg arg rfl
      refine OkThat.bindOption fun sym hsym => ?_
      have htypes : ∀ t ∈ sym.dataTypes.map (·.typeRef), Held w t := by
        intro t ht
        obtain ⟨ref, href, rfl⟩ := List.mem_map.1 ht
        exact h.typesOf hsym ref href
      refine (up_resolveTypes fuel h _ htypes parent).bind fun p hp => ?_
      have h1 : Up w s { p.2 with arena := p.2.arena.modify arg fun v => { v with dataTypes := p.1 } } :=
        hp.1.trans (hp.1.inv.modify arg _ (fun _ => rfl) (fun _ _ => hp.2))
      refine (up_declareOver h1.inv file hname ?_ true (fun _ e => by rw [hl] at e; cases e)).bind fun s2 h2 => ?_
      · intro label hlabel
        rw [hl] at hlabel
        cases hlabel
        exact Or.inl ⟨c, h1.keep _ _ hc, Or.inl rfl⟩
      · split
        · next k ts text =>
          refine (up_refLocal h2.inv file k fun ρ hr => ⟨c, h2.keep _ _ (h1.keep _ _ hc), ?_⟩).mono
            fun _ h3 => (h1.trans h2).trans h3
          exact .docParam hnode hr hl
        · exact OkThat.ok (h1.trans h2)

theorem up_visitAssignment (H : HashOrder) (file : NodeId) (fuel : Nat) {left right : Node} (hl : In w left) (hr : In w right)
    {s : Env} (h : Inv w s) : OkThat (Up w s) (Env.visitAssignment w.U H file fuel left right s) := by
  unfold Env.visitAssignment
  refine (up_memberType H file fuel s right h hr).bind fun d hd => ?_
  split
  · next v =>
    refine up_assign hd.inv hl d.1 file fun c e he => ?_
    refine OkThat.bindOption fun repr _ => ?_
    split
    · split
      · refine OkThat.bindOption fun ref href => OkThat.ok ((hd.trans he).trans (he.inv.modify repr _ (fun _ => rfl) ?_))
        intro v' hv' x hx
        rcases List.mem_append.1 hx with hx | hx
        · exact hv' x hx
        · rw [List.mem_singleton.1 hx, toNode_typeRef href]
          exact held_variable hl
      · exact OkThat.ok (hd.trans he)
    · exact OkThat.ok (hd.trans he)
  · exact (up_memberType H file fuel d.2 left hd.inv hl).bind fun p hp => OkThat.ok (hd.trans hp)

theorem up_visitDocVar (file : NodeId) (fuel : Nat) {name : Token} (hk : w.toks name) {types : Option (List TypeRef)}
    (ht : ∀ t ∈ types.getD [], Held w t) (parent : NodeId) {s : Env} (h : Inv w s) :
    OkThat (Up w s) (Env.visitDocVar w.U file fuel name types parent s) := by
  unfold Env.visitDocVar
  refine (up_resolveTypes fuel h _ ht parent).bind fun p hp => ?_
  dsimp only
  split
  · next existing he =>
    obtain ⟨label, hlabel, hscoped⟩ := hp.1.inv.getLocal he
    refine OkThat.bindOption fun a ha => ?_
    have h1 := hp.1.inv.modify existing (fun v => { v with dataTypes := v.dataTypes ++ p.1 }) (fun _ => rfl) (by
      intro v hv ref href
      rcases List.mem_append.1 href with href | href
      · exact hv ref href
      · exact hp.2 ref href)
    have h2 := h1.inv.move ha
    refine OkThat.bind (up_declareNew (s := { p.2 with arena := a }) h2.inv file hk (n := existing) ?_) fun q hq => OkThat.ok ?_
    · intro l hl
      rw [hlabel] at hl
      cases hl
      exact Scoped.mono h2.keep _ _ (Scoped.mono h1.keep _ _ hscoped)
    · exact ((hp.1.trans h1).trans h2).trans hq
  · refine OkThat.bindOption fun v hv => ?_
    refine (up_addVar hp.1.inv { v with dataTypes := p.1 } hp.2 (ofToken_heads (v := v) hv)).bind fun c hc => ?_
    exact (up_declareNew hc.1.inv file hk (ofToken_scoped hk hv rfl hc.2)).bind fun q hq => OkThat.ok ((hp.1.trans hc.1).trans hq)

theorem up_visitClass (fuel : Nat) {name : Token} (hk : w.toks name) (parent : NodeId) {s : Env} (h : Inv w s) :
    OkThat (fun p : NextAction × Env => Up w s p.2) (Env.visitClass w.U fuel name parent s) := by
  unfold Env.visitClass
  refine (up_resolve fuel h (typed_one hk) parent).bind fun p hp => ?_
  split
  · next c hc =>
    refine OkThat.ok (hp.1.trans (hp.1.inv.set ?_))
    have := hp.1.inv.known
    exact ⟨this.globals, this.scopes, fun d e => by cases e; exact hp.2 c hc, this.cache, this.refs, fun e he =>
      (this.told e he).imp_right fun x => x.later (fun _ _ h => h) (fun _ h => h) fun _ h => h⟩
  · exact OkThat.ok hp.1

theorem good_orNil {l : Option (List TypeRef)} (h : Parser.Good w.toks l) : Parser.Good w.toks (l.getD []) := by
  cases l with
  | none => exact Parser.good_nil.2 trivial
  | some l => exact (Parser.good_some l).1 h

theorem good_typeRefs {l : List TypeRef} (h : Parser.Good w.toks l) : ∀ t ∈ l, Typed w t.kind :=
  fun _ ht => Or.inl fun k hk => h k (List.mem_flatMap.2 ⟨_, ht, hk⟩)

theorem getTypeRef_typed {n : Node} (h : Toks w n) : ∀ t ∈ getTypeRef n, Typed w t.kind := by
  unfold getTypeRef
  split
  · next t =>
    intro x hx
    rw [List.mem_singleton.1 hx]
    exact in_typeRef h
  · next ts a =>
    refine good_typeRefs ?_
    have h : Parser.Good w.toks (Node.docCommentReturn (some ts) a) := h
    good_simp at h
    exact h
  · exact fun _ h => nomatch h

theorem flatTypeRefs_typed {l : List Node} (h : ∀ n ∈ l, Toks w n) : ∀ t ∈ l.flatMap getTypeRef, Typed w t.kind := by
  intro t ht
  obtain ⟨n, hn, ht⟩ := List.mem_flatMap.1 ht
  exact getTypeRef_typed (h n hn) t ht

theorem good_list {l : List Node} (h : Parser.Good w.toks l) : ∀ n ∈ l, Toks w n := fun _ hn => (Parser.good_list _).1 h _ hn

theorem getTypeRefs_typed (n : Node) (h : Toks w n) : ∀ t ∈ getTypeRefs n, Typed w t.kind := by
  suffices H : ∀ (m : Nat) (n : Node), sizeOf n ≤ m → Toks w n → ∀ t ∈ getTypeRefs n, Typed w t.kind from H _ n (Nat.le_refl _) h
  intro m
  induction m with
  | zero => intro n hn; cases n <;> simp at hn
  | succ m ih =>
    intro n hm h
    have h' : Parser.Good w.toks n := h
    unfold getTypeRefs
    split
    · next a dt =>
      good_simp at h'
      exact ih dt (by simp at hm; omega) h'.2
    · next a ts =>
      good_simp at h'
      exact flatTypeRefs_typed (good_list h'.2)
    · good_simp at h'
      exact good_typeRefs (good_orNil h'.2)
    · good_simp at h'
      exact good_typeRefs (good_orNil h')
    · good_simp at h'
      exact good_typeRefs (good_orNil h'.2)
    · exact fun _ h => nomatch h

theorem up_visitFunction (fuel : Nat) {doc : Option Node} (hd : Parser.Good w.toks doc) (parent : NodeId) {s : Env}
    (h : Inv w s) : OkThat (fun p : NextAction × Env => Up w s p.2) (Env.visitFunction w.U fuel doc parent s) := by
  unfold Env.visitFunction
  refine OkThat.bind (Q := fun s' => Up w s s') ?_ fun s' h => OkThat.ok h
  split
  · next k rt x1 x2 x3 x4 x5 =>
    have h' : Parser.Good w.toks (Node.docComment k rt x1 x2 x3 x4 x5) := (Parser.good_some _).1 hd
    good_simp at h'
    exact up_resolveEach fuel h _ (flatTypeRefs_typed (good_list h'.2.1)) parent
  · exact OkThat.ok h.up

theorem mapM_toType : ∀ {l : List TypeRef} {ts : List SymRef}, l.mapM SymRef.toType = some ts →
    (∀ t ∈ l, Held w t) → ∀ ref ∈ ts, Held w ref.typeRef
  | [], ts, h, _ => by
    cases h
    exact fun _ h => nomatch h
  | t :: l, ts, h, hl => by
    rw [List.mapM_cons] at h
    simp only [Option.bind_eq_bind, Option.bind_eq_some_iff] at h
    obtain ⟨x, hx, rs, hrs, e⟩ := h
    cases e
    intro ref href
    rcases List.mem_cons.1 href with rfl | href
    · rw [toType_typeRef hx]; exact hl t (List.mem_cons_self ..)
    · exact mapM_toType hrs (fun y hy => hl y (List.mem_cons_of_mem _ hy)) ref href

theorem up_visitName (H : HashOrder) (file : NodeId) (fuel : Nat) {node : Node} (hn : In w node)
    (parent : NodeId) {s : Env} (h : Inv w s) :
    OkThat (fun p : NextAction × Env => Up w s p.2) (Env.visitName w.U H file fuel node parent s) := by
  have hg : Parser.Good w.toks node := hn.toks
  unfold Env.visitName
  split
  · next u declaration sep al =>
    refine OkThat.bindOption fun name hname => ?_
    split
    · exact OkThat.ok h.up
    · next n hget =>
      have hm : (w.U.lower name, n) ∈ w.globals := h.known.globals _ (Dict.get?_mem hget)
      obtain ⟨c, hc, hkey⟩ := h.globals _ _ hm
      refine OkThat.bindOption fun sym _ => ?_
      refine OkThat.bind (Q := fun s' : Env => Up w s s') ?_ fun s' h' => ?_
      · split
        · exact OkThat.ok h.up
        · exact OkThat.bindOption fun f _ => OkThat.bindOption fun r _ => OkThat.ok (h.diagnostic _)
      · refine OkThat.bindOption fun r hr => OkThat.ok (h'.trans (h'.inv.addRef _ _ ⟨c, h'.keep _ _ hc, ?_⟩))
        exact .imported hn hr hname hkey.symm
  · exact (up_resolve fuel h (in_typeRef hn.toks) parent).bind fun p hp => OkThat.ok hp.1
  · good_simp at hg
    exact up_visitClass fuel hg.2.1 parent h
  · good_simp at hg
    exact up_visitClass fuel hg.2.1 parent h
  · good_simp at hg
    exact up_visitClass fuel hg.2.1 parent h
  · simp only [good] at hg
    exact up_visitFunction fuel (by grind) parent h
  · simp only [good] at hg
    exact up_visitFunction fuel (by grind) parent h
  · exact OkThat.ok h.up
  · exact OkThat.ok h.up
  · next token =>
    have hk := in_variable hn
    split
    · next n hget =>
      obtain ⟨label, hlabel, hscoped⟩ := h.getLocal hget
      exact (up_refLocal h file token (hscoped.ref h hk hlabel file)).bind fun s' h => OkThat.ok h
    · refine OkThat.bindOption fun v hv => ?_
      refine (up_addVar h v (by rw [ofToken_types hv]; exact fun _ h => nomatch h) (ofToken_heads hv)).bind fun c hc => ?_
      exact (up_declareNew hc.1.inv file hk (ofToken_scoped hk hv rfl hc.2)).bind fun p hp => OkThat.ok (hc.1.trans hp)
  · next name types text =>
    good_simp at hg
    exact (up_visitDocVar file fuel hg.1 (fun t ht => ⟨good_typeRefs (good_orNil hg.2) t ht, exempt (w.docs _ _ _ hn t ht)⟩) parent h).bind fun s' h => OkThat.ok h
  · next types var _ _ =>
    good_simp at hg
    have hvar : w.toks var := by grind
    have htypes : Parser.Good w.toks types := by grind
    refine OkThat.bindOption fun ts hts => OkThat.bindOption fun v hv => ?_
    refine (up_addVar h { v with dataTypes := ts } (mapM_toType hts fun t ht =>
      ⟨flatTypeRefs_typed (good_list htypes) t ht, exempt (w.caught _ _ _ _ _ _ hn t ht)⟩) (ofToken_heads (v := v) hv)).bind fun c hc => ?_
    exact (up_declareOver hc.1.inv file hvar (ofToken_scoped hvar hv rfl hc.2) false (fun e => nomatch e)).bind
      fun s' h => OkThat.ok (hc.1.trans h)
  · next collection _ kv _ _ =>
    good_simp at hg
    have hkv : In w kv := hn.child (by simp [Node.children])
    have hcol : In w collection := hn.child (by simp [Node.children])
    split
    · split
      · exact (up_foreachItem file _ hkv h).bind fun s' h => OkThat.ok h
      · exact OkThat.ok h.up
    · refine (up_memberType H file fuel s _ h (hcol.child (by simp [Node.children]))).bind fun p hp => ?_
      split
      · exact (up_foreachItem file _ hkv hp.inv).bind fun s' h => OkThat.ok (hp.trans h)
      · exact OkThat.ok hp
    · exact OkThat.ok h.up
  · good_simp at hg
    exact (up_visitArgument file fuel hn (by grind) parent h).bind fun s' h => OkThat.ok h
  · exact (up_resolveEach fuel h _ (getTypeRefs_typed _ hn.toks) parent).bind fun s' h => OkThat.ok h
  · next left token right =>
    split
    · exact (up_visitAssignment H file fuel (hn.child (by simp [Node.children])) (hn.child (by simp [Node.children])) h).bind
        fun s' h => OkThat.ok h
    · exact OkThat.ok h.up
  · exact (up_memberType H file fuel s _ h hn).bind fun p hp => OkThat.ok hp
  · exact (up_memberType H file fuel s _ h hn).bind fun p hp => OkThat.ok hp
  · exact OkThat.ok h.up
  · exact OkThat.ok h.up

theorem Inv.scoped {s : Env} (h : Inv w s) {l : List (Dict Text NodeId)} (hl : ∀ d ∈ l, d = [] ∨ d ∈ s.resolver.localScopes) :
    Up w s { s with resolver := { s.resolver with localScopes := l } } := by
  refine h.set ⟨h.known.globals, ?_, h.known.cls, h.known.cache, h.known.refs, fun e he => (h.known.told e he).imp_right fun x =>
    x.later (fun _ _ h => h) (fun _ h => h) fun _ h => h⟩
  intro d hd e he
  rcases hl d hd with hd | hd
  · subst hd; cases he
  · exact h.known.scopes d hd e he

theorem Inv.contained {s : Env} (h : Inv w s) (c : NodeId) :
    Up w s { s with resolver := { s.resolver with scopeContainer := c } } :=
  h.set ⟨h.known.globals, h.known.scopes, h.known.cls, h.known.cache, h.known.refs, fun e he =>
    (h.known.told e he).imp_right fun x => x.later (fun _ _ h => h) (fun _ h => h) fun _ h => h⟩

theorem Inv.pushed {s : Env} (h : Inv w s) : Up w s { s with resolver := s.resolver.pushScope } :=
  h.scoped fun _ hd => List.mem_cons.1 hd

theorem Inv.cloned {s : Env} (h : Inv w s) : Up w s { s with resolver := s.resolver.cloneScope } := by
  refine h.scoped fun d hd => ?_
  rcases List.mem_cons.1 hd with hd | hd
  · cases hs : s.resolver.localScopes with
    | nil => rw [hs] at hd; exact Or.inl hd
    | cons t r => rw [hs] at hd; exact Or.inr (by rw [hd]; exact List.mem_cons_self ..)
  · exact Or.inr hd

theorem up_beforeFunction (file : NodeId) {name : Token} (hk : w.toks name) {s : Env} (h : Inv w s) :
    OkThat (Up w s) (Env.beforeFunction file name s) := by
  unfold Env.beforeFunction
  have h0 := h.pushed
  refine OkThat.bindOption fun n hn => ?_
  refine (childNamed_at _ n).bind fun c hc => ?_
  split
  · exact OkThat.ok h0
  · next m =>
    refine OkThat.bindOption fun range hr => OkThat.ok ?_
    have h1 := h0.inv.contained m
    obtain ⟨v, h2, rfl⟩ := hc m rfl
    exact (h0.trans h1).trans (h1.inv.addRef file range ⟨v, h2, .declared hk hr (Or.inr hn)⟩)

theorem up_beforeProperty (file : NodeId) {name : Token} (hk : w.toks name) {s : Env} (h : Inv w s) :
    OkThat (Up w s) (Env.beforeProperty file name s) := by
  unfold Env.beforeProperty
  split
  · exact OkThat.ok h.up
  · next label hl =>
    refine (childNamed_at s _).bind fun c hc => ?_
    split
    · exact OkThat.ok h.up
    · next m =>
      obtain ⟨v, h2, rfl⟩ := hc m rfl
      exact OkThat.bindOption fun range hr => OkThat.ok (h.addRef file range ⟨v, h2, .declared hk hr (Or.inl hl)⟩)

theorem up_beforeName (file : NodeId) {node : Node} (hn : In w node) (parent : NodeId) {s : Env} (h : Inv w s) :
    OkThat (Up w s) (Env.beforeName file node parent s) := by
  have hg : Parser.Good w.toks node := hn.toks
  unfold Env.beforeName
  split
  · good_simp at hg
    exact up_beforeFunction file (by grind) h
  · good_simp at hg
    exact up_beforeFunction file (by grind) h
  · good_simp at hg
    exact up_beforeProperty file hg.1 h
  · good_simp at hg
    exact up_beforeProperty file hg.1 h
  · have h0 := h.cloned
    refine OkThat.bindOption fun range _ => ?_
    refine (childNamed_at _ _).bind fun c hc => ?_
    split
    · exact OkThat.ok h0
    · next m => exact OkThat.ok (h0.trans (h0.inv.contained m))
  · exact OkThat.ok h.up

theorem up_afterName (node : Node) (parent : NodeId) {s : Env} (h : Inv w s) : OkThat (Up w s) (Env.afterName node parent s) := by
  have leave : Up w s { s with resolver := { s.resolver.leaveClass with scopeContainer := parent } } :=
    h.set ⟨h.known.globals, h.known.scopes, (fun c e => nomatch e), h.known.cache, h.known.refs, fun e he =>
      (h.known.told e he).imp_right fun x => x.later (fun _ _ h => h) (fun _ h => h) fun _ h => h⟩
  have pop : Up w s { s with resolver := { s.resolver.popScope with scopeContainer := parent } } :=
    h.set ⟨h.known.globals, fun d hd => h.known.scopes d (List.mem_of_mem_tail hd), h.known.cls, h.known.cache,
      h.known.refs, fun e he => (h.known.told e he).imp_right fun x => x.later (fun _ _ h => h) (fun _ h => h) fun _ h => h⟩
  unfold Env.afterName
  split
  · exact OkThat.ok leave
  · exact OkThat.ok leave
  · exact OkThat.ok leave
  · exact OkThat.ok pop
  · exact OkThat.ok pop
  · exact OkThat.ok pop
  · exact OkThat.ok h.up

/-- The walk over a tree: every recorded reference is one. -/
theorem up_traverse (H : HashOrder) (file : NodeId) (depth : Nat) : ∀ (fuel : Nat) (node : Node) (parent : NodeId) (s : Env), w.nodes node → Inv w s →
    OkThat (Up w s) (traverse Node.children (Env.nameVisitor w.U H file depth) fuel node parent s)
  | 0, _, _, _, _, _ => OkThat.deep
  | fuel + 1, node, parent, s, hn, h => by
    unfold traverse
    refine (up_beforeName file hn parent h).bind fun s1 h1 => ?_
    refine (up_visitName H file depth hn parent h1.inv).bind fun p hp => ?_
    have h2 := h1.trans hp
    refine OkThat.bind (Q := Up w s) ?_ fun s3 h3 => (up_afterName node parent h3.inv).mono fun _ h4 => h3.trans h4
    split
    · exact OkThat.ok h2
    · refine Resolver.foldlM_mem (P := Up w s) _ _ ?_ h2
      intro s' c hc h'
      exact (up_traverse H file depth fuel c _ s' (w.sub _ hn c hc) h'.inv).mono fun _ h4 => h'.trans h4

end Named

end PhpLs
