import Verif.ResolverLemmas
import Verif.ArenaLemmas

/-!
# C26, C27, C28: resolving names
-/

namespace PhpLs.Resolver

/-! ## What a name means

The specification: a name is a list of segments, with or without a leading backslash. -/

/-- The tokens of a name without leading backslash: segments with backslashes between them. -/
inductive Segments : List Token → List Text → Prop where
  | one {k : Token} {x : Text} : k.display = some x → Segments [k] [x]
  | more {k sep : Token} {r : List Token} {x : Text} {xs : List Text} : k.display = some x → sep.display = some ['\\'] →
      Segments r xs → Segments (k :: sep :: r) (x :: xs)

/-- The name `t` is written with the segments `x`, `xs…`, behind a backslash if `lead`. -/
def Spelled (t : TypeRef) (lead : Bool) (x : Text) (xs : List Text) : Prop :=
  if lead then ∃ sep r, t.kind = sep :: r ∧ sep.t = .namespaceSeparator ∧ sep.display = some ['\\'] ∧ Segments r (x :: xs)
  else Segments t.kind (x :: xs) ∧ ∀ k ∈ t.kind.head?, k.t ≠ .namespaceSeparator

/-- Segments with backslashes between them. -/
def joinNs : List Text → Text
  | [] => []
  | [x] => x
  | x :: r => x ++ '\\' :: joinNs r

/-- What the last import with the local name `x` (up to case) stands for. -/
def importNamed (U : Unicode) (l : List SymbolImport) (x : Text) : Option Text :=
  l.reverse.find? (fun i => i.name.map U.lower = some (U.lower x)) >>= SymbolImport.fullName

/-- The full name by the rules of PHP: a name with a leading backslash is the full name; else the first segment is replaced if
it is imported; else the name is below the current namespace. -/
def phpName (U : Unicode) (imports : List SymbolImport) (ns : Text) (lead : Bool) (x : Text) (xs : List Text) : Text :=
  if lead then joinNs (x :: xs)
  else
    match importNamed U imports x with
    | some full => joinNs (full :: xs)
    | none => if ns = [] then joinNs (x :: xs) else joinNs (ns :: x :: xs)

/-- The place where a name is looked at: the symbol around it and the file. -/
structure Site (a : Arena Symbol) (anchor file : NodeId) (anchorSymbol fileSymbol : Symbol) (tops : List (NodeId × Symbol)) :
    Prop where
  chain : ∃ l, a.ancestors? anchor = some (l ++ [file])
  anchorAt : a.get? anchor = some anchorSymbol
  fileAt : a.get? file = some fileSymbol
  topsAt : a.children? file = some tops

/-- The names with a meaning of their own. -/
def Special (x : Text) : Prop := x = c!"self" ∨ x = c!"static" ∨ x = c!"parent"

/-- The imports of a file have a name each. -/
def Readable (l : List SymbolImport) : Prop := ∀ i ∈ l, i.name ≠ none ∧ i.fullName ≠ none

/-! ## Lemmas -/

private theorem displayAll_segments {ks : List Token} {xs : List Text} (h : Segments ks xs) :
    TypeRef.displayAll ks = some (joinNs xs) := by
  induction h with
  | one h => simp [TypeRef.displayAll, h, joinNs]
  | @more k sep r x xs h1 h2 h3 ih =>
    simp only [TypeRef.displayAll, h1, h2, ih]
    cases h3 <;> simp [joinNs]

private theorem Segments.length {ks : List Token} {x : Text} {xs : List Text} (h : Segments ks (x :: xs)) :
    ∃ k, ks.head? = some k ∧ k.display = some x ∧ (xs = [] → ks.length = 1) ∧
      (xs ≠ [] → ks.length > 1 ∧ TypeRef.displayAll (ks.drop 1) = some ('\\' :: joinNs xs)) := by
  cases h with
  | one h => exact ⟨_, rfl, h, by simp, by simp⟩
  | @more k sep r x xs h1 h2 h3 =>
    refine ⟨_, rfl, h1, ?_, ?_⟩
    · rintro rfl
      cases h3
    · intro _
      refine ⟨by simp, ?_⟩
      simp [TypeRef.displayAll, h2, displayAll_segments h3]

private theorem Spelled.facts {t : TypeRef} {lead : Bool} {x : Text} {xs : List Text} (h : Spelled t lead x xs) :
    t.isFullyQualified = lead ∧ t.isEmpty = false ∧ t.root = some (some x) := by
  cases lead with
  | true =>
    obtain ⟨sep, r, hk, ht, hd, hs⟩ := h
    obtain ⟨k, h1, h2, _, _⟩ := hs.length
    cases r with
    | nil => simp at h1
    | cons k' r =>
      simp at h1
      subst h1
      have hq : t.isFullyQualified = true := by simp [TypeRef.isFullyQualified, hk, ht]
      have he : t.isEmpty = false := by simp [TypeRef.isEmpty, hq, hk]
      exact ⟨hq, he, by simp [TypeRef.root, he, hq, hk, h2]⟩
  | false =>
    obtain ⟨hs, hh⟩ := h
    obtain ⟨k, h1, h2, _, _⟩ := hs.length
    have hkind : ∃ r, t.kind = k :: r := by
      cases hk : t.kind with
      | nil => simp [hk] at h1
      | cons k' r => simp [hk] at h1; exact ⟨r, by rw [h1]⟩
    obtain ⟨r, hk⟩ := hkind
    have hq : t.isFullyQualified = false := by
      simp [TypeRef.isFullyQualified, hk]
      exact hh k (by simp [hk])
    have he : t.isEmpty = false := by simp [TypeRef.isEmpty, hq, hk]
    exact ⟨hq, he, by simp [TypeRef.root, he, hq, hk, h2]⟩

theorem importMap_get {U : Unicode} {l : List SymbolImport} : ∀ {d d' : Dict Text Text}, importMap U l d = some d' → ∀ k,
    Dict.get? d' k =
      match l.reverse.find? (fun i => i.name.map U.lower = some k) with
      | some i => i.fullName
      | none => Dict.get? d k := by
  induction l with
  | nil =>
    intro d d' h k
    simp only [importMap, Option.some.injEq] at h
    simp [h]
  | cons i r ih =>
    intro d d' h k
    simp only [importMap] at h
    cases hn : i.name with
    | none => simp [hn] at h
    | some n =>
      cases hf : i.fullName with
      | none => simp [hn, hf] at h
      | some f =>
        simp only [hn, hf, Option.bind_eq_bind, Option.bind_some] at h
        rw [ih h k, List.reverse_cons, List.find?_append]
        cases r.reverse.find? (fun i => i.name.map U.lower = some k) with
        | some j => rfl
        | none =>
          simp only [Option.none_or, List.find?_cons, List.find?_nil, hn, Option.map_some, Option.some.injEq,
            Dict.get?_insert]
          by_cases e : U.lower n = k
          · simp [e, hf]
          · simp [e]

theorem importMap_some {U : Unicode} {l : List SymbolImport} (h : Readable l) : ∀ d, ∃ d', importMap U l d = some d' := by
  induction l with
  | nil => intro d; exact ⟨d, rfl⟩
  | cons i r ih =>
    intro d
    obtain ⟨hn, hf⟩ := h i List.mem_cons_self
    obtain ⟨n, hn⟩ := Option.ne_none_iff_exists'.1 hn
    obtain ⟨f, hf⟩ := Option.ne_none_iff_exists'.1 hf
    obtain ⟨d', hd⟩ := ih (fun j hj => h j (List.mem_cons_of_mem _ hj)) (Dict.insert d (U.lower n) f)
    exact ⟨d', by simp [importMap, hn, hf, hd]⟩

private theorem joinedName_eq {U : Unicode} {t : TypeRef} {lead : Bool} {x : Text} {xs : List Text} (h : Spelled t lead x xs)
    {l : List SymbolImport} {d : Dict Text Text} (hd : importMap U l [] = some d) (ns : Text) :
    joinedName U t x d ns = some (phpName U l ns lead x xs) := by
  have hq := h.facts.1
  cases lead with
  | true =>
    obtain ⟨sep, r, hk, ht, hdp, hs⟩ := h
    simp [joinedName, hq, phpName, TypeRef.toFqdn, hk, TypeRef.displayAll, hdp, displayAll_segments hs]
  | false =>
    obtain ⟨hs, hh⟩ := h
    obtain ⟨k, h1, h2, h3, h4⟩ := hs.length
    simp only [joinedName, hq, Bool.false_eq_true, if_false, phpName, importMap_get hd, importNamed, Dict.get?]
    cases hf : l.reverse.find? (fun i => i.name.map U.lower = some (U.lower x)) with
    | some i =>
      have hi : i.fullName ≠ none := by
        intro hn
        have hmem : i ∈ l := by simpa using List.mem_of_find?_eq_some hf
        clear hf h3 h4
        have : ∀ (l : List SymbolImport) (d d' : Dict Text Text), importMap U l d = some d' → i ∈ l → False := by
          intro l
          induction l with
          | nil => simp
          | cons j r ih =>
            intro d d' hd hm
            simp only [importMap] at hd
            cases hjn : j.name with
            | none => simp [hjn] at hd
            | some n =>
              cases hjf : j.fullName with
              | none => simp [hjn, hjf] at hd
              | some f =>
                simp only [hjn, hjf, Option.bind_eq_bind, Option.bind_some] at hd
                rcases List.mem_cons.1 hm with rfl | hm
                · simp [hn] at hjf
                · exact ih _ _ hd hm
        exact this l [] d hd hmem
      obtain ⟨f, hf⟩ := Option.ne_none_iff_exists'.1 hi
      simp only [hf, Option.bind_eq_bind, Option.bind_some]
      by_cases hxs : xs = []
      · subst hxs
        simp [h3 rfl, joinNs]
      · obtain ⟨h5, h6⟩ := h4 hxs
        have : t.stem = t.kind.drop 1 := by simp [TypeRef.stem, hq]
        rw [if_pos h5, this, h6]
        cases xs with
        | nil => exact absurd rfl hxs
        | cons y ys => simp [joinNs]
    | none =>
      simp only [Option.bind_eq_bind, Option.bind_none, TypeRef.toFqdn, displayAll_segments hs, Option.map_some]
      by_cases hns : ns = []
      · simp [hns]
      · simp [hns, joinNs]

/-- The setting of a name that is resolved for the first time: it is written in a way the parser writes names, it is no type
built into the language, and nothing is remembered for its place. -/
structure Fresh (U : Unicode) (a : Arena Symbol) (r : Resolver) (t : TypeRef) (anchor file : NodeId)
    (anchorSymbol fileSymbol : Symbol) (tops : List (NodeId × Symbol)) (lead : Bool) (x : Text) (xs : List Text)
    (range : NodeRange) : Prop where
  site : Site a anchor file anchorSymbol fileSymbol tops
  spelled : Spelled t lead x xs
  notBuiltin : t.isBuiltin = false
  notSpecial : ¬ Special x
  rangeAt : t.range = some range
  notCached : Dict.get? r.cache (file, range) = none
  readable : Readable (fileSymbol.imports.getD [])

/-- The full name the rules of PHP give to the name. -/
def fullNameAt (U : Unicode) (anchorSymbol fileSymbol : Symbol) (tops : List (NodeId × Symbol)) (lead : Bool) (x : Text)
    (xs : List Text) : Text :=
  phpName U (fileSymbol.imports.getD []) (currentNamespace anchorSymbol tops) lead x xs

private theorem resolve_fresh {U : Unicode} {a : Arena Symbol} {r : Resolver} {t : TypeRef} {anchor file : NodeId}
    {anchorSymbol fileSymbol : Symbol} {tops : List (NodeId × Symbol)} {lead : Bool} {x : Text} {xs : List Text}
    {range : NodeRange} (h : Fresh U a r t anchor file anchorSymbol fileSymbol tops lead x xs range) (fuel : Nat) (reg : Bool) :
    resolveTypeRef U a (fuel + 1) r t anchor reg =
      lookup U a r t file fileSymbol.plainName x range (fullNameAt U anchorSymbol fileSymbol tops lead x xs) reg := by
  obtain ⟨hs1, hs2, hs3⟩ := h.spelled.facts
  obtain ⟨l, hl⟩ := h.site.chain
  obtain ⟨d, hd⟩ := importMap_some (U := U) h.readable []
  have n1 : ¬ (x = c!"self" ∨ x = c!"static") := fun e => h.notSpecial (e.elim .inl (fun e => .inr (.inl e)))
  have n2 : ¬ x = c!"parent" := fun e => h.notSpecial (.inr (.inr e))
  unfold resolveTypeRef
  simp only [h.notBuiltin, hs2, Bool.or_self, Bool.false_eq_true, if_false, hl, Out.ofOption_some, Out.bind_ok,
    List.getLast?_append, List.getLast?_singleton, Option.some_or, h.site.fileAt, hs3, h.rangeAt, h.notCached, if_neg n1,
    if_neg n2]
  simp only [resolveName, hd, Out.ofOption_some, Out.bind_ok, h.site.anchorAt, h.site.topsAt,
    joinedName_eq h.spelled hd (currentNamespace anchorSymbol tops), fullNameAt]

/-! ## C26 -/

section

variable {U : Unicode} {a : Arena Symbol} {r : Resolver} {t : TypeRef} {anchor file : NodeId} {anchorSymbol fileSymbol : Symbol}
  {tops : List (NodeId × Symbol)} {lead : Bool} {x : Text} {xs : List Text} {range : NodeRange}

/-- All symbols of the global table exist. -/
def GlobalLive (a : Arena Symbol) (r : Resolver) : Prop := ∀ k n, Dict.get? r.globalScope k = some n → a.get? n ≠ none

/-- C26.  If there is a global symbol with the name's full name by the rules of PHP (up to case), the name is resolved to it. -/
theorem C26_found (h : Fresh U a r t anchor file anchorSymbol fileSymbol tops lead x xs range) (hl : GlobalLive a r) {n : NodeId}
    (hn : Dict.get? r.globalScope (U.lower (fullNameAt U anchorSymbol fileSymbol tops lead x xs)) = some n) (fuel : Nat)
    (reg : Bool) : ∃ r', resolveTypeRef U a (fuel + 1) r t anchor reg = .ok (some n, r') := by
  obtain ⟨s, hs⟩ := Option.ne_none_iff_exists'.1 (hl _ _ hn)
  rw [resolve_fresh h]
  simp [lookup, lookupGlobal, hn, hs]

/-- C26.  If there is neither a global symbol with this full name nor one with the name of the first segment, the name is not
resolved, and exactly one error at the place of the name is reported. -/
theorem C26_unresolved (h : Fresh U a r t anchor file anchorSymbol fileSymbol tops lead x xs range)
    (h1 : Dict.get? r.globalScope (U.lower (fullNameAt U anchorSymbol fileSymbol tops lead x xs)) = none)
    (h2 : Dict.get? r.globalScope (U.lower x) = none) (fuel : Nat) (reg : Bool) :
    ∃ r' m, resolveTypeRef U a (fuel + 1) r t anchor reg = .ok (none, r') ∧
      r'.diagnostics = r.diagnostics ++ [⟨fileSymbol.plainName, m, range, .error⟩] ∧
      r'.documentReferences = r.documentReferences := by
  rw [resolve_fresh h]
  simp only [lookup, lookupGlobal, h1, h2]
  exact ⟨_, _, rfl, rfl, rfl⟩

/-- C26, the part that holds: a name is only resolved to the symbol with its full name, or else to the symbol that has the
first segment of the name as its whole name.  Missing: the code should not do the latter (see `C26_fails_fallback`). -/
theorem C26_only_partial (h : Fresh U a r t anchor file anchorSymbol fileSymbol tops lead x xs range) (hl : GlobalLive a r)
    (fuel : Nat) (reg : Bool) :
    ∃ r', resolveTypeRef U a (fuel + 1) r t anchor reg =
      .ok ((Dict.get? r.globalScope (U.lower (fullNameAt U anchorSymbol fileSymbol tops lead x xs))).or
        (Dict.get? r.globalScope (U.lower x)), r') := by
  cases h1 : Dict.get? r.globalScope (U.lower (fullNameAt U anchorSymbol fileSymbol tops lead x xs)) with
  | some n => exact C26_found h hl h1 fuel reg
  | none =>
    cases h2 : Dict.get? r.globalScope (U.lower x) with
    | none =>
      obtain ⟨r', _, h3, _⟩ := C26_unresolved h h1 h2 fuel reg
      exact ⟨r', h3⟩
    | some n =>
      obtain ⟨s, hs⟩ := Option.ne_none_iff_exists'.1 (hl _ _ h2)
      rw [resolve_fresh h]
      simp [lookup, lookupGlobal, h1, h2, hs]

/-- C26, warnings.  The name under which the symbol was found, the full name or else the first segment, is compared with the name
of the symbol: exactly if they differ, also in case, and not only by a leading backslash, one warning at the place of the name is
reported, and no error. -/
theorem C26_warned (h : Fresh U a r t anchor file anchorSymbol fileSymbol tops lead x xs range) {n : NodeId} {s : Symbol}
    {used : Text} (hs : a.get? n = some s)
    (hn : (Dict.get? r.globalScope (U.lower (fullNameAt U anchorSymbol fileSymbol tops lead x xs)) = some n ∧
        used = fullNameAt U anchorSymbol fileSymbol tops lead x xs) ∨
      (Dict.get? r.globalScope (U.lower (fullNameAt U anchorSymbol fileSymbol tops lead x xs)) = none ∧
        Dict.get? r.globalScope (U.lower x) = some n ∧ used = x)) (fuel : Nat) (reg : Bool) :
    ∃ r', resolveTypeRef U a (fuel + 1) r t anchor reg = .ok (some n, r') ∧
      (s.fqdn = used ∨ s.fqdn = '\\' :: used → r'.diagnostics = r.diagnostics) ∧
      (¬ (s.fqdn = used ∨ s.fqdn = '\\' :: used) →
        ∃ m, r'.diagnostics = r.diagnostics ++ [⟨fileSymbol.plainName, m, range, .warning⟩]) := by
  have hg : lookupGlobal U r.globalScope (fullNameAt U anchorSymbol fileSymbol tops lead x xs) x = some (n, used) := by
    rcases hn with ⟨h1, rfl⟩ | ⟨h1, h2, rfl⟩
    · simp [lookupGlobal, h1]
    · simp [lookupGlobal, h1, h2]
  have hm : s.fqdnMatches used = true ↔ s.fqdn = used ∨ s.fqdn = '\\' :: used := by
    unfold Symbol.fqdnMatches
    by_cases e1 : s.fqdn = used
    · simp [e1]
    · by_cases e2 : s.fqdn = '\\' :: used
      · simp [e2]
      · simp [e1, e2]
  rw [resolve_fresh h]
  simp only [lookup, hg, hs, Out.ofOption_some, Out.bind_ok]
  refine ⟨_, rfl, fun hw => ?_, fun hw => ?_⟩
  · rw [if_pos (hm.mpr hw)]
    cases reg <;> rfl
  · rw [if_neg (fun e => hw (hm.mp e))]
    cases reg <;> exact ⟨_, rfl⟩

/-- C26 for a name of one segment without leading backslash, not imported, in the global namespace: the name is resolved if and
only if there is a global symbol with this name (up to case), and to that one.  Here the fallback does no harm. -/
theorem C26_global_exact (h : Fresh U a r t anchor file anchorSymbol fileSymbol tops false x [] range) (hl : GlobalLive a r)
    (hns : currentNamespace anchorSymbol tops = []) (hi : importNamed U (fileSymbol.imports.getD []) x = none) (fuel : Nat)
    (reg : Bool) :
    ∃ r', resolveTypeRef U a (fuel + 1) r t anchor reg = .ok (Dict.get? r.globalScope (U.lower x), r') := by
  obtain ⟨r', h1⟩ := C26_only_partial h hl fuel reg
  have : fullNameAt U anchorSymbol fileSymbol tops false x [] = x := by simp [fullNameAt, phpName, hi, hns, joinNs]
  rw [this] at h1
  exact ⟨r', by rw [h1]; simp⟩

end

/-! ## C27 -/

/-- Two ASCII texts that are equal up to case. -/
def SameUpToCase (s s' : Text) : Prop :=
  (∀ c ∈ s, c.toNat < 128) ∧ (∀ c ∈ s', c.toNat < 128) ∧ s.map Char.toLower = s'.map Char.toLower

private theorem SameUpToCase.lower {U : Unicode} {s s' : Text} (h : SameUpToCase s s') : U.lower s = U.lower s' := by
  rw [U.lower_ascii s h.1, U.lower_ascii s' h.2.1, h.2.2]

private theorem SameUpToCase.append {s s' t t' : Text} (h : SameUpToCase s s') (h' : SameUpToCase t t') :
    SameUpToCase (s ++ '\\' :: t) (s' ++ '\\' :: t') := by
  refine ⟨?_, ?_, by simp [h.2.2, h'.2.2]⟩
  · intro c hc
    simp at hc
    rcases hc with hc | rfl | hc
    · exact h.1 c hc
    · decide
    · exact h'.1 c hc
  · intro c hc
    simp at hc
    rcases hc with hc | rfl | hc
    · exact h.2.1 c hc
    · decide
    · exact h'.2.1 c hc

/-- Two lists of texts that are equal up to case, one by one. -/
inductive SameSegments : List Text → List Text → Prop where
  | nil : SameSegments [] []
  | cons {x x' : Text} {xs xs' : List Text} : SameUpToCase x x' → SameSegments xs xs' → SameSegments (x :: xs) (x' :: xs')

private theorem SameSegments.join {l l' : List Text} (h : SameSegments l l') : SameUpToCase (joinNs l) (joinNs l') := by
  induction h with
  | nil => exact ⟨by simp [joinNs], by simp [joinNs], rfl⟩
  | @cons x x' xs xs' h1 h2 ih =>
    cases h2 with
    | nil => simpa [joinNs] using h1
    | cons h3 h4 => simpa only [joinNs] using h1.append ih

/-- C27.  Names in any two places (the two settings may differ in everything else, too) with the same current namespace and the
same global table, whose segments are equal up to case and whose first segments stand for the same imported name up to case,
are resolved to the same symbol.  For ASCII names. -/
theorem C27_case {U : Unicode} {a a' : Arena Symbol} {r r' : Resolver} {t t' : TypeRef} {anchor anchor' file file' : NodeId}
    {s s' f f' : Symbol} {tops tops' : List (NodeId × Symbol)} {lead : Bool} {x x' : Text} {xs xs' : List Text}
    {range range' : NodeRange} (h : Fresh U a r t anchor file s f tops lead x xs range)
    (h' : Fresh U a' r' t' anchor' file' s' f' tops' lead x' xs' range') (hl : GlobalLive a r) (hl' : GlobalLive a' r')
    (hg : r.globalScope = r'.globalScope) (hx : SameSegments (x :: xs) (x' :: xs'))
    (hns : SameUpToCase (currentNamespace s tops) (currentNamespace s' tops'))
    (hi : (importNamed U (f.imports.getD []) x = none ∧ importNamed U (f'.imports.getD []) x' = none) ∨
      ∃ i i', importNamed U (f.imports.getD []) x = some i ∧ importNamed U (f'.imports.getD []) x' = some i' ∧ SameUpToCase i i')
    (fuel : Nat) (reg : Bool) :
    ∃ o r1 r2, resolveTypeRef U a (fuel + 1) r t anchor reg = .ok (o, r1) ∧
      resolveTypeRef U a' (fuel + 1) r' t' anchor' reg = .ok (o, r2) := by
  have hx0 : SameUpToCase x x' := by cases hx with | cons h _ => exact h
  have hxs : SameSegments xs xs' := by cases hx with | cons _ h => exact h
  have hfull : U.lower (fullNameAt U s f tops lead x xs) = U.lower (fullNameAt U s' f' tops' lead x' xs') := by
    refine SameUpToCase.lower ?_
    unfold fullNameAt phpName
    cases lead with
    | true => simpa using hx.join
    | false =>
      simp only [Bool.false_eq_true, if_false]
      rcases hi with ⟨h1, h2⟩ | ⟨i, i', h1, h2, h3⟩
      · rw [h1, h2]
        simp only
        by_cases hn : currentNamespace s tops = []
        · have hn' : currentNamespace s' tops' = [] := by
            have := hns.2.2
            rw [hn] at this
            simpa using this.symm
          rw [if_pos hn, if_pos hn']
          exact hx.join
        · have hn' : currentNamespace s' tops' ≠ [] := by
            intro e
            have := hns.2.2
            rw [e] at this
            exact hn (by simpa using this)
          rw [if_neg hn, if_neg hn']
          exact (SameSegments.cons hns hx).join
      · rw [h1, h2]
        exact (SameSegments.cons h3 hxs).join
  obtain ⟨r1, h1⟩ := C26_only_partial h hl fuel reg
  obtain ⟨r2, h2⟩ := C26_only_partial h' hl' fuel reg
  rw [hfull, hg, hx0.lower (U := U)] at h1
  exact ⟨_, r1, r2, h1, h2⟩

/-! ## C28 -/

/-- A request to resolve a name.  Before it, the visitor may change the resolver (`prepare`). -/
structure Ask where
  prepare : Resolver → Resolver
  t : TypeRef
  anchor : NodeId
  reg : Bool

/-- Requests, one after the other: the answers. -/
def asks (U : Unicode) (a : Arena Symbol) (fuel : Nat) : List Ask → Resolver → Out (List (Option NodeId) × Resolver)
  | [], r => .ok ([], r)
  | q :: qs, r => do
    let p ← resolveTypeRef U a fuel (q.prepare r) q.t q.anchor q.reg
    let rest ← asks U a fuel qs p.2
    .ok (p.1 :: rest.1, rest.2)

/-- The visitor forgets nothing. -/
def Ask.Keeps (q : Ask) : Prop := ∀ r, (q.prepare r).cache = r.cache

/-- What a remembered name is resolved to. -/
private theorem resolve_cached {U : Unicode} {a : Arena Symbol} {fuel : Nat} {r : Resolver} {t : TypeRef} {anchor : NodeId}
    {reg : Bool} {k : NodeId × NodeRange} {v : Option NodeId} (hb : (t.isBuiltin || t.isEmpty) = false)
    (hk : keyOf a t anchor = some k) (hv : Dict.get? r.cache k = some v) :
    Out.OkThat (fun p => p.1 = v) (resolveTypeRef U a fuel r t anchor reg) := by
  intro p hp
  obtain ⟨hq, hk'⟩ := query_resolveTypeRef U a fuel r t anchor reg p hp
  obtain ⟨k', h1, h2⟩ := hk' hb
  rw [hk] at h1
  injection h1 with h1
  subst h1
  have := hq.1.cache k v hv
  rw [h2] at this
  injection this

private theorem asks_cached {U : Unicode} {a : Arena Symbol} {fuel : Nat} {t : TypeRef} {anchor : NodeId}
    {k : NodeId × NodeRange} {v : Option NodeId} (hb : (t.isBuiltin || t.isEmpty) = false) (hk : keyOf a t anchor = some k) :
    ∀ (qs : List Ask) (r : Resolver), (∀ q ∈ qs, q.Keeps) → Dict.get? r.cache k = some v →
      Out.OkThat (fun p => ∀ (i : Nat) (q : Ask), qs[i]? = some q → q.t = t → q.anchor = anchor → p.1[i]? = some v) (asks U a fuel qs r)
  | [], r, _, _ => Out.OkThat.ok (by simp)
  | q :: qs, r, hq, hv => by
    unfold asks
    have hv' : Dict.get? (q.prepare r).cache k = some v := by rw [hq q List.mem_cons_self]; exact hv
    intro z hz
    obtain ⟨p, hp, hz⟩ := Out.bind_eq_ok hz
    obtain ⟨rest, hr, hz⟩ := Out.bind_eq_ok hz
    injection hz with hz
    subst hz
    have hstep := (query_resolveTypeRef U a fuel (q.prepare r) q.t q.anchor q.reg p hp).1.1.cache k v hv'
    intro i q' hi ht ha
    cases i with
    | zero =>
      simp at hi
      subst hi
      subst ht ha
      have := resolve_cached hb hk hv' p hp
      simp [this]
    | succ i =>
      simpa using asks_cached hb hk qs p.2 (fun q hq' => hq q (List.mem_cons_of_mem _ hq')) hstep rest hr i q' (by simpa using hi) ht ha

private theorem builtin_none {U : Unicode} {a : Arena Symbol} {fuel : Nat} {r : Resolver} {t : TypeRef} {anchor : NodeId}
    {reg : Bool} (hb : (t.isBuiltin || t.isEmpty) = true) : Out.OkThat (fun p => p.1 = none)
      (resolveTypeRef U a fuel r t anchor reg) := by
  cases fuel with
  | zero => exact Out.OkThat.deep
  | succ fuel =>
    unfold resolveTypeRef
    rw [if_pos hb]
    exact Out.OkThat.ok rfl

private theorem asks_builtin {U : Unicode} {a : Arena Symbol} {fuel : Nat} {t : TypeRef}
    (hb : (t.isBuiltin || t.isEmpty) = true) :
    ∀ (qs : List Ask) (r : Resolver),
      Out.OkThat (fun p => ∀ (i : Nat) (q : Ask), qs[i]? = some q → q.t = t → p.1[i]? = some none) (asks U a fuel qs r)
  | [], r => Out.OkThat.ok (by simp)
  | q :: qs, r => by
    unfold asks
    intro z hz
    obtain ⟨p, hp, hz⟩ := Out.bind_eq_ok hz
    obtain ⟨rest, hr, hz⟩ := Out.bind_eq_ok hz
    injection hz with hz
    subst hz
    intro i q' hi ht
    cases i with
    | zero =>
      simp at hi
      subst hi
      subst ht
      have := builtin_none hb p hp
      simp [this]
    | succ i => simpa using asks_builtin hb qs p.2 rest hr i q' (by simpa using hi) ht

/-- C28.  In every sequence of requests, with or without registration, and whatever the visitor does in between (as long as it
forgets nothing), the same name at the same place gets the same answer each time. -/
theorem C28_repeatable {U : Unicode} {a : Arena Symbol} {fuel : Nat} {r r' : Resolver} {answers : List (Option NodeId)} :
    ∀ {qs : List Ask}, (∀ q ∈ qs, q.Keeps) → asks U a fuel qs r = .ok (answers, r') →
    ∀ (i j : Nat) (q q' : Ask), qs[i]? = some q → qs[j]? = some q' → q.t = q'.t → q.anchor = q'.anchor → answers[i]? = answers[j]? := by
  intro qs
  induction qs generalizing r answers with
  | nil => intro _ _ i j q q' h; simp at h
  | cons q0 qs ih =>
    intro hk h
    unfold asks at h
    obtain ⟨p, hp, h⟩ := Out.bind_eq_ok h
    obtain ⟨rest, hr, h⟩ := Out.bind_eq_ok h
    injection h with h
    injection h with h1 h2
    subst h1 h2
    have hk' := fun q hq => hk q (List.mem_cons_of_mem _ hq)
    -- the first request against a later one
    have first : ∀ (j : Nat) (q' : Ask), qs[j]? = some q' → q'.t = q0.t → q'.anchor = q0.anchor → rest.1[j]? = some p.1 := by
      intro j q' hj ht ha
      cases hb : (q0.t.isBuiltin || q0.t.isEmpty) with
      | false =>
        obtain ⟨k, h1, h2⟩ := (query_resolveTypeRef U a fuel _ q0.t q0.anchor q0.reg p hp).2 hb
        exact asks_cached hb h1 qs p.2 hk' h2 rest hr j q' hj ht ha
      | true =>
        have hp1 : p.1 = none := builtin_none hb p hp
        rw [hp1]
        exact asks_builtin hb qs p.2 rest hr j q' hj ht
    intro i j q q' hi hj ht ha
    cases i with
    | zero =>
      simp at hi
      subst hi
      cases j with
      | zero => rfl
      | succ j =>
        simp only [List.getElem?_cons_succ] at hj
        simp only [List.getElem?_cons_zero, List.getElem?_cons_succ]
        exact (first j q' hj ht.symm ha.symm).symm
    | succ i =>
      simp only [List.getElem?_cons_succ] at hi
      cases j with
      | zero =>
        simp at hj
        subst hj
        simp only [List.getElem?_cons_zero, List.getElem?_cons_succ]
        exact first i q hi ht ha
      | succ j =>
        simp only [List.getElem?_cons_succ] at hj ⊢
        exact ih hk' hr i j q q' hi hj ht ha

/-- C28, the part that holds: a name that is resolved for the first time (it is not remembered) and with registration is
recorded as a reference.  Missing: the same for a name that was resolved before without registration; for that see
`C28_fails_registration`. -/
theorem C28_registered_partial {U : Unicode} {a : Arena Symbol} {r : Resolver} {t : TypeRef} {anchor file : NodeId}
    {s f : Symbol} {tops : List (NodeId × Symbol)} {lead : Bool} {x : Text} {xs : List Text} {range : NodeRange}
    (h : Fresh U a r t anchor file s f tops lead x xs range) {n : NodeId} {r' : Resolver} {fuel : Nat}
    (hn : resolveTypeRef U a (fuel + 1) r t anchor true = .ok (some n, r')) :
    r'.refsOf file = r.refsOf file ++ [⟨range, n⟩] ∧ ∀ g, g ≠ file → r'.refsOf g = r.refsOf g := by
  rw [resolve_fresh h] at hn
  unfold lookup at hn
  cases hg : lookupGlobal U r.globalScope (fullNameAt U s f tops lead x xs) x with
  | none => simp [hg] at hn
  | some p =>
    obtain ⟨m, c⟩ := p
    simp only [hg] at hn
    obtain ⟨s', hs, hn⟩ := Out.bind_eq_ok hn
    simp only [if_true, Out.pure_eq, Out.ok.injEq, Prod.mk.injEq, Option.some.injEq] at hn
    obtain ⟨rfl, rfl⟩ := hn
    have key : ∀ r'' : Resolver, r''.documentReferences = (r.reference file ⟨range, m⟩).documentReferences →
        r''.refsOf file = r.refsOf file ++ [⟨range, m⟩] ∧ ∀ g, g ≠ file → r''.refsOf g = r.refsOf g := by
      intro r'' e
      constructor
      · simp only [refsOf, e, Resolver.reference, Dict.get?_insert]
        simp
      · intro g hg
        simp only [refsOf, e, Resolver.reference, Dict.get?_insert]
        rw [if_neg (Ne.symm hg)]
    apply key
    simp only [Resolver.cached]
    split <;> rfl

/-! ## Examples and the places where the code violates the claims -/

section Examples

private def ident (l : Text) (col : Nat) : Token := ⟨col, 0, .identifier, some l, none⟩
private def sep (col : Nat) : Token := ⟨col, 0, .namespaceSeparator, none, none⟩

/-- A file with the namespace `App`, the imports `use Lib\Dog as Hound; use \Lib\Bird;` and the class `App\Cat`, and another
file with the classes `Lib\Dog`, `Lib\Bird` and `Foo` (in no namespace). -/
private def arena : Arena Symbol :=
  let sym := fun kind name ns => ({ Symbol.default with kind := kind, name := name, «namespace» := ns } : Symbol)
  let a := Arena.empty
  let (file, a) := a.addRoot { sym .file c!"a.php" none with
    imports := some [⟨.one [ident c!"Lib" 4, sep 7, ident c!"Dog" 8], some (ident c!"Hound" 15)⟩,
      ⟨.one [sep 25, ident c!"Lib" 26, sep 29, ident c!"Bird" 30], none⟩] }
  let (_, a) := a.addChild file (sym .namespace c!"App" none)
  let (_, a) := a.addChild file (sym .cls c!"Cat" (some c!"App"))
  let (file2, a) := a.addRoot (sym .file c!"b.php" none)
  let (_, a) := a.addChild file2 (sym .cls c!"Dog" (some c!"Lib"))
  let (_, a) := a.addChild file2 (sym .cls c!"Bird" (some c!"Lib"))
  let (_, a) := a.addChild file2 (sym .cls c!"Foo" none)
  a

private def resolver : Resolver :=
  .new [(c!"app\\cat", ⟨2, 0⟩), (c!"lib\\dog", ⟨4, 0⟩), (c!"lib\\bird", ⟨5, 0⟩), (c!"foo", ⟨6, 0⟩)] ⟨0, 0⟩

/-- The answer to a request in the first file. -/
private def answer (t : TypeRef) : Option (Option NodeId) :=
  match resolveTypeRef Unicode.ascii arena 1 resolver t ⟨0, 0⟩ true with
  | .ok p => some p.1
  | _ => none

/-- `\Lib\Dog`, `hound` (imported, other case), `Hound\Puppy` (no such class, but see below), `CAT` (in the namespace) and
`Fish` (unknown). -/
example : answer (.one [sep 0, ident c!"Lib" 1, sep 4, ident c!"Dog" 5]) = some (some ⟨4, 0⟩) ∧
    answer (.one [ident c!"hound" 0]) = some (some ⟨4, 0⟩) ∧ answer (.one [ident c!"Hound" 0, sep 5, ident c!"Puppy" 6]) = some none ∧
    answer (.one [ident c!"CAT" 0]) = some (some ⟨2, 0⟩) ∧ answer (.one [ident c!"Fish" 0]) = some none := by
  decide +kernel

/-- The hypotheses of C26, C27 and C28 are met by `hound` in the first file. -/
example : ∃ s f tops range, Fresh Unicode.ascii arena resolver (.one [ident c!"hound" 0]) ⟨0, 0⟩ ⟨0, 0⟩ s f tops false c!"hound"
    [] range ∧ importNamed Unicode.ascii (f.imports.getD []) c!"hound" = some c!"Lib\\Dog" ∧
    fullNameAt Unicode.ascii s f tops false c!"hound" [] = c!"Lib\\Dog" := by
  refine ⟨_, _, _, _, ⟨⟨⟨[], rfl⟩, rfl, rfl, rfl⟩, ⟨.one rfl, ?_⟩, rfl, ?_, rfl, rfl, ?_⟩, rfl, rfl⟩
  · intro k hk
    cases hk
    decide
  · rintro (h | h | h) <;> cases h
  · intro i hi
    simp only [Option.getD, List.mem_cons, List.not_mem_nil, or_false] at hi
    rcases hi with rfl | rfl <;> decide

example : GlobalLive arena resolver := by
  intro k n h
  have := Dict.get?_mem h
  simp only [resolver, Resolver.new, List.mem_cons, Prod.mk.injEq, List.not_mem_nil, or_false] at this
  rcases this with ⟨_, rfl⟩ | ⟨_, rfl⟩ | ⟨_, rfl⟩ | ⟨_, rfl⟩ <;> decide

/-- C26 fails: `Foo\Bar`, which stands for `App\Foo\Bar`, is unknown, but it is resolved to the class `Foo`, which has nothing to
do with it; and so is `\Foo\Bar`. -/
theorem C26_fails_fallback : answer (.one [ident c!"Foo" 0, sep 3, ident c!"Bar" 4]) = some (some ⟨6, 0⟩) ∧
    answer (.one [sep 0, ident c!"Foo" 1, sep 4, ident c!"Bar" 5]) = some (some ⟨6, 0⟩) ∧
    ∀ n s, arena.get? n = some s → s.fqdn ≠ c!"App\\Foo\\Bar" ∧ s.fqdn ≠ c!"Foo\\Bar" := by
  refine ⟨by decide +kernel, by decide +kernel, ?_⟩
  intro n s h
  have hall : ∀ x ∈ arena.forest.flat, x.2.fqdn ≠ c!"App\\Foo\\Bar" ∧ x.2.fqdn ≠ c!"Foo\\Bar" := by decide +kernel
  unfold Arena.get? at h
  cases hn : arena.forest.node? n.idx with
  | none => simp [hn] at h
  | some x =>
    obtain ⟨i, v, k⟩ := x
    simp [hn] at h
    subst h
    exact hall _ (Forest.node?_some hn).2.1

/-- C26 fails for an import with a leading backslash: `Bird` stands for the class `Lib\Bird`, which exists, but it is not found. -/
theorem C26_fails_backslash : answer (.one [ident c!"Bird" 0]) = some none := by
  decide +kernel

/-- C28 fails: a name that was resolved without registration first (as the search for members of a class does with the names of
its parents) is not recorded as a reference when it is resolved with registration. -/
theorem C28_fails_registration : ∃ r' n, asks Unicode.ascii arena 1
      [⟨id, .one [ident c!"Cat" 0], ⟨0, 0⟩, false⟩, ⟨id, .one [ident c!"Cat" 0], ⟨0, 0⟩, true⟩] resolver =
        .ok ([some n, some n], r') ∧ ∀ f, r'.refsOf f = [] :=
  ⟨_, ⟨2, 0⟩, rfl, fun _ => rfl⟩

/-- Two requests with registration, and what the visitor does in between. -/
example : ∃ r', asks Unicode.ascii arena 1
      [⟨id, .one [ident c!"Cat" 0], ⟨0, 0⟩, true⟩, ⟨pushScope, .one [ident c!"Cat" 0], ⟨0, 0⟩, true⟩] resolver =
        .ok ([some ⟨2, 0⟩, some ⟨2, 0⟩], r') ∧ r'.refsOf ⟨0, 0⟩ = [⟨⟨0, 0, 3, 0⟩, ⟨2, 0⟩⟩] :=
  ⟨_, rfl, rfl⟩

example : (⟨pushScope, .one [ident c!"Cat" 0], ⟨0, 0⟩, true⟩ : Ask).Keeps := fun _ => rfl

end Examples

end PhpLs.Resolver
