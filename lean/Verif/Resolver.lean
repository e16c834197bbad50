import Verif.Symbol
import Verif.Dict
import Verif.Out

/-!
# Resolving names

Model of `NameResolver` (`src/environment/visitor/name_resolver.rs` 12–362) and of the methods of `Symbol` that ask for parents,
traits and members (`src/environment/symbol.rs` 121–165, 447–720).

The functions of the code call each other without a bound; here each call takes one from a bound, and `Out.deep` is the result
if it runs out.
-/

namespace PhpLs

/-- `Reference` (`src/environment/visitor/name_resolver.rs` 12–25). -/
structure NameRef where
  range : NodeRange
  node : NodeId
deriving DecidableEq, Repr

/-- `DiagnosticSeverity` of the LSP, the two values used. -/
inductive Severity where
  | error
  | warning
deriving DecidableEq, Repr

/-- `Notification` (`src/environment/mod.rs` 75–81). -/
structure Notification where
  file : Text
  message : Text
  range : NodeRange
  severity : Severity
deriving DecidableEq, Repr

/-- `NameResolver` (`src/environment/visitor/name_resolver.rs` 29–49).  The innermost scope is the first one of
`localScopes`; in the code it is the last one of the vector. -/
structure Resolver where
  globalScope : Dict Text NodeId
  localScopes : List (Dict Text NodeId)
  currentClass : Option NodeId
  scopeContainer : NodeId
  documentReferences : Dict NodeId (List NameRef)
  diagnostics : List Notification
  cache : Dict (NodeId × NodeRange) (Option NodeId)
deriving DecidableEq

namespace Resolver

/-- `NameResolver::new` (`src/environment/visitor/name_resolver.rs` 52–62). -/
def new (globalScope : Dict Text NodeId) (scopeContainer : NodeId) : Resolver where
  globalScope := globalScope
  localScopes := [[]]
  currentClass := none
  scopeContainer := scopeContainer
  documentReferences := []
  diagnostics := []
  cache := []

/-- `NameResolver::diagnostic` (`src/environment/visitor/name_resolver.rs` 70–84). -/
def diagnostic (r : Resolver) (n : Notification) : Resolver := { r with diagnostics := r.diagnostics ++ [n] }

/-- `NameResolver::push_scope` (`src/environment/visitor/name_resolver.rs` 87–89). -/
def pushScope (r : Resolver) : Resolver := { r with localScopes := [] :: r.localScopes }

/-- `NameResolver::clone_scope` (`src/environment/visitor/name_resolver.rs` 92–100). -/
def cloneScope (r : Resolver) : Resolver := { r with localScopes := r.localScopes.headD [] :: r.localScopes }

/-- `NameResolver::pop_scope` (`src/environment/visitor/name_resolver.rs` 103–105). -/
def popScope (r : Resolver) : Resolver := { r with localScopes := r.localScopes.tail }

/-- `NameResolver::enter_class` (`src/environment/visitor/name_resolver.rs` 108–111). -/
def enterClass (r : Resolver) (node : NodeId) : Resolver := { r with currentClass := some node, scopeContainer := node }

/-- `NameResolver::leave_class` (`src/environment/visitor/name_resolver.rs` 114–116). -/
def leaveClass (r : Resolver) : Resolver := { r with currentClass := none }

/-- `NameResolver::get_local` (`src/environment/visitor/name_resolver.rs` 120–137). -/
def getLocal (r : Resolver) (token : Token) : Option NodeId :=
  match token.label with
  | none => none
  | some label =>
    match (if token.t = .variable ∧ label = c!"this" then r.currentClass else none) with
    | some c => some c
    | none =>
      match r.localScopes with
      | [] => none
      | top :: _ => Dict.get? top label

/-- `NameResolver::reference` (`src/environment/visitor/name_resolver.rs` 145–150). -/
def reference (r : Resolver) (file : NodeId) (ref : NameRef) : Resolver :=
  { r with documentReferences :=
      Dict.insert r.documentReferences file ((Dict.get? r.documentReferences file).getD [] ++ [ref]) }

/-- `NameResolver::reference_local` (`src/environment/visitor/name_resolver.rs` 140–142). -/
def referenceLocal (r : Resolver) (file : NodeId) (token : Token) (node : NodeId) : Out Resolver := do
  let range ← .ofOption token.range
  pure (r.reference file ⟨range, node⟩)

/-- `NameResolver::declare_local_if_new` (`src/environment/visitor/name_resolver.rs` 159–181). -/
def declareLocalIfNew (r : Resolver) (file : NodeId) (token : Token) (v : NodeId) : Out (Option NodeId × Resolver) :=
  match r.localScopes, token.label with
  | [], _ => .ok (none, r)
  | _ :: _, none => .ok (none, r)
  | top :: rest, some name =>
    match Dict.get? top name with
    | some node => do
      let range ← .ofOption token.range
      pure (some node, r.reference file ⟨range, node⟩)
    | none => do
      let r := { r with localScopes := Dict.insert top name v :: rest }
      let r ← r.referenceLocal file token v
      pure (some v, r)

/-- `NameResolver::declare_or_overwrite_local` (`src/environment/visitor/name_resolver.rs` 187–203). -/
def declareOrOverwriteLocal (r : Resolver) (file : NodeId) (token : Token) (t : NodeId) (addRef : Bool) : Out Resolver :=
  let r :=
    match r.localScopes, token.label with
    | top :: rest, some label => { r with localScopes := Dict.insert top label t :: rest }
    | _, _ => r
  if addRef then r.referenceLocal file token t else .ok r

/-- `NameResolver::resolve_fully_qualified` (`src/environment/visitor/name_resolver.rs` 206–208). -/
def resolveFullyQualified (U : Unicode) (r : Resolver) (name : Text) : Option NodeId :=
  Dict.get? r.globalScope (U.lower name)

/-- `self.cache.insert(cache_key, node)` (`src/environment/visitor/name_resolver.rs` 237, 248, 259, 268, 357). -/
def cached (r : Resolver) (key : NodeId × NodeRange) (node : Option NodeId) : Resolver :=
  { r with cache := Dict.insert r.cache key node }

/-- The local names and full names of imports (`src/environment/visitor/name_resolver.rs` 272–277): a later import with the same
local name replaces an earlier one.  `none` is a panic of `name` or `full_name`. -/
def importMap (U : Unicode) : List SymbolImport → Dict Text Text → Option (Dict Text Text)
  | [], d => some d
  | i :: r, d => do
    let n ← i.name
    let f ← i.fullName
    importMap U r (Dict.insert d (U.lower n) f)

/-- The name of the first namespace among some symbols (`src/environment/visitor/name_resolver.rs` 284–291). -/
def firstNamespace : List (NodeId × Symbol) → Option Text
  | [] => none
  | (_, s) :: r => if s.kind = .namespace then some s.plainName else firstNamespace r

/-- The current namespace (`src/environment/visitor/name_resolver.rs` 279–296). -/
def currentNamespace (anchor : Symbol) (fileChildren : List (NodeId × Symbol)) : Text :=
  match anchor.namespace with
  | some ns => ns
  | none => (firstNamespace fileChildren).getD []

/-- `joined_name` (`src/environment/visitor/name_resolver.rs` 299–321): `none` is a panic of `to_string`.  The slice `[1..]`
cannot fail: the first token of a fully qualified name is a backslash. -/
def joinedName (U : Unicode) (t : TypeRef) (name : Text) (imports : Dict Text Text) (ns : Text) : Option Text :=
  if t.isFullyQualified then t.toFqdn.map (·.drop 1)
  else
    match Dict.get? imports (U.lower name) with
    | some i => if t.kind.length > 1 then (TypeRef.displayAll t.stem).map (i ++ ·) else some i
    | none => if ns.isEmpty then t.toFqdn else t.toFqdn.map fun n => ns ++ '\\' :: n

/-- `bool::to_string`, used in the message. -/
def boolText (b : Bool) : Text := if b then c!"true" else c!"false"

/-- The look up of the joined name, else of the first segment (`src/environment/visitor/name_resolver.rs` 324–330, 338): the
symbol and the name it was found under. -/
def lookupGlobal (U : Unicode) (globalScope : Dict Text NodeId) (joined name : Text) : Option (NodeId × Text) :=
  match Dict.get? globalScope (U.lower joined) with
  | some n => some (n, joined)
  | none =>
    match Dict.get? globalScope (U.lower name) with
    | some n => some (n, name)
    | none => none

/-- The part of `resolve_type_ref` behind the look up of the name (`src/environment/visitor/name_resolver.rs` 324–359). -/
def lookup (U : Unicode) (a : Arena Symbol) (r : Resolver) (t : TypeRef) (file : NodeId) (fileName name : Text)
    (range : NodeRange) (joined : Text) (registerRef : Bool) : Out (Option NodeId × Resolver) :=
  match lookupGlobal U r.globalScope joined name with
  | none =>
    let r := r.diagnostic ⟨fileName,
      c!"Unresolvable type (" ++ boolText t.isFullyQualified ++ c!") '" ++ joined ++ c!"'", range, .error⟩
    .ok (none, r.cached (file, range) none)
  | some (node, compName) => do
    let r := if registerRef then r.reference file ⟨range, node⟩ else r
    let s ← .ofOption (a.get? node)
    let r := if s.fqdnMatches compName then r else r.diagnostic ⟨fileName,
      c!"Case mismatch between call and definition " ++ compName ++ c!" vs " ++ s.fqdn, range, .warning⟩
    pure (some node, r.cached (file, range) (some node))

/-- The part of `resolve_type_ref` for names other than `self`, `static` and `parent`
(`src/environment/visitor/name_resolver.rs` 272–359). -/
def resolveName (U : Unicode) (a : Arena Symbol) (r : Resolver) (t : TypeRef) (anchor file : NodeId) (fileSymbol : Symbol)
    (name : Text) (range : NodeRange) (registerRef : Bool) : Out (Option NodeId × Resolver) := do
  let imports ← .ofOption (importMap U (fileSymbol.imports.getD []) [])
  let anchorSymbol ← .ofOption (a.get? anchor)
  let fileChildren ← .ofOption (a.children? file)
  let joined ← .ofOption (joinedName U t name imports (currentNamespace anchorSymbol fileChildren))
  lookup U a r t file fileSymbol.plainName name range joined registerRef

mutual

/-- `NameResolver::resolve_type_ref` (`src/environment/visitor/name_resolver.rs` 211–360). -/
def resolveTypeRef (U : Unicode) (a : Arena Symbol) : Nat → Resolver → TypeRef → NodeId → Bool → Out (Option NodeId × Resolver)
  | 0, _, _, _, _ => .deep
  | fuel + 1, r, t, anchor, registerRef =>
    if t.isBuiltin || t.isEmpty then .ok (none, r)
    else do
      let ancestors ← .ofOption (a.ancestors? anchor)
      let file ← .ofOption ancestors.getLast?
      let fileSymbol ← .ofOption (a.get? file)
      let root ← .ofOption t.root
      let name ← .ofOption root
      let range ← .ofOption t.range
      match Dict.get? r.cache (file, range) with
      | some c => .ok (c, r)
      | none =>
        if name = c!"self" ∨ name = c!"static" then
          match r.currentClass with
          | some c => .ok (some c, r.cached (file, range) (some c))
          | none =>
            let r := r.diagnostic ⟨fileSymbol.plainName, c!"Can only be used inside a class", range, .error⟩
            .ok (none, r.cached (file, range) none)
        else if name = c!"parent" then
          match r.currentClass with
          | some c => do
            let s ← .ofOption (a.get? c)
            let p ← uniqueParent U a fuel r s c
            .ok (p.1, p.2.cached (file, range) p.1)
          | none =>
            let r := r.diagnostic ⟨fileSymbol.plainName, c!"Parent can only be used inside a class", range, .error⟩
            .ok (none, r.cached (file, range) none)
        else resolveName U a r t anchor file fileSymbol name range registerRef

/-- `Symbol::get_unique_parent` (`src/environment/symbol.rs` 651–664). -/
def uniqueParent (U : Unicode) (a : Arena Symbol) : Nat → Resolver → Symbol → NodeId → Out (Option NodeId × Resolver)
  | 0, _, _, _ => .deep
  | fuel + 1, r, s, ctx => do
    let p ← parentNodes U a fuel r s ctx
    match p.1 with
    | [e] => .ok (some e.2, p.2)
    | _ => .ok (none, p.2)

/-- `Symbol::get_parent_nodes` (`src/environment/symbol.rs` 666–684). -/
def parentNodes (U : Unicode) (a : Arena Symbol) : Nat → Resolver → Symbol → NodeId → Out (Dict Text NodeId × Resolver)
  | 0, _, _, _ => .deep
  | fuel + 1, r, s, ctx =>
    (s.inheritsFrom.getD []).foldlM (init := ([], r)) fun acc ref => do
      let p ← resolveTypeRef U a fuel acc.2 ref.typeRef ctx false
      match p.1 with
      | none => .ok (acc.1, p.2)
      | some node => do
        let n ← .ofOption (a.get? node)
        .ok (Dict.insert acc.1 (n.normalizedName U) node, p.2)

end

/-- `NameResolver::resolve_type_ref` for each of a list of names, those that are resolved
(`.filter_map(|tr| resolver.resolve_type_ref(tr, ..)).collect()`, `src/environment/symbol.rs` 517–520, 634–638). -/
def resolveAll (U : Unicode) (a : Arena Symbol) (fuel : Nat) (r : Resolver) (ctx : NodeId) (ts : List TypeRef) :
    Out (List NodeId × Resolver) :=
  ts.foldlM (init := ([], r)) fun acc t => do
    let p ← resolveTypeRef U a fuel acc.2 t ctx false
    .ok (acc.1 ++ p.1.toList, p.2)

end Resolver

/-- `SymbolAlias` (`src/environment/symbol.rs` 135–141). -/
structure SymbolAlias where
  symbol : NodeId
  «alias» : Text
  visibility : Visibility
  origin : NodeId
deriving DecidableEq, Repr

/-- `SymbolAlias::aliased` (`src/environment/symbol.rs` 154–156). -/
def SymbolAlias.aliased (s : SymbolAlias) (label : Text) : SymbolAlias := { s with «alias» := label }

/-- `SymbolAlias::pass_along` (`src/environment/symbol.rs` 161–166). -/
def SymbolAlias.passAlong (s : SymbolAlias) (origin : NodeId) : SymbolAlias := { s with origin := origin }

/-- `HashMap<String, SymbolAlias>`. -/
abbrev Members := Dict Text SymbolAlias

namespace Resolver

/-- `all_children.entry(name).or_insert_with(Vec::new).push(node)` for all members of a trait
(`src/environment/symbol.rs` 491–496). -/
def addCandidates (d : Dict Text (List SymbolAlias)) (m : Members) : Dict Text (List SymbolAlias) :=
  m.foldl (fun d e => Dict.insert d e.1 ((Dict.get? d e.1).getD [] ++ [e.2])) d

/-- One `insteadof` rule (`src/environment/symbol.rs` 508–539). -/
def insteadOf (U : Unicode) (a : Arena Symbol) (fuel : Nat) (ctx : NodeId) (acc : Dict Text (List SymbolAlias) × Resolver)
    (cls : TypeRef) (member : Text) (insteadOfs : List TypeRef) : Out (Dict Text (List SymbolAlias) × Resolver) := do
  let losers ← resolveAll U a fuel acc.2 ctx insteadOfs
  let winner ← resolveTypeRef U a fuel losers.2 cls ctx false
  match winner.1 with
  | none => .ok (acc.1, winner.2)
  | some w =>
    match Dict.get? acc.1 (U.lower member) with
    | none => .ok (acc.1, winner.2)
    | some aliases =>
      let kept := aliases.filter fun x => x.origin = w || !losers.1.contains x.origin
      .ok (Dict.insert acc.1 (U.lower member) kept, winner.2)

/-- All `insteadof` rules (`src/environment/symbol.rs` 505–541). -/
def insteadOfs (U : Unicode) (a : Arena Symbol) (fuel : Nat) (ctx : NodeId) :
    List TraitUseAlteration → Dict Text (List SymbolAlias) × Resolver → Out (Dict Text (List SymbolAlias) × Resolver)
  | [], acc => .ok acc
  | .asRule .. :: r, acc => insteadOfs U a fuel ctx r acc
  | .insteadOf c m l :: r, acc => do
    let acc ← insteadOf U a fuel ctx acc c m l
    insteadOfs U a fuel ctx r acc

/-- `children.insert(key, *val.first().unwrap())` for all candidates (`src/environment/symbol.rs` 544–547): `none` is the panic
of `unwrap` if no candidate is left. -/
def firsts : Dict Text (List SymbolAlias) → Option Members
  | [] => some []
  | (k, l) :: r => do
    let x ← l.head?
    let m ← firsts r
    pure ((k, x) :: m)

/-- Replace the visibility if a rule names one (`src/environment/symbol.rs` 593–595). -/
def withVisibility (s : SymbolAlias) (v : Visibility) : SymbolAlias := if v = .none then s else { s with visibility := v }

/-- One `as` rule (`src/environment/symbol.rs` 552–605). -/
def asRule (U : Unicode) (a : Arena Symbol) (fuel : Nat) (ctx : NodeId) (orig : Dict Text (List SymbolAlias))
    (acc : Members × Resolver) (visibility : Option Token) (cls : Option TypeRef) (member : Text) («alias» : Option Token) :
    Out (Members × Resolver) :=
  let v := Visibility.ofToken visibility
  match «alias» with
  | some k =>
    match k.label with
    | none => .ok acc
    | some label =>
      match cls with
      | some c => do
        let p ← resolveTypeRef U a fuel acc.2 c ctx false
        match p.1 with
        | none => .ok (acc.1, p.2)
        | some n =>
          match ((Dict.get? orig (U.lower member)).getD []).find? (fun o => o.origin = n) with
          | none => .ok (acc.1, p.2)
          | some o => .ok (Dict.insert acc.1 (U.lower label) (withVisibility (o.aliased label) v), p.2)
      | none =>
        match Dict.get? acc.1 (U.lower member) with
        | none => .ok acc
        | some o => .ok (Dict.insert acc.1 (U.lower label) (withVisibility (o.aliased label) v), acc.2)
  | none =>
    match Dict.get? acc.1 (U.lower member) with
    | none => .ok acc
    | some o => .ok (Dict.insert acc.1 (U.lower member) (withVisibility o v), acc.2)

/-- All `as` rules (`src/environment/symbol.rs` 549–606). -/
def asRules (U : Unicode) (a : Arena Symbol) (fuel : Nat) (ctx : NodeId) (orig : Dict Text (List SymbolAlias)) :
    List TraitUseAlteration → Members × Resolver → Out (Members × Resolver)
  | [], acc => .ok acc
  | .insteadOf .. :: r, acc => asRules U a fuel ctx orig r acc
  | .asRule v c m l :: r, acc => do
    let acc ← asRule U a fuel ctx orig acc v c m l
    asRules U a fuel ctx orig r acc

/-- The rules applied to the members of all used traits (`src/environment/symbol.rs` 501–606). -/
def applyRules (U : Unicode) (a : Arena Symbol) (fuel : Nat) (ctx : NodeId) (rules : List TraitUseAlteration)
    (all : Dict Text (List SymbolAlias) × Resolver) : Out (Members × Resolver) := do
  let kept ← insteadOfs U a fuel ctx rules all
  let children ← .ofOption (firsts kept.1)
  asRules U a fuel ctx all.1 rules (children, kept.2)

/-- A symbol's own children (`src/environment/symbol.rs` 617–628). -/
def ownMembers (U : Unicode) (ctx : NodeId) : List (NodeId × Symbol) → Members
  | [] => []
  | l => l.foldl (fun d c => Dict.insert d (c.2.normalizedName U) ⟨c.1, c.2.plainName, c.2.visibility, ctx⟩) []

mutual

/-- `Symbol::get_all_symbols` (`src/environment/symbol.rs` 610–649).  In all calls the symbol is that of `ctx`. -/
def allSymbols (U : Unicode) (H : HashOrder) (a : Arena Symbol) : Nat → Resolver → NodeId → Out (Members × Resolver)
  | 0, _, _ => .deep
  | fuel + 1, r, ctx => do
    let s ← .ofOption (a.get? ctx)
    let cs ← .ofOption (a.children? ctx)
    let own := ownMembers U ctx cs
    let imports ← importedSymbols U H a fuel r s ctx
    let children := Dict.extend own imports.1
    let types ← resolveAll U a fuel imports.2 ctx (s.dataTypes.map (·.typeRef))
    let typed ← types.1.foldlM (init := (children, types.2)) fun acc dt =>
      if ctx = dt then .ok acc
      else do
        let m ← allSymbols U H a fuel acc.2 dt
        .ok (Dict.extend acc.1 m.1, m.2)
    let inherited ← inheritedSymbols U H a fuel typed.2 s ctx
    .ok (Dict.extend typed.1 inherited.1, inherited.2)

/-- `Symbol::get_imports` (`src/environment/symbol.rs` 475–607). -/
def importedSymbols (U : Unicode) (H : HashOrder) (a : Arena Symbol) : Nat → Resolver → Symbol → NodeId →
    Out (Members × Resolver)
  | 0, _, _, _ => .deep
  | fuel + 1, r, s, ctx => do
    let all ← (s.imports.getD []).foldlM (init := (([] : Dict Text (List SymbolAlias)), r)) fun acc import_ => do
      let p ← resolveTypeRef U a fuel acc.2 import_.path ctx false
      match p.1 with
      | none => .ok (acc.1, p.2)
      | some used => do
        let t ← .ofOption (a.get? used)
        if t.kind ≠ .trait then .ok (acc.1, p.2)
        else do
          let m ← allSymbols U H a fuel p.2 used
          .ok (addCandidates acc.1 m.1, m.2)
    applyRules U a fuel ctx (s.importResolutions.getD []) all

/-- `Symbol::get_inherited_symbols` (`src/environment/symbol.rs` 447–472): of the parents, in the order in which the hash map
hands them out, the first one that has a member wins. -/
def inheritedSymbols (U : Unicode) (H : HashOrder) (a : Arena Symbol) : Nat → Resolver → Symbol → NodeId →
    Out (Members × Resolver)
  | 0, _, _, _ => .deep
  | fuel + 1, r, s, ctx => do
    let parents ← parentNodes U a fuel r s ctx
    let m ← (H.order parents.1).foldlM (init := (([] : Members), parents.2)) fun acc p => do
      let m ← allSymbols U H a fuel acc.2 p.2
      .ok (Dict.extend m.1 acc.1, m.2)
    .ok (m.1.map fun e => (e.1, e.2.passAlong ctx), m.2)

end

/-- `Symbol::is_child_of` (`src/environment/symbol.rs` 686–709): the parents' names are resolved in the context of the first
symbol asked.  After `return true` the remaining parents are not looked at. -/
def isChildOf (U : Unicode) (H : HashOrder) (a : Arena Symbol) : Nat → Resolver → Symbol → NodeId → NodeId →
    Out (Bool × Resolver)
  | 0, _, _, _, _ => .deep
  | fuel + 1, r, s, ctx, searchFor => do
    let parents ← parentNodes U a fuel r s ctx
    (H.order parents.1).foldlM (init := (false, parents.2)) fun acc p =>
      if acc.1 then .ok acc
      else if p.2 = searchFor then .ok (true, acc.2)
      else do
        let s ← .ofOption (a.get? p.2)
        isChildOf U H a fuel acc.2 s ctx searchFor

end Resolver

end PhpLs
