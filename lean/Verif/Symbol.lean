import Verif.NodeInfo
import Verif.Import
import Verif.Range
import Verif.Visibility
import Verif.Arena

/-!
# Symbols

Model of the data types of `src/environment/symbol.rs` (lines 18–231), of `src/environment/scope.rs`, of the methods of `Symbol`
that look at names and positions only (382–445), and of `collect_alterations` (`src/environment/import.rs` 87–160).
-/

namespace PhpLs

/-- `PhpSymbolKind` (`src/environment/symbol.rs` 20–54).  The kinds between `String` and `Operator` and `BuiltInType` are never
given to a symbol by the code; they are kept. -/
inductive SymbolKind where
  | file | namespace | cls | method | property | field | constructor | interface | function | variable | constant | string
  | number | boolean | array | object | key | null | operator | import | builtInType | magicConst | functionParameter | trait
  | unknown
deriving DecidableEq, Repr

/-- `PhpSymbolKind::is_internal` (`src/environment/symbol.rs` 261–266). -/
def SymbolKind.isInternal : SymbolKind → Bool
  | .unknown | .import | .magicConst => true
  | _ => false

/-- `PhpSymbolKind::register_global` (`src/environment/symbol.rs` 268–277). -/
def SymbolKind.registerGlobal : SymbolKind → Bool
  | .cls | .trait | .interface | .function | .constant => true
  | _ => false

/-- `Reference` (`src/environment/scope.rs` 6–15). -/
structure SymRef where
  typeRef : TypeRef
  range : LspRange
  node : Option NodeId
deriving DecidableEq, Repr

/-- `Reference::node` (`src/environment/scope.rs` 27–35): `none` is the panic of `TypeRef::range`. -/
def SymRef.toNode (t : TypeRef) (n : NodeId) : Option SymRef := do
  let r ← t.range
  pure ⟨t, getRange r, some n⟩

/-- `Reference::type_ref` (`src/environment/scope.rs` 38–46): `none` is the panic of `TypeRef::range`. -/
def SymRef.toType (t : TypeRef) : Option SymRef := do
  let r ← t.range
  pure ⟨t, getRange r, none⟩

/-- `TraitUseAlteration` (`src/environment/import.rs` 36–48). -/
inductive TraitUseAlteration where
  | asRule (visibility : Option Token) (cls : Option TypeRef) (member : Text) («alias» : Option Token)
  | insteadOf (cls : TypeRef) (member : Text) (insteadOfs : List TypeRef)
deriving DecidableEq, Repr

/-- `FunctionParameter` (`src/environment/symbol.rs` 113–119), without the syntax node, which nothing reads. -/
structure FunctionParameter where
  symbol : NodeId
deriving DecidableEq, Repr

/-- `Symbol` (`src/environment/symbol.rs` 167–210). -/
structure Symbol where
  kind : SymbolKind
  name : Text
  range : LspRange
  selectionRange : LspRange
  deprecated : Option Bool
  «namespace» : Option Text
  imports : Option (List SymbolImport)
  importResolutions : Option (List TraitUseAlteration)
  inheritsFrom : Option (List SymRef)
  dataTypes : List SymRef
  parameters : List FunctionParameter
  isStatic : Bool
  visibility : Visibility
  isAttribute : Bool
deriving DecidableEq, Repr

namespace Symbol

/-- `Symbol::default` (`src/environment/symbol.rs` 212–231). -/
def default : Symbol where
  kind := .file
  name := []
  range := getRange .empty
  selectionRange := getRange .empty
  deprecated := none
  «namespace» := none
  imports := none
  importResolutions := none
  inheritsFrom := none
  dataTypes := []
  parameters := []
  isStatic := false
  visibility := .none
  isAttribute := false

/-- `Symbol::name` (`src/environment/symbol.rs` 383–389). -/
def plainName (s : Symbol) : Text :=
  match s.name with
  | '$' :: r => r
  | n => n

/-- `Symbol::normalized_name` (`src/environment/symbol.rs` 391–393). -/
def normalizedName (U : Unicode) (s : Symbol) : Text := U.lower s.plainName

/-- `Symbol::fqdn` (`src/environment/symbol.rs` 395–401). -/
def fqdn (s : Symbol) : Text :=
  match s.namespace with
  | some n => n ++ '\\' :: s.plainName
  | none => s.plainName

/-- `Symbol::fqdn_matches` (`src/environment/symbol.rs` 403–418). -/
def fqdnMatches (s : Symbol) (pattern : Text) : Bool :=
  if s.fqdn == pattern then true
  else
    let pattern := '\\' :: pattern
    if s.fqdn == pattern then true
    else '\\' :: s.fqdn == pattern

/-- `From<&Token> for Symbol` (`src/backend/mod.rs` 148–177): `none` is a panic of `to_string`. -/
def ofToken (k : Token) : Option Symbol := do
  let r ← k.range
  let n ← k.display
  pure { default with
    name := n,
    kind := if k.t = .variable then .variable else .unknown,
    range := getRange r,
    selectionRange := getRange r }

end Symbol

/-- The loop over the children in `Symbol::symbol_at` (`src/environment/symbol.rs` 420–445): the trees are the children of
`me`; the first child that is neither a namespace nor a magic constant and contains the position is searched, and if there is
none the answer is `me`. -/
def symbolAtIn (position : Pos) (me : NodeId) : Forest Symbol → NodeId
  | .nil => me
  | .cons c s kids rest =>
    if s.kind = .namespace ∨ s.kind = .magicConst then symbolAtIn position me rest
    else if inRange position s.range then symbolAtIn position c kids
    else symbolAtIn position me rest

/-- `Symbol::symbol_at` (`src/environment/symbol.rs` 420–445): `none` is a panic. -/
def symbolAt (position : Pos) (node : NodeId) (a : Arena Symbol) : Option NodeId :=
  (a.forest.node? node.idx).map fun x => symbolAtIn position node x.2.2

/-- `let class = if let Some(Node::TypeRef(tr)) = left.as_deref()` (`src/environment/import.rs` 109–113, 129–134). -/
def classOf : Option Node → Option TypeRef
  | some (.typeRef t) => some t
  | _ => none

/-- `insteadof_list.iter().map(..)` (`src/environment/import.rs` 135–141): `none` is the `unreachable!`. -/
def typeRefsOf : List Node → Option (List TypeRef)
  | [] => some []
  | .typeRef t :: r => (typeRefsOf r).map (t :: ·)
  | _ :: _ => none

/-- The loop of `collect_alterations` over the rules of one block (`src/environment/import.rs` 100–152). -/
def alterationsOf : List Node → Option (List TraitUseAlteration)
  | [] => some []
  | .useTraitAs left _ member _ visibility asName :: r => do
    let m ← member.name
    let rest ← alterationsOf r
    pure (.asRule visibility (classOf left) m asName :: rest)
  | .useTraitInsteadOf left _ member _ list :: r =>
    match classOf left with
    | none => alterationsOf r
    | some c => do
      let is ← typeRefsOf list
      let m ← member.name
      let rest ← alterationsOf r
      pure (.insteadOf c m is :: rest)
  | _ :: r => alterationsOf r

mutual

/-- `collect_alterations` (`src/environment/import.rs` 87–160): `none` is a panic. -/
def collectAlterations : Node → Option (List TraitUseAlteration)
  | .useTraitAlterationBlock _ _ as _ => alterationsOf as
  | .useTraitStatement _ us => collectAlterationsL us
  | _ => some []

/-- `traits_usages.iter().for_each(|n| rules.extend(collect_alterations(n)))`. -/
def collectAlterationsL : List Node → Option (List TraitUseAlteration)
  | [] => some []
  | n :: r => do
    let a ← collectAlterations n
    let b ← collectAlterationsL r
    pure (a ++ b)

end

end PhpLs
