import Verif.TypeRef

/-!
# Imports

Model of `src/environment/import.rs` (lines 1–244, without the conversion into a symbol and the alterations of traits).
-/

namespace PhpLs

/-- `SymbolImport` (`src/environment/import.rs` 11–15). -/
structure SymbolImport where
  path : TypeRef
  «alias» : Option Token
deriving DecidableEq, Repr

/-- `SymbolImport::name` (`src/environment/import.rs` 50–58): `none` is the panic of `alias.label.clone().unwrap()`. -/
def SymbolImport.name (i : SymbolImport) : Option Text :=
  match i.alias with
  | some a => a.label
  | none =>
    match i.path.tip with
    | some t => some t
    | none => some []

/-- `SymbolImport::full_name` (`src/environment/import.rs` 60–62). -/
def SymbolImport.fullName (i : SymbolImport) : Option Text := i.path.toFqdn

/-- `let import = &collect_uses(..)[0]` with another alias (`src/environment/import.rs` 203–209, 213–219, 223–229): `none` is
the panic of the index. -/
def withAlias (l : Option (List SymbolImport)) (a : Option Token) : Option (List SymbolImport) :=
  match l with
  | some (i :: _) => some [{ i with «alias» := a }]
  | _ => none

mutual

/-- `collect_uses` (`src/environment/import.rs` 163–244): `none` is a panic of one of the `[0]`.  `collect_uses(parent, prefix)`
is only evaluated if the group has members. -/
def collectUses : Node → TypeRef → Option (List SymbolImport)
  | .useTraitAlterationBlock rs _ _ _, p => collectUsesL rs p
  | .useTraitStatement _ us, p => collectUsesL us p
  | .useTrait t, p => collectUses t p
  | .useStatement _ is, p => collectUsesL is p
  | .useFunctionStatement _ is, p => collectUsesL is p
  | .useConstStatement _ is, p => collectUsesL is p
  | .groupedUse _ parent _ uses _, p =>
    match uses with
    | [] => some []
    | u :: us =>
      match collectUses parent p with
      | some (i :: _) => do
        let a ← collectUses u i.path
        let b ← collectUsesL us i.path
        pure (a ++ b)
      | _ => none
  | .useDeclaration _ d _ a, p => withAlias (collectUses d p) a
  | .useFunction _ d _ a, p => withAlias (collectUses d p) a
  | .useConst _ d _ a, p => withAlias (collectUses d p) a
  | .typeRef t, p => some [⟨p.append t, none⟩]
  | _, _ => some []

/-- `nodes.iter().for_each(|n| collected_uses.extend(collect_uses(n, prefix)))`. -/
def collectUsesL : List Node → TypeRef → Option (List SymbolImport)
  | [], _ => some []
  | n :: r, p => do
    let a ← collectUses n p
    let b ← collectUsesL r p
    pure (a ++ b)

end

end PhpLs
