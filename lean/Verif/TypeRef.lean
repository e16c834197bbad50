import Verif.Node

/-!
# Names

Model of `impl TypeRef` (`src/parser/node.rs` 154–321).  `none` as the result of a function that returns no `Option` in the
code is a panic.
-/

namespace PhpLs

namespace TypeRef

/-- `TypeRef::one`, `From<Vec<Token>>` (`src/parser/node.rs` 155–160, 314–321). -/
def one (kind : List Token) : TypeRef := ⟨kind, false⟩

/-- `TypeRef::many` (`src/parser/node.rs` 162–167). -/
def many (kind : List Token) : TypeRef := ⟨kind, true⟩

/-- `TypeRef::to_collection_item` (`src/parser/node.rs` 169–174). -/
def toCollectionItem (t : TypeRef) : TypeRef := ⟨t.kind, false⟩

/-- `TypeRef::append` (`src/parser/node.rs` 176–187). -/
def append (orig appendix : TypeRef) : TypeRef := ⟨orig.kind ++ appendix.kind, orig.multiple⟩

/-- `TypeRef::is_fully_qualified` (`src/parser/node.rs` 200–206). -/
def isFullyQualified (t : TypeRef) : Bool :=
  match t.kind with
  | [] => false
  | k :: _ => k.t == .namespaceSeparator

/-- The token types of built-in types (`src/parser/node.rs` 212–237). -/
def builtinTypes : List TT := [.typeString, .typeSelf, .kwStatic, .mixed, .typeArray, .typeBool, .typeInt, .typeFloat,
  .kwNull, .typeObject, .constFile, .constDir, .constClass, .constFunction, .constMethod, .kwCallable, .constLine,
  .constTrait, .binaryNumber, .decimalNumber, .exponentialNumber, .hexNumber, .longNumber, .generator, .resource, .kwVoid]

/-- `TypeRef::is_builtin` (`src/parser/node.rs` 209–243). -/
def isBuiltin (t : TypeRef) : Bool :=
  match t.kind with
  | [k] => builtinTypes.contains k.t
  | _ => false

/-- `TypeRef::is_empty` (`src/parser/node.rs` 299–301). -/
def isEmpty (t : TypeRef) : Bool := t.kind.length == 0 || (t.isFullyQualified && t.kind.length == 1)

/-- `TypeRef::root` (`src/parser/node.rs` 247–257): the outer `none` is a panic of `to_string`; indexing cannot fail, as the
name is not empty. -/
def root (t : TypeRef) : Option (Option Text) :=
  if t.isEmpty then some none
  else
    match t.kind with
    | [] => some none
    | k :: r =>
      if t.isFullyQualified then
        match r with
        | [] => none
        | k' :: _ => k'.display.map some
      else k.display.map some

/-- `TypeRef::stem` (`src/parser/node.rs` 261–267). -/
def stem (t : TypeRef) : List Token := if t.isFullyQualified then t.kind.drop 2 else t.kind.drop 1

/-- `TypeRef::root_token` (`src/parser/node.rs` 273–275). -/
def rootToken (t : TypeRef) : Option Token := t.kind.head?

/-- `TypeRef::tip` (`src/parser/node.rs` 277–285). -/
def tip (t : TypeRef) : Option Text :=
  match t.kind.getLast? with
  | some k => k.label
  | none => none

/-- The texts of a list of tokens, one after the other (`Vec::join("")` of `to_string`); `none` is a panic of `to_string`. -/
def displayAll : List Token → Option Text
  | [] => some []
  | k :: r => do
    let a ← k.display
    let b ← displayAll r
    pure (a ++ b)

/-- `TypeRef::to_fqdn` and `From<&TypeRef> for String` (`src/parser/node.rs` 287–293, 304–312). -/
def toFqdn (t : TypeRef) : Option Text := displayAll t.kind

end TypeRef

end PhpLs
