import Verif.Token

/-!
# Visibilities

Model of `src/environment/symbol.rs` lines 45–111.
-/

namespace PhpLs

/-- `Visibility` (`src/environment/symbol.rs` 45–58). -/
inductive Visibility where
  | none
  | «public»
  | «protected»
  | «private»
deriving DecidableEq, Repr

/-- `partial_cmp` of `impl PartialOrd for Visibility` (`src/environment/symbol.rs` 77–95).  It always returns `Some`. -/
def Visibility.partialCmp (self other : Visibility) : Option Ordering :=
  if self = other then
    some .eq
  else if self = .none ∨ self = .public then
    some .gt
  else if self = .private then
    some .lt
  else if other = .private then
    some .gt
  else
    some .lt

/-- The operator `>=` the compiler derives from `partial_cmp` (`core::cmp::PartialOrd::ge`). -/
def Visibility.ge (a b : Visibility) : Bool := a.partialCmp b == some .gt || a.partialCmp b == some .eq

/-- The operator `>` (`core::cmp::PartialOrd::gt`). -/
def Visibility.gt (a b : Visibility) : Bool := a.partialCmp b == some .gt

/-- The operator `<` (`core::cmp::PartialOrd::lt`). -/
def Visibility.lt (a b : Visibility) : Bool := a.partialCmp b == some .lt

/-- The operator `<=` (`core::cmp::PartialOrd::le`). -/
def Visibility.le (a b : Visibility) : Bool := a.partialCmp b == some .lt || a.partialCmp b == some .eq

/-- `impl From<&Option<Token>> for Visibility` (`src/environment/symbol.rs` 98–111). -/
def Visibility.ofToken (token : Option Token) : Visibility :=
  match token with
  | some token =>
    match token.t with
    | .kwPrivate => .private
    | .kwProtected => .protected
    | .kwPublic => .public
    | _ => .none
  | Option.none => .none

end PhpLs
