import Verif.Node

/-!
# Doc comments

Model of `src/parser/ast/comments.rs` (lines 8–396).

Simplifications: the characters (stored reversed and popped from the end in Rust) are a list read from the front; `u32`
is `Nat`; loops run on fuel and return `none` when it runs out (`Props/DocBlock.lean` proves that this never happens with
the fuel `docNode` supplies).
-/

namespace PhpLs.DocBlock

open PhpLs

/-- `DocBlockScanner` (`src/parser/ast/comments.rs` 8–14) without the stored comment. -/
structure DSt where
  col : Nat
  line : Nat
  chars : Text
deriving DecidableEq, Repr

/-- `DocBlockScanner::token_type` (`src/parser/ast/comments.rs` 34–52). -/
def tokenType (U : Unicode) (name : Text) : TT :=
  match [(c!"null", TT.kwNull), (c!"mixed", .mixed), (c!"bool", .typeBool), (c!"boolean", .typeBool),
      (c!"int", .typeInt), (c!"integer", .typeInt), (c!"string", .typeString), (c!"binary", .typeString),
      (c!"static", .kwStatic), (c!"self", .typeSelf), (c!"array", .typeArray), (c!"object", .typeObject),
      (c!"float", .typeFloat), (c!"double", .typeFloat), (c!"void", .kwVoid), (c!"callable", .kwCallable),
      (c!"generator", .generator), (c!"resource", .resource)].lookup (U.lower name) with
  | some t => t
  | none => .identifier

/-- `DocBlockScanner::peek` (`src/parser/ast/comments.rs` 335–337). -/
def peek (s : DSt) : Option Char := s.chars.head?

/-- `DocBlockScanner::advance` (`src/parser/ast/comments.rs` 339–352). -/
def advance (s : DSt) : Option Char × DSt :=
  match s.chars with
  | [] => (none, s)
  | c :: r =>
    if c = '\n' ∨ c = '\r' then (some c, ⟨0, s.line + 1, r⟩)
    else (some c, ⟨s.col + 1, s.line, r⟩)

/-- The loop of `skip_blanks`, on the remaining characters. -/
def skipBlanksOn (U : Unicode) : Text → DSt → DSt
  | [], s => s
  | c :: r, s => if U.isSpace c then skipBlanksOn U r (advance s).2 else s

/-- `DocBlockScanner::skip_blanks` (`src/parser/ast/comments.rs` 354–363). -/
def skipBlanks (U : Unicode) (s : DSt) : DSt := skipBlanksOn U s.chars s

/-- The loop of `collect_identifer`, on the remaining characters. -/
def collectIdentOn (U : Unicode) (allowThis : Bool) : Text → DSt → Text × DSt
  | [], s => ([], s)
  | c :: r, s =>
    if U.isAlnum c || c = '_' || (c = '$' && allowThis) then
      let (n, s') := collectIdentOn U allowThis r (advance s).2
      (c :: n, s')
    else ([], s)

/-- `DocBlockScanner::collect_identifer` (`src/parser/ast/comments.rs` 318–332). -/
def collectIdent (U : Unicode) (allowThis : Bool) (s : DSt) : Text × DSt := collectIdentOn U allowThis s.chars s

/-- Lines 298–302 and 307–311 of `collect_type_ref`: the collected parts, if any. -/
def parts (multiple : Bool) (ps : List Token) : Option TypeRef :=
  if ps.isEmpty then none else some ⟨ps, multiple⟩

/-- `DocBlockScanner::collect_type_ref` (`src/parser/ast/comments.rs` 271–316).  The outer `none` is running out of fuel. -/
def collectTypeRef (U : Unicode) (allowThis : Bool) : Nat → List Token → DSt → Option (Option TypeRef × DSt)
  | 0, _, _ => none
  | fuel + 1, ps, s =>
    let start := (s.line, s.col)
    let (ident, s1) := collectIdent U allowThis s
    let ps1 := if ident.isEmpty then ps else ps ++ [Token.named (tokenType U ident) start.1 start.2 0 ident]
    if peek s1 = some '\\' then
      collectTypeRef U allowThis fuel (ps1 ++ [Token.new .namespaceSeparator start.1 start.2 0]) (advance s1).2
    else if peek s1 = some '[' then
      let s2 := (advance s1).2
      let (c, s3) := advance s2
      if c = some ']' then some (parts true ps1, s3)
      else collectTypeRef U allowThis fuel ps1 (advance s3).2
    else some (parts false ps1, s1)

/-- The loops of lines 73–83, 119–129, 157–167 and 205–215 of `scan`: type references separated by `|`. -/
def collectTypes (U : Unicode) (allowThis : Bool) : Nat → List TypeRef → DSt → Option (List TypeRef × DSt)
  | 0, _, _ => none
  | fuel + 1, acc, s => do
    let (t, s1) ← collectTypeRef U allowThis (s.chars.length + 1) [] s
    match t with
    | none => some (acc, s1)
    | some t =>
      if peek s1 = some '|' then collectTypes U allowThis fuel (acc ++ [t]) (advance s1).2
      else some (acc ++ [t], s1)

/-- Lines 87–94, 171–178 and 219–226 of `scan`: the position and the name of the variable. -/
def collectName (U : Unicode) (s : DSt) : Text × DSt :=
  if peek s = some '$' then collectIdent U false (advance s).2 else ([], s)

/-- The loops of lines 97–102, 134–139, 181–186 and 229–234 of `scan`: the description up to the end of the line. -/
def collectDescrOn : Text → DSt → Text × DSt
  | [], s => ([], s)
  | c :: r, s =>
    if c = '\n' then ([], (advance s).2)
    else let (d, s') := collectDescrOn r (advance s).2; (c :: d, s')

/-- As `collectDescrOn`, from the current position. -/
def collectDescr (s : DSt) : Text × DSt := collectDescrOn s.chars s

/-- The local variables of `scan` (`src/parser/ast/comments.rs` 55–60). -/
structure Acc where
  description : Text := []
  isDeprecated : Bool := false
  properties : List Node := []
  params : List Node := []
  returnType : List Node := []
  varDocs : List Node := []

/-- The common part of the directives `@param`, `@var`, `@property` and `@return` (lines 68–104, 115–140, 152–188,
201–236): types, position of the name, name (only if `named`), description. -/
def directive (U : Unicode) (allowThis isNamed : Bool) (s : DSt) : Option (List TypeRef × Token × Text × DSt) := do
  let s := skipBlanks U s
  let (types, s) ← collectTypes U allowThis (s.chars.length + 1) [] s
  let s := skipBlanks U s
  let line := s.line
  let col := s.col
  let (name, s) := if isNamed then collectName U s else ([], s)
  let (descr, s) := collectDescr s
  some (types, Token.named .variable line col 0 name, descr, s)

/-- Lines 145–161 and 238–242: `None` for an empty list of types. -/
def someTypes (l : List TypeRef) : Option (List TypeRef) := if l.isEmpty then none else some l

/-- The body of the `'@'` arm of `scan` (`src/parser/ast/comments.rs` 64–256). -/
def atSign (U : Unicode) (a : Acc) (s : DSt) : Option (Acc × DSt) :=
  let (d, s) := collectIdent U false s
  let s := skipBlanks U s
  if d = c!"param" then do
    let (types, name, descr, s) ← directive U false true s
    some ({ a with params := a.params ++ [.docCommentParam name (some types) descr] }, s)
  else if d = c!"return" then do
    let (types, _, descr, s) ← directive U true false s
    some ({ a with returnType := a.returnType ++ [.docCommentReturn (someTypes types) descr] }, s)
  else if d = c!"var" then do
    let (types, name, descr, s) ← directive U false true s
    some ({ a with varDocs := a.varDocs ++ [.docCommentVar name (some types) descr] }, s)
  else if d = c!"deprecated" then some ({ a with isDeprecated := true }, s)
  else if d = c!"property" then do
    let (types, name, descr, s) ← directive U false true s
    some ({ a with properties := a.properties ++ [.docCommentProperty name (someTypes types) descr] }, s)
  else some (a, s)

/-- `DocBlockScanner::scan` (`src/parser/ast/comments.rs` 54–269): the loop over the characters. -/
def scanLoop (U : Unicode) : Nat → Acc → DSt → Option Acc
  | 0, _, _ => none
  | fuel + 1, a, s =>
    match advance s with
    | (none, _) => some a
    | (some c, s) =>
      if c = '@' then do
        let (a, s) ← atSign U a s
        scanLoop U fuel a s
      else if c = '*' then scanLoop U fuel a s
      else scanLoop U fuel { a with description := a.description ++ [c] } s

/-- `DocBlockScanner::new(comment)` followed by `scan` (`src/parser/ast/comments.rs` 17–32, 54–269).  `none` is the panic
of line 21 (a comment token without a label). -/
def docNode (U : Unicode) (comment : Token) : Option Node := do
  let label ← comment.label
  let a ← scanLoop U (label.length + 1) {} ⟨comment.col + 2, comment.line, label⟩
  some (.docComment comment a.returnType a.description a.isDeprecated a.params a.varDocs a.properties)

/-- `param_comment_for` (`src/parser/ast/comments.rs` 381–396). -/
def paramCommentFor (doc : Option Node) (pName : Token) : Option Node :=
  match doc with
  | some (.docComment _ _ _ _ params _ _) =>
    params.find? fun p =>
      match p with
      | .docCommentParam name _ _ => name.label.isSome && name.label == pName.label
      | _ => false
  | _ => none

end PhpLs.DocBlock
