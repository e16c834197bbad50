import Verif.NodeInfo
import Verif.Backend

/-!
# Formatting

Model of `src/formatter/mod.rs` (lines 1–1332) and of `src/backend/formatting.rs`.  The result `none` is a panic:
`unimplemented!`, an `unwrap`, `Node::range` or the `unreachable!` of `Display`.  The option `max_line_length` is not used by the
code.  `dbg!` (line 1326) is left out.
-/

namespace PhpLs

namespace Formatter

/-- `" ".repeat(n)`. -/
def spaces (n : Nat) : Text := List.replicate n ' '

/-- A fixed text. -/
def lit (t : Text) : Option Text := some t

/-- `Token::to_string`. -/
def tok (k : Token) : Option Text := k.display

/-- Parts one behind the other (`format!`, `parts.join("")`). -/
def cat : List (Option Text) → Option Text
  | [] => some []
  | p :: r => do
    let a ← p
    let b ← cat r
    pure (a ++ b)

/-- `list.join(sep)`. -/
def joinText (sep : Text) : List Text → Text
  | [] => []
  | [t] => t
  | t :: r => t ++ sep ++ joinText sep r

/-- `list.join(sep)`, for texts that may fail. -/
def joined (sep : Text) (l : Option (List Text)) : Option Text := l.map (joinText sep)

/-- The text if the list is not empty (`iter.next().unwrap()`, line 176). -/
def joinedNonEmpty (sep : Text) : Option (List Text) → Option Text
  | some (t :: r) => some (joinText sep (t :: r))
  | _ => none

/-- `push_if_some!` (lines 9–15): with a space behind it. -/
def padded : Option Token → Option Text
  | none => some []
  | some k => cat [tok k, lit c!" "]

/-- `push_unpadded_if_some!`, `str_if_some!` (lines 17–33). -/
def unpadded : Option Token → Option Text
  | none => some []
  | some k => tok k

/-- With fixed texts around it, unless it is empty. -/
def around (pre post : Text) (t : Option Text) : Option Text := cat [lit pre, t, lit post]

/-- The trailing white space goes (`str::trim_end`). -/
def trimEnd (U : Unicode) : Text → Text
  | [] => []
  | c :: r =>
    match trimEnd U r with
    | [] => if U.isSpace c then [] else [c]
    | d :: r' => c :: d :: r'

/-- The leading white space goes (`str::trim_start`). -/
def trimStart (U : Unicode) : Text → Text
  | [] => []
  | c :: r => if U.isSpace c then trimStart U r else c :: r

/-- `str::trim`. -/
def trim (U : Unicode) (t : Text) : Text := trimEnd U (trimStart U t)

/-- Attributes in front of something on the same line (lines 704–709, 757–762, 808–815, 936–939): `shown` is their text. -/
def inlineAttributes (U : Unicode) (attributes : List Node) (shown : Option Text) : Option Text :=
  if attributes.isEmpty then some [] else cat [shown.map (trim U), lit c!" "]

/-- The tokens of a name (`TypeRef::to_fqdn`, `src/parser/node.rs` 287–293). -/
def fqdn (kind : List Token) : Option Text := cat (kind.map tok)

/-- The empty line that is kept between two nodes (lines 92–102). -/
def gap (prevEnd start : Nat) : Text :=
  if prevEnd != 0 && start > prevEnd then List.replicate (min (start - prevEnd - 1) 1) '\n' else []

/-- How far the second constant of a definition is indented (lines 178–181): `str::len` counts bytes. -/
def constOffset (token : Token) (visibility : Option Token) : Option Nat := do
  let t ← tok token
  let v ← unpadded visibility
  pure (byteLen t + 1 + byteLen v)

variable (U : Unicode) (indent : Nat)

mutual

/-- One turn of the loop of `format` (`src/formatter/mod.rs` 106–563), with the line and the column. -/
def stmt : Node → Nat → Nat → Option Text
  | .namedFunctionDefinitionStatement token _ name function attributes, line, col =>
    cat [list attributes 0 line col, lit (spaces col), tok token, lit c!" ", tok name, node function line col]
  | .interface token name extending body _, line, col =>
    cat [lit (spaces col), tok token, lit c!" ", tok name, optList c!" extends " [] extending line col, lit c!" \n",
      lit (spaces col), node body line col]
  | .classStatement token name isAbstract isFinal implementing extending body _ attributes, line, col =>
    cat [list attributes 0 line col, lit (spaces col), padded isFinal, padded isAbstract, tok token, lit c!" ", tok name,
      opt c!" extends " [] extending line col, optList c!" implements " [] implementing line col, lit c!"\n",
      lit (spaces col), node body line col]
  | .classConstantDefinitionStatement token consts _ visibility attributes, line, col =>
    match constOffset token visibility with
    | none => none
    | some offset =>
      cat [list attributes 0 line col, lit (spaces col), padded visibility, tok token, lit c!" ",
        joinedNonEmpty c!",\n " (nodes consts line 0 (col + offset)), lit c!";\n"]
  | .property name value, line, col => cat [tok name, opt c!" = " [] value line col]
  | .propertyDefinitionStatement properties _ visibility _ isStatic isAbstract attributes, line, col =>
    cat [list attributes 0 line col, lit (spaces col), padded isAbstract, padded visibility, padded isStatic,
      list properties 0 line col, lit c!";\n"]
  | .methodDefinitionStatement token isFinal _ name visibility isAbstract function isStatic _ attributes, line, col =>
    cat [list attributes 0 line col, lit (spaces col), padded visibility, padded isStatic, padded isFinal, padded isAbstract,
      tok token, lit c!" ", tok name, node function line col, lit c!"\n"]
  | .useTraitStatement token usages, line, col => cat [lit (spaces col), tok token, lit c!" ", list usages 0 line col]
  | .useTraitAs left paa member asToken visibility asName, line, col =>
    cat [lit (spaces col), opt [] [] left line col, unpadded paa, node member line col, lit c!" ", tok asToken, lit c!" ",
      if asName.isSome then padded visibility else unpadded visibility, unpadded asName, lit c!";\n"]
  | .useTraitInsteadOf left paa member insteadof insteadofList, line, col =>
    cat [lit (spaces col), opt [] [] left line col, unpadded paa, node member line col, lit c!" ", tok insteadof, lit c!" ",
      list insteadofList 0 line col, lit c!";\n"]
  | .useTraitAlterationBlock refs oc alterations cc, line, col =>
    cat [joined c!", " (nodes refs line col col), lit c!" ", tok oc, lit c!"\n", list alterations 0 line (col + indent),
      lit (spaces col), tok cc, lit c!"\n"]
  | .useTrait typeRef, line, col => cat [node typeRef line col, lit c!";\n"]
  | .typeRef t, _, _ => fqdn t.kind
  | .expressionStatement expression, line, col => cat [lit (spaces col), node expression line col, lit c!";\n"]
  | .inlineHtml start stop, _, _ => cat [tok start, unpadded stop]
  | .returnStatement token expression, line, col =>
    cat [lit (spaces col), tok token, opt c!" " [] expression line col, lit c!";\n"]
  | .useFunctionStatement _ imports, line, col =>
    cat [lit (spaces col), lit c!"use", lit c!" function ", joined c!", " (nodes imports line col col), lit c!";\n"]
  | .useConstStatement _ imports, line, col =>
    cat [lit (spaces col), lit c!"use", lit c!" const ", joined c!", " (nodes imports line col col), lit c!";\n"]
  | .useStatement token imports, line, col =>
    cat [lit (spaces col), tok token, lit c!" ", joined c!", " (nodes imports line col col), lit c!";\n"]
  | .attr ats expressions cb, line, col =>
    cat [lit (spaces col), tok ats, joined c!", " (nodes expressions col line line), tok cb, lit c!"\n"]
  | .useDeclaration _ declaration _ _, line, col => node declaration line col
  | .ifStatement ifBranch elseifBranches elseBranch, line, col =>
    cat [lit (spaces col), node ifBranch line col, lit c!" ", joined [] (nodes elseifBranches line col col), lit c!" ",
      opt [] [] elseBranch line col, lit c!"\n"]
  | .staticVariablesStatement token vars, line, col =>
    cat [tok token, lit c!" ", joined c!", " (nodes vars line col col)]
  | .globalVariablesStatement token vars, line, col =>
    cat [tok token, lit c!" ", joined c!", " (nodes vars line col col)]
  | .switchCase _ _ expr _ body, line, col =>
    cat [lit c!"switch", lit c!" ", lit c!"(", node expr line col, lit c!")", lit c!" ", node body line col, lit c!"\n"]
  | .tryCatch _ tryBlock catchBlocks finallyBlock, line, col =>
    cat [lit (spaces col), lit c!"try", lit c!" ", node tryBlock line col, joined [] (nodes catchBlocks line col col), lit c!" ",
      opt [] [] finallyBlock line col, lit c!"\n"]
  | .namespaceStatement token typeRef, line, col => cat [lit c!"\n", tok token, lit c!" ", node typeRef line col, lit c!";\n"]
  | .namespaceBlock token typeRef block, line, col =>
    cat [tok token, lit c!" ", opt [] c!" " typeRef line col, node block (col + indent) line, lit c!"\n"]
  | .whileStatement _ _ condition _ body, line, col =>
    cat [lit (spaces col), lit c!"while", lit c!" ", lit c!"(", node condition line col, lit c!")", lit c!" ", node body line col,
      lit c!"\n"]
  | .doWhileStatement _ _ _ _ condition body, line, col =>
    cat [lit (spaces col), lit c!"do", lit c!" ", node body line col, lit c!" ", lit c!"while", lit c!" ", lit c!"(",
      node condition line col, lit c!")", lit c!";\n"]
  | .forStatement _ init condition step body, line, col =>
    cat [lit (spaces col), lit c!"for", lit c!" (", joined c!", " (nodes init line col col), lit c!"; ",
      joined c!", " (nodes condition line col col), lit c!"; ", joined c!", " (nodes step line col col), lit c!") ",
      node body line col, lit c!"\n"]
  | .forEachStatement _ _ collection _ kv _ body, line, col =>
    cat [lit (spaces col), lit c!"foreach", lit c!" ", lit c!"(", node collection line col, lit c!" ", lit c!"as", lit c!" ",
      node kv line col, lit c!")", lit c!" ", node body line col, lit c!"\n"]
  | .tokenStatement token _, _, col => cat [lit (spaces col), tok token, lit c!";"]
  | .staticExpr token expr, line, col =>
    cat [lit (spaces col), tok token, lit c!" ", joined c!", " (nodes expr line col col), lit c!";\n"]
  | .echoStatement token expressions, line, col =>
    cat [lit (spaces col), tok token, lit c!" ", joined c!", " (nodes expressions line col col), lit c!";\n"]
  | .constStatement token constants, line, col =>
    cat [lit (spaces col), tok token, lit c!" ", joined c!", " (nodes constants line col col), lit c!";\n"]
  | .printStatement token expressions, line, col =>
    cat [lit (spaces col), tok token, lit c!" ", joined c!", " (nodes expressions line col col), lit c!";\n"]
  | _, _, _ => none

/-- `format` (`src/formatter/mod.rs` 88–567): `prevEnd` is the last line of the node before. -/
def list : List Node → Nat → Nat → Nat → Option Text
  | [], _, _, _ => some []
  | n :: r, prevEnd, line, col =>
    match n.range with
    | none => none
    | some range => cat [lit (gap prevEnd range.startLine), stmt n line col, list r range.endLine line col]

/-- `format_node` (`src/formatter/mod.rs` 577–1332), with the line and the column. -/
def node : Node → Nat → Nat → Option Text
  | .grouping expr, line, col => cat [lit c!"(", node expr line col, lit c!")"]
  | .fileInclude token resource, line, col => cat [tok token, lit c!" ", node resource line col]
  | .useDeclaration _ declaration _ aliasName, line, col =>
    match aliasName with
    | some a => cat [node declaration line col, lit c!" ", lit c!"as", lit c!" ", tok a]
    | none => node declaration line col
  | .groupedUse _ parent oc uses cc, line, col =>
    cat [node parent line col, tok oc, lit c!"\n", lit (spaces (col + indent)),
      joined (c!",\n" ++ spaces (col + indent)) (nodes uses line (col + indent) (col + indent)), lit (spaces col), lit c!"\n", tok cc]
  | .classConstant _ name value, line, col => cat [lit (spaces col), tok name, lit c!" = ", node value line col]
  | .block _ statements _, line, col =>
    cat [lit c!"{", lit c!"\n", list statements 0 line (col + indent), lit (spaces col), lit c!"}"]
  | .functionDefinitionStatement op arguments cp returnType body _, line, col =>
    match body with
    | some b => cat [tok op, optList [] [] arguments line col, tok cp, opt [] [] returnType line col, lit c!"\n", lit (spaces col),
        node b line col]
    | none => cat [tok op, optList [] [] arguments line col, tok cp, opt [] [] returnType line col, lit c!";"]
  | .arrowFunction isStatic _ token op arguments cp arrow returnType body attributes, line, col =>
    cat [inlineAttributes U attributes (list attributes 0 line 0), unpadded isStatic, tok token, lit c!" ", tok op,
      optList [] [] arguments line col, tok cp, opt [] [] returnType line col, lit c!" ", tok arrow, lit c!" ", node body line col]
  | .closure isStatic _ token op arguments cp uses returnType body attributes, line, col =>
    cat [inlineAttributes U attributes (list attributes 0 line 0), unpadded isStatic, tok token, lit c!" ", tok op,
      optList [] [] arguments line col, tok cp, opt [] [] returnType line col, optList c!"(" c!")" uses line col, lit c!" ",
      node body line col]
  | .returnType token dataType, line, col => cat [tok token, lit c!" ", node dataType line col]
  | .binary left token right, line, col => cat [node left line col, lit c!" ", tok token, lit c!" ", node right line col]
  | .newExpr token cls, line, col => cat [tok token, lit c!" ", node cls line col]
  | .cloneExpr token object, line, col => cat [tok token, lit c!" ", node object line col]
  | .yieldFrom token expr, line, col => cat [tok token, lit c!" ", node expr line col]
  | .throwStatement token expression, line, col => cat [tok token, lit c!" ", node expression line col]
  | .anonClass token arguments extending implementing body attributes, line, col =>
    cat [inlineAttributes U attributes (list attributes 0 line 0), tok token, optList c!"(" c!")" arguments line col,
      opt c!" extends " [] extending line col, optList c!" implements " [] implementing line col, lit c!" ", node body line col]
  | .field array ob index cb, line, col => cat [node array line col, tok ob, opt [] [] index line col, tok cb]
  | .member object arrow oc member cc, line, col =>
    match oc with
    | some o =>
      match cc with
      | some c => cat [node object line col, tok arrow, tok o, node member line col, tok c]
      | none => none
    | none => cat [node object line col, tok arrow, node member line col]
  | .staticMember object pn oc member cc, line, col =>
    match oc with
    | some o =>
      match cc with
      | some c => cat [node object line col, tok pn, tok o, node member line col, tok c]
      | none => none
    | none => cat [node object line col, tok pn, node member line col]
  | .call callee _ parameters _, line, col =>
    cat [node callee line col, lit c!"(", joined c!", " (nodes parameters line col col), lit c!")"]
  | .dataType nullable typeRefs, line, col => cat [unpadded nullable, joined c!" | " (nodes typeRefs line col col)]
  | .functionArgument argumentType name _ defaultValue spread reference _ attributes, line, col =>
    cat [inlineAttributes U attributes (list attributes 0 line 0), opt [] c!" " argumentType line col, unpadded spread,
      unpadded reference, tok name, opt c!" = " c!" " defaultValue line col]
  | .identifier token, _, _ => tok token
  | .literal token, _, _ => tok token
  | .variable token, _, _ => tok token
  | .typeRef t, _, _ => fqdn t.kind
  | .missing _, _, _ => lit c!"<Missing>"
  | .array ob elements cb, line, col => cat [tok ob, joined c!", " (nodes elements line col col), tok cb]
  | .arrayElement key arrow value, line, col => cat [opt [] c!" " key line col, padded arrow, node value line col]
  | .namedParameter name colon expr, line, col => cat [tok name, tok colon, lit c!" ", node expr line col]
  | .unary expr token, line, col => cat [tok token, lit c!" ", node expr line col]
  | .docComment comment _ _ _ _ _ _, _, _ => tok comment
  | .postUnary expr token, line, col => cat [node expr line col, tok token]
  | .const name token value, line, col => cat [tok token, lit c!" ", tok name, lit c!" = ", node value line col]
  | .ternary check qm trueArm colon falseArm, line, col =>
    cat [node check line col, lit c!" ", tok qm, lit c!" ", opt [] c!" " trueArm line col, tok colon, lit c!" ",
      node falseArm line col]
  | .lexicalVariable reference var, _, _ => cat [unpadded reference, tok var]
  | .aliasedVariable var expr, line, col => cat [tok var, node expr line col]
  | .dynamicVariable var oc expr cc, line, col => cat [tok var, tok oc, node expr line col, tok cc]
  | .staticVariable var _ value, line, col => cat [tok var, opt c!" = " [] value line col]
  | .oldArray token op elements cp, line, col =>
    cat [tok token, tok op, joined c!", " (nodes elements line col col), tok cp]
  | .list token op elements cp, line, col => cat [tok token, tok op, joined c!", " (nodes elements line col col), tok cp]
  | .isset isset op parameters cp, line, col => cat [tok isset, tok op, joined c!", " (nodes parameters line col col), tok cp]
  | .dieStatement token op expr cp, line, col => cat [tok token, tok op, opt [] [] expr line col, tok cp]
  | .unsetStatement token op vars cp, line, col => cat [tok token, tok op, joined c!", " (nodes vars line col col), tok cp]
  | .emptyExpr empty op parameters cp, line, col =>
    cat [tok empty, tok op, joined c!", " (nodes parameters line col col), tok cp]
  | .exitExpr token _ parameters _, line, col =>
    match parameters with
    | some l => cat [tok token, lit c!"(", joined c!", " (nodes l line col col), lit c!")"]
    | none => cat [tok token, lit c!" "]
  | .haltCompiler token _ parameters _, line, col =>
    match parameters with
    | some l => cat [tok token, lit c!"(", joined c!", " (nodes l line col col), lit c!")"]
    | none => cat [tok token, lit c!" "]
  | .dieExpr token _ parameters _, line, col =>
    match parameters with
    | some l => cat [tok token, lit c!"(", joined c!", " (nodes l line col col), lit c!")"]
    | none => cat [tok token, lit c!" "]
  | .yieldExpr token expr, line, col => cat [tok token, opt c!" " [] expr line col]
  | .useConst token constant aliased aliasName, line, col =>
    match aliased with
    | some a => cat [padded token, node constant col line, lit c!" ", tok a, lit c!" ", aliasName.bind tok]
    | none => cat [padded token, node constant col line]
  | .useFunction token function aliased aliasName, line, col =>
    match aliased with
    | some a => cat [padded token, node function col line, lit c!" ", tok a, lit c!" ", aliasName.bind tok]
    | none => cat [padded token, node function col line]
  | .gotoStatement token label, _, _ => cat [tok token, tok label]
  | .labelStatement label colon, _, _ => cat [tok label, tok colon]
  | .declareStatement directive _ assignment op cp token, _, _ => cat [tok token, tok op, tok directive, tok assignment, tok cp]
  | .defineStatement name value op cp _ isCaseinsensitive, line, col =>
    match isCaseinsensitive with
    | some i => cat [tok op, node name line col, lit c!",", node value line col, lit c!",", tok i, tok cp]
    | none => cat [tok op, node value line col, lit c!",", node name line col, tok cp]
  | .alternativeBlock _ statements terminator, line, col =>
    cat [lit c!":", lit c!"\n", joined c!", " (nodes statements line (col + indent) (col + indent)), lit c!"\n", lit (spaces col),
      tok terminator, lit c!";"]
  | .ifBranch token _ condition _ body, line, col =>
    cat [tok token, lit c!" ", lit c!"(", node condition line col, lit c!")", lit c!" ", node body line col]
  | .elseBranch _ body, line, col => cat [lit c!"else", lit c!" ", node body line col]
  | .switchBranch cs body, line, col =>
    cat [joined c!"\n" (cases cs line col), lit c!"\n", list body 0 line (col + indent)]
  | .switchBody start branches stop, line, col =>
    cat [tok start, lit c!"\n", lit (spaces col), joined c!"\n" (nodes branches line (col + indent) (col + indent)), tok stop]
  | .catchBlock _ _ types var _ body, line, col =>
    cat [lit c!" ", lit c!"catch", lit c!" ", lit c!"(", joined c!" | " (nodes types line col col), lit c!" ", tok var, lit c!")",
      lit c!" ", node body line col]
  | .finallyBlock _ body, line, col => cat [lit c!"finally", lit c!" ", node body line col]
  | _, _, _ => none

/-- `iter().map(|n| format_node(n, …)).collect()`: the first node may have a column of its own. -/
def nodes : List Node → Nat → Nat → Nat → Option (List Text)
  | [], _, _, _ => some []
  | n :: r, line, first, col => do
    let t ← node n line first
    let l ← nodes r line col col
    pure (t :: l)

/-- The cases of a branch of `switch` (lines 1276–1290). -/
def cases : List (Option Node) → Nat → Nat → Option (List Text)
  | [], _, _ => some []
  | c :: r, line, col => do
    let t ← oneCase c line col
    let l ← cases r line col
    pure (t :: l)

/-- One case (lines 1279–1287). -/
def oneCase : Option Node → Nat → Nat → Option Text
  | some n, line, col => cat [lit (spaces col), lit c!"case ", node n line (col + indent), lit c!":"]
  | none, _, col => cat [lit (spaces col), lit c!"default:"]

/-- `optional_ident!` (lines 52–65), and `if let Some(n)`: a node with fixed texts around it, or nothing. -/
def opt (pre post : Text) : Option Node → Nat → Nat → Option Text
  | none, _, _ => some []
  | some n, line, col => around pre post (node n line col)

/-- `optional_ident_list!` (lines 35–50): nodes with commas between them and fixed texts around them, or nothing. -/
def optList (pre post : Text) : Option (List Node) → Nat → Nat → Option Text
  | none, _, _ => some []
  | some l, line, col => around pre post (joined c!", " (nodes l line col col))

end

/-- `format_file` (`src/formatter/mod.rs` 74–78). -/
def formatFile (ast : List Node) (line col : Nat) : Option Text :=
  (list U indent ast 0 line col).map fun t => trimEnd U t ++ c!"\n"

end Formatter

/-- `impl From<((u32, u32), (u32, u32))> for NodeRange` (`src/parser/node.rs` 60–64). -/
def NodeRange.ofPair (r : ColLine × ColLine) : NodeRange := ⟨r.1.1, r.1.2, r.2.1, r.2.2⟩

namespace Backend

/-- `formatting` (`src/backend/formatting.rs` 12–53): the edit is a range and a new text. -/
def formatting (h : Host) (st : Backend) (path : Text) : Out (Option (LspRange × Text)) :=
  match Dict.get? st.latest path with
  | none => .ok none
  | some source =>
    match Scanner.scan h.U source with
    | .ok s =>
      match Parser.ast h.U h.fuel s.tokens with
      | .ok ast p =>
        if !p.errors.isEmpty then .ok none
        else
          match Formatter.formatFile h.U 4 ast 0 0 with
          | some t => .ok (some (getRange (NodeRange.ofPair (Scanner.documentRange s)), c!"<?php\n" ++ t))
          | none => .panic
      | .err _ _ => .panic
      | .panic => .panic
      | .diverge _ => .deep
    | .err _ _ => .panic
    | .panic => .panic
    | .outOfFuel => .deep

end Backend

end PhpLs
