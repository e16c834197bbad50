import Verif.Basic

/-!
# Tokens

Model of `src/parser/token.rs` and of the keyword tables of `src/parser/scanner.rs`.
-/

namespace PhpLs

/-- `TokenType` (`src/parser/token.rs` 15–215).  Simplification: the payload of `ScriptStart(ScriptStartType)` (lines
8–12, 99) is flattened into three constructors.  Constructors whose Rust name is a Lean keyword get the prefix `kw`. -/
inductive TT where
  | eof | linebreak | missing | plus | minus | multiplication | division | greater | smaller | questionMark
  | exclamationMark | assignment | variable | openParenthesis | closeParenthesis | openCurly | closeCurly
  | openBrackets | closeBrackets | semicolon | logicOr | logicAnd | binaryOr | binaryAnd | negation | colon
  | comma | namespaceSeparator | concat | silencer | bitwiseNegation | modulo | binaryXor | increment
  | decrement | power | plusAssign | minusAssign | mulAssign | divAssign | lineComment | multilineComment
  | rightShift | leftShift | scriptEnd | isNotEqual | isNotEqualAlt | isEqual | greaterOrEqual
  | smallerOrEqual | coalesce | binaryAndAssignment | binaryOrAssignment | objectOperator
  | nullsafeObjectOperator | moduloAssignment | concatAssignment | xorAssignment | paamayimNekudayim
  | doubleArrow | rightShiftAssignment | leftShiftAssignment | isNotIdentical | isIdentical | powerAssignment
  | spaceShip | coalesceAssignment | elipsis | logicXor | constNan | constInf | scriptStartRegular
  | scriptStartShort | scriptStartEcho | identifier | decimalNumber | exponentialNumber | longNumber
  | hexNumber | binaryNumber | constantEncapsedString | encapsedAndWhitespaceString | shellEscape
  | hereDocStart | hereDocEnd | boolCast | badCast | intCast | stringCast | arrayCast | objectCast
  | doubleCast | unsetCast | generator | resource | kwExit | kwIf | kwDie | elseIf | kwElse | endIf | kwEcho
  | kwPrint | kwInclude | includeOnce | kwRequire | requireOnce | kwDo | kwWhile | endWhile | kwFor | endFor
  | kwForeach | endForeach | kwDeclare | endDeclare | kwAs | kwMatch | kwSwitch | endSwitch | kwCase
  | kwDefault | kwBreak | kwContinue | kwGoto | kwFunction | kwFn | kwConst | kwReturn | kwTry | kwCatch
  | kwFinally | kwThrow | kwUse | insteadof | instanceOf | kwGlobal | kwStatic | kwAbstract | kwFinal
  | kwPrivate | kwProtected | kwPublic | kwVar | kwUnset | kwIsset | kwDefine | kwEmpty | haltCompiler
  | kwClass | kwTrait | kwInterface | kwExtends | kwImplements | kwList | kwCallable | constLine | constFile
  | constDir | constClass | constTrait | constMethod | constFunction | kwNew | kwClone | kwTrue | kwFalse
  | kwNull | kwNamespace | kwVoid | kwYield | yieldFrom | kwParent | typeBool | typeInt | typeString
  | typeArray | typeObject | typeFloat | typeSelf | mixed | attributeStart
deriving DecidableEq, Repr

namespace TT

/-- `postfix_binding_power` (`src/parser/token.rs` 218–223). -/
def postfixBP : TT → Option Nat
  | .increment | .decrement => some 180
  | _ => none

/-- `prefix_binding_power` (`src/parser/token.rs` 225–246). -/
def prefixBP : TT → Option Nat
  | .binaryAnd => some 202
  | .kwClone => some 201
  | .kwNew => some 201
  | .increment | .decrement => some 180
  | .plus | .minus => some 140
  | .silencer | .negation | .bitwiseNegation | .boolCast | .badCast | .intCast | .stringCast | .arrayCast
  | .objectCast | .doubleCast | .elipsis | .unsetCast => some 181
  | _ => none

/-- `infix_binding_power` (`src/parser/token.rs` 249–312). -/
def infixBP : TT → Option (Nat × Nat)
  | .power => some (190, 191)
  | .instanceOf => some (171, 170)
  | .modulo | .multiplication | .division => some (151, 150)
  | .plus | .minus | .concat => some (141, 140)
  | .rightShift | .leftShift => some (131, 130)
  | .greater | .smaller | .greaterOrEqual | .smallerOrEqual => some (120, 121)
  | .isNotIdentical | .isIdentical | .spaceShip | .isEqual | .isNotEqual | .isNotEqualAlt => some (110, 111)
  | .binaryAnd => some (101, 100)
  | .binaryXor => some (99, 98)
  | .binaryOr => some (97, 96)
  | .logicAnd => some (91, 90)
  | .logicOr => some (87, 86)
  | .coalesce => some (84, 85)
  | .questionMark => some (80, 81)
  | .assignment | .binaryAndAssignment | .binaryOrAssignment | .moduloAssignment | .concatAssignment
  | .xorAssignment | .rightShiftAssignment | .leftShiftAssignment | .coalesceAssignment | .powerAssignment
  | .plusAssign | .minusAssign | .mulAssign | .divAssign => some (70, 71)
  | .yieldFrom => some (60, 61)
  | .kwYield => some (50, 51)
  | .kwPrint => some (40, 41)
  | .logicXor => some (21, 20)
  | _ => none

/-- `Token::is_identifier` (`src/parser/token.rs` 359–455); it only depends on the type. -/
def isIdentifier : TT → Bool
  | .kwExit | .kwIf | .elseIf | .kwElse | .endIf | .kwEcho | .kwInclude | .includeOnce | .kwRequire
  | .requireOnce | .kwDo | .kwWhile | .endWhile | .kwFor | .endFor | .kwForeach | .endForeach | .kwDeclare
  | .endDeclare | .kwAs | .kwSwitch | .endSwitch | .kwCase | .kwDefault | .kwBreak | .kwContinue | .kwGoto
  | .kwFunction | .kwFn | .kwConst | .kwReturn | .kwTry | .kwCatch | .kwFinally | .kwThrow | .kwUse | .insteadof
  | .instanceOf | .kwGlobal | .kwStatic | .kwAbstract | .kwFinal | .kwPrivate | .kwProtected | .kwPublic
  | .kwVar | .kwUnset | .kwIsset | .kwDefine | .kwEmpty | .haltCompiler | .kwClass | .kwTrait | .kwInterface
  | .kwExtends | .kwImplements | .kwList | .kwCallable | .constLine | .constFile | .constDir | .constClass
  | .constTrait | .constMethod | .constFunction | .constNan | .constInf | .kwNew | .kwDie | .kwClone | .kwTrue
  | .kwFalse | .kwNull | .kwNamespace | .kwVoid | .kwYield | .kwParent | .typeBool | .typeString | .typeInt
  | .typeArray | .typeObject | .typeFloat | .typeSelf | .kwPrint | .logicAnd | .logicOr | .logicXor
  | .identifier | .generator | .kwMatch => true
  | _ => false

/-- `Display for TokenType` (`src/parser/token.rs` 523–701).  `none` is the `unreachable!` panic of line 696. -/
def display : TT → Option Text
  | .resource => some c!"resource"
  | .attributeStart => some c!"#["
  | .kwClass => some c!"class"
  | .eof => some []
  | .plus => some c!"+"
  | .minus => some c!"-"
  | .multiplication => some c!"*"
  | .division => some c!"/"
  | .greater => some c!">"
  | .smaller => some c!"<"
  | .questionMark => some c!"?"
  | .exclamationMark => some c!"!"
  | .assignment => some c!"="
  | .openParenthesis => some c!"("
  | .closeParenthesis => some c!")"
  | .openCurly => some c!"{"
  | .closeCurly => some c!"}"
  | .openBrackets => some c!"["
  | .closeBrackets => some c!"]"
  | .semicolon => some c!";"
  | .logicOr => some c!"||"
  | .logicAnd => some c!"&&"
  | .binaryOr => some c!"|"
  | .binaryAnd => some c!"&"
  | .negation => some c!"!"
  | .colon => some c!":"
  | .comma => some c!","
  | .namespaceSeparator => some c!"\\"
  | .concat => some c!"."
  | .silencer => some c!"@"
  | .bitwiseNegation => some c!"~"
  | .modulo => some c!"%"
  | .binaryXor => some c!"^"
  | .increment => some c!"++"
  | .decrement => some c!"--"
  | .power => some c!"**"
  | .plusAssign => some c!"+="
  | .minusAssign => some c!"-="
  | .mulAssign => some c!"*="
  | .divAssign => some c!"/="
  | .lineComment => some c!"//"
  | .rightShift => some c!">>"
  | .leftShift => some c!"<<"
  | .scriptEnd => some c!"?>"
  | .isNotEqual => some c!"!="
  | .isNotEqualAlt => some c!"<>"
  | .isEqual => some c!"=="
  | .greaterOrEqual => some c!">="
  | .smallerOrEqual => some c!"<="
  | .coalesce => some c!"??"
  | .binaryAndAssignment => some c!"&="
  | .binaryOrAssignment => some c!"|="
  | .objectOperator => some c!"->"
  | .nullsafeObjectOperator => some c!"?->"
  | .moduloAssignment => some c!"%="
  | .concatAssignment => some c!".="
  | .xorAssignment => some c!"^="
  | .paamayimNekudayim => some c!"::"
  | .doubleArrow => some c!"=>"
  | .rightShiftAssignment => some c!">>="
  | .leftShiftAssignment => some c!"<<="
  | .isNotIdentical => some c!"!=="
  | .isIdentical => some c!"==="
  | .powerAssignment => some c!"**="
  | .spaceShip => some c!"<=>"
  | .coalesceAssignment => some c!"??="
  | .elipsis => some c!"..."
  | .logicXor => some c!"xor"
  | .constNan => some c!"Nan"
  | .constInf => some c!"Inf"
  | .scriptStartShort => some c!"<?"
  | .scriptStartRegular => some c!"<?php"
  | .scriptStartEcho => some c!"<?="
  | .boolCast => some c!"(bool)"
  | .badCast => some []
  | .intCast => some c!"(int)"
  | .stringCast => some c!"(string)"
  | .arrayCast => some c!"(array)"
  | .objectCast => some c!"(object)"
  | .doubleCast => some c!"(double)"
  | .unsetCast => some c!"(unset)"
  | .kwExit => some c!"exit"
  | .kwIf => some c!"if"
  | .kwDie => some c!"die"
  | .elseIf => some c!"elseif"
  | .kwElse => some c!"else"
  | .endIf => some c!"endif"
  | .kwEcho => some c!"echo"
  | .kwPrint => some c!"print"
  | .kwInclude => some c!"include"
  | .includeOnce => some c!"include_once"
  | .kwRequire => some c!"require"
  | .requireOnce => some c!"require_once"
  | .kwDo => some c!"do"
  | .kwWhile => some c!"while"
  | .endWhile => some c!"endwhile"
  | .kwFor => some c!"for"
  | .endFor => some c!"endfor"
  | .kwForeach => some c!"foreach"
  | .endForeach => some c!"endforeach"
  | .kwDeclare => some c!"declare"
  | .endDeclare => some c!"enddeclare"
  | .kwAs => some c!"as"
  | .kwSwitch => some c!"switch"
  | .endSwitch => some c!"endswitch"
  | .kwCase => some c!"case"
  | .kwDefault => some c!"default"
  | .kwBreak => some c!"break"
  | .kwContinue => some c!"continue"
  | .kwGoto => some c!"goto"
  | .kwFunction => some c!"function"
  | .kwFn => some c!"fn"
  | .kwConst => some c!"const"
  | .kwReturn => some c!"return"
  | .kwTry => some c!"try"
  | .kwCatch => some c!"catch"
  | .kwFinally => some c!"finally"
  | .kwThrow => some c!"throw"
  | .kwUse => some c!"use"
  | .insteadof => some c!"insteadof"
  | .instanceOf => some c!"instanceof"
  | .kwGlobal => some c!"global"
  | .kwStatic => some c!"static"
  | .kwAbstract => some c!"abstract"
  | .kwFinal => some c!"final"
  | .kwPrivate => some c!"private"
  | .kwProtected => some c!"protected"
  | .kwPublic => some c!"public"
  | .kwVar => some c!"var"
  | .kwUnset => some c!"unset"
  | .kwIsset => some c!"isset"
  | .kwDefine => some c!"define"
  | .kwEmpty => some c!"empty"
  | .haltCompiler => some c!"__halt_compiler"
  | .kwTrait => some c!"trait"
  | .kwInterface => some c!"interface"
  | .kwExtends => some c!"extends"
  | .kwImplements => some c!"implements"
  | .kwList => some c!"list"
  | .kwCallable => some c!"callable"
  | .constLine => some c!"__LINE__"
  | .constFile => some c!"__FILE__"
  | .constDir => some c!"__DIR__"
  | .constClass => some c!"__CLASS__"
  | .constTrait => some c!"__TRAIT__"
  | .constMethod => some c!"__METHOD__"
  | .constFunction => some c!"__FUNCTION__"
  | .kwNew => some c!"new"
  | .kwClone => some c!"clone"
  | .kwTrue => some c!"true"
  | .kwFalse => some c!"false"
  | .kwNull => some c!"null"
  | .kwNamespace => some c!"namespace"
  | .kwVoid => some c!"void"
  | .kwYield => some c!"yield"
  | .yieldFrom => some c!"yield from"
  | .typeBool => some c!"bool"
  | .typeInt => some c!"int"
  | .typeString => some c!"string"
  | .typeArray => some c!"array"
  | .typeObject => some c!"object"
  | .typeFloat => some c!"float"
  | .typeSelf => some c!"self"
  | .mixed => some c!"mixed"
  | .kwParent => some c!"parent"
  | .generator => some c!"Generator"
  | .missing => some []
  | .variable => some c!"$"
  | .linebreak => some []
  | .kwMatch => some c!"match"
  | _ => none

end TT

/-- `Token` (`src/parser/token.rs` 320–326). -/
structure Token where
  col : Nat
  line : Nat
  t : TT
  label : Option Text
  offset : Option Nat
deriving DecidableEq, Repr

/-- A position as Rust's tuples of the parser have it: `(column, line)`. -/
abbrev ColLine := Nat × Nat

namespace Token

/-- `Token::new` (`src/parser/token.rs` 329–337). -/
def new (t : TT) (line col offset : Nat) : Token := ⟨col, line, t, none, some offset⟩

/-- `Token::named` (`src/parser/token.rs` 339–347). -/
def named (t : TT) (line col offset : Nat) (label : Text) : Token := ⟨col, line, t, some label, some offset⟩

/-- `Token::missing` (`src/parser/token.rs` 349–357): the argument is `(column, line)`. -/
def missing (posOfPrev : ColLine) : Token := ⟨posOfPrev.1, posOfPrev.2, .missing, none, none⟩

/-- `Token::is_identifier` (`src/parser/token.rs` 359–455). -/
def isIdentifier (k : Token) : Bool := k.t.isIdentifier

/-- `Token::start` (`src/parser/token.rs` 461–463). -/
def start (k : Token) : ColLine := (k.col, k.line)

/-- `Display for Token` (`src/parser/token.rs` 702–736).  `none` is a panic.  Simplification: for a labelled token of a
kind that has no label (line 731) the Rust text is a debug dump, here abbreviated to its fixed prefix; the scanner never
creates such a token. -/
def display (k : Token) : Option Text :=
  match k.label with
  | none => k.t.display
  | some l =>
    match k.t with
    | .lineComment => some (c!"//" ++ l)
    | .variable => some (c!"$" ++ l)
    | .identifier => some l
    | .multilineComment => some (c!"/*" ++ l ++ c!"*/")
    | .decimalNumber | .exponentialNumber | .longNumber | .hexNumber | .binaryNumber => some l
    | .constantEncapsedString => some (c!"'" ++ l ++ c!"'")
    | .encapsedAndWhitespaceString => some (c!"\"" ++ l ++ c!"\"")
    | .shellEscape => some (c!"`" ++ l ++ c!"`")
    | .hereDocStart => some (c!"<<<" ++ l)
    | .hereDocEnd => some l
    | _ => some c!"Should have never been called with"

end Token

/-- Split at `'\n'`: the pieces between the newlines (always at least one piece). -/
def splitNl : Text → List Text
  | [] => [[]]
  | c :: r =>
    if c = '\n' then [] :: splitNl r
    else match splitNl r with
      | [] => [[c]]
      | l :: ls => (c :: l) :: ls

/-- Drop one trailing `'\r'`. -/
def stripCr (l : Text) : Text := if l.getLast? = some '\r' then l.dropLast else l

/-- Rust's `str::lines` (standard library): pieces between newlines, a last empty piece is dropped, a `'\r'` directly
before the newline is dropped. -/
def rustLines (t : Text) : List Text :=
  let ps := splitNl t
  let init := ps.dropLast.map stripCr
  match ps.getLast? with
  | none => init
  | some [] => init
  | some l => init ++ [l]

namespace Token

/-- `Token::end` (`src/parser/token.rs` 465–482).  `none` is a panic (`Display`, or `lines.last().unwrap()` on an empty
string). -/
def «end» (k : Token) : Option ColLine := do
  let me ← k.display
  if k.label.isSome then
    let lines := rustLines me
    if lines.length = 1 then
      some (k.col + byteLen me, k.line)
    else
      let last ← lines.getLast?
      some (byteLen last, k.line + (lines.length - 1))
  else
    some (k.col + byteLen me, k.line)

/-- `Token::is_on` (`src/parser/token.rs` 488–494). -/
def isOn (k : Token) (line col : Nat) : Bool :=
  if k.line ≠ line then false
  else decide (k.col ≤ col) && decide (col ≤ k.col + byteLen (k.label.getD []))

end Token

/-- The table of `Scanner::map_keyword` (`src/parser/scanner.rs` 951–1043): lower-case spelling and token type. -/
def keywordTable : List (Text × TT) := [
  (c!"bool", .typeBool),
  (c!"boolean", .typeBool),
  (c!"int", .typeInt),
  (c!"integer", .typeInt),
  (c!"string", .typeString),
  (c!"binary", .typeString),
  (c!"array", .typeArray),
  (c!"object", .typeObject),
  (c!"float", .typeFloat),
  (c!"double", .typeFloat),
  (c!"void", .kwVoid),
  (c!"new", .kwNew),
  (c!"clone", .kwClone),
  (c!"exit", .kwExit),
  (c!"if", .kwIf),
  (c!"elseif", .elseIf),
  (c!"else", .kwElse),
  (c!"endif", .endIf),
  (c!"echo", .kwEcho),
  (c!"do", .kwDo),
  (c!"while", .kwWhile),
  (c!"endwhile", .endWhile),
  (c!"for", .kwFor),
  (c!"endfor", .endFor),
  (c!"foreach", .kwForeach),
  (c!"endforeach", .endForeach),
  (c!"declare", .kwDeclare),
  (c!"define", .kwDefine),
  (c!"enddeclare", .endDeclare),
  (c!"as", .kwAs),
  (c!"switch", .kwSwitch),
  (c!"endswitch", .endSwitch),
  (c!"case", .kwCase),
  (c!"default", .kwDefault),
  (c!"break", .kwBreak),
  (c!"continue", .kwContinue),
  (c!"goto", .kwGoto),
  (c!"function", .kwFunction),
  (c!"fn", .kwFn),
  (c!"const", .kwConst),
  (c!"return", .kwReturn),
  (c!"try", .kwTry),
  (c!"catch", .kwCatch),
  (c!"finally", .kwFinally),
  (c!"throw", .kwThrow),
  (c!"use", .kwUse),
  (c!"insteadof", .insteadof),
  (c!"global", .kwGlobal),
  (c!"static", .kwStatic),
  (c!"abstract", .kwAbstract),
  (c!"final", .kwFinal),
  (c!"private", .kwPrivate),
  (c!"protected", .kwProtected),
  (c!"public", .kwPublic),
  (c!"var", .kwVar),
  (c!"unset", .kwUnset),
  (c!"isset", .kwIsset),
  (c!"empty", .kwEmpty),
  (c!"null", .kwNull),
  (c!"true", .kwTrue),
  (c!"false", .kwFalse),
  (c!"__halt_compiler", .haltCompiler),
  (c!"class", .kwClass),
  (c!"trait", .kwTrait),
  (c!"interface", .kwInterface),
  (c!"extends", .kwExtends),
  (c!"implements", .kwImplements),
  (c!"list", .kwList),
  (c!"callable", .kwCallable),
  (c!"and", .logicAnd),
  (c!"or", .logicOr),
  (c!"xor", .logicXor),
  (c!"namespace", .kwNamespace),
  (c!"print", .kwPrint),
  (c!"__line__", .constLine),
  (c!"__file__", .constFile),
  (c!"__dir__", .constDir),
  (c!"__class__", .constClass),
  (c!"__trait__", .constTrait),
  (c!"__method__", .constMethod),
  (c!"__function__", .constFunction),
  (c!"require", .kwRequire),
  (c!"require_once", .requireOnce),
  (c!"include", .kwInclude),
  (c!"include_once", .includeOnce),
  (c!"instanceof", .instanceOf),
  (c!"yield", .kwYield),
  (c!"self", .typeSelf),
  (c!"parent", .kwParent),
  (c!"generator", .generator),
  (c!"match", .kwMatch),
  (c!"die", .kwDie)]

/-- `Scanner::map_keyword` (`src/parser/scanner.rs` 944–1044). -/
def mapKeyword (U : Unicode) (ident : Text) : Option TT :=
  if ident = c!"INF" then some .constInf
  else if ident = c!"NAN" then some .constNan
  else keywordTable.lookup (U.lower ident)

/-- `Scanner::map_cast` (`src/parser/scanner.rs` 930–941). -/
def mapCast : TT → Option TT
  | .typeBool => some .boolCast
  | .typeInt => some .intCast
  | .typeString => some .stringCast
  | .typeArray => some .arrayCast
  | .typeObject => some .objectCast
  | .typeFloat => some .doubleCast
  | .kwUnset => some .unsetCast
  | _ => none

end PhpLs
