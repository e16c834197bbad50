import Verif.Token

/-!
# Scanner

Model of `src/parser/scanner.rs` (lines 1–1045).

Simplifications, valid for the whole file:
* `col`, `line` and token offsets are `Nat` instead of `u32`/`usize` (no overflow for files below 4 GiB);
* the field `pos` (line 20, only ever incremented) and the context `InComment` (line 11, never assigned) are dropped;
* `chars` (stored reversed and popped from the end in Rust) is a list read from the front;
* `tokens` (pushed at the end in Rust) is a list with the newest token first; `scan` reverses it at the end;
* loops run on fuel that is at least the number of remaining characters; `Props/ScannerInv.lean` proves that the fuel never
  runs out, i.e. that the functions satisfy the loop equations of the Rust code.
-/

namespace PhpLs.Scanner

open PhpLs

/-- `Context` (`src/parser/scanner.rs` 8–12) without the never assigned `InComment`. -/
inductive Ctx where
  | inScript | outScript
deriving DecidableEq, Repr

/-- `Scanner` (`src/parser/scanner.rs` 16–25).  `sLine`, `sCol` is `start_of_token`. -/
structure St where
  col : Nat
  line : Nat
  sLine : Nat
  sCol : Nat
  ctx : Ctx
  toks : List Token
  chars : Text
deriving DecidableEq, Repr

/-- `Scanner::new` (`src/parser/scanner.rs` 38–50). -/
def new (source : Text) : St := ⟨0, 0, 0, 0, .outScript, [], source⟩

namespace St

/-- `Scanner::push_token` (`src/parser/scanner.rs` 908–918). -/
def push (s : St) (t : TT) : St :=
  if s.ctx ≠ .inScript then s
  else { s with toks := Token.new t s.sLine s.sCol s.toks.length :: s.toks }

/-- `Scanner::push_named_token` (`src/parser/scanner.rs` 920–928): no check of the context. -/
def pushNamed (s : St) (t : TT) (name : Text) : St :=
  { s with toks := Token.named t s.sLine s.sCol s.toks.length name :: s.toks }

/-- `Scanner::peek` (`src/parser/scanner.rs` 827–829). -/
def peek (s : St) : Option Char := s.chars.head?

/-- The loop of `advance` over the remaining characters: `'\r'` recurses. -/
def advanceOn (s : St) : Text → Option Char × St
  | [] => (none, { s with chars := [] })
  | c :: r =>
    if c = '\n' then (some c, { s.push .linebreak with line := s.line + 1, col := 0, chars := r })
    else if c = '\r' then advanceOn s r
    else (some c, { s with col := s.col + 1, chars := r })

/-- `Scanner::advance` (`src/parser/scanner.rs` 831–849). -/
def advance (s : St) : Option Char × St := advanceOn s s.chars

/-- `self.advance();` as a statement, ignoring the character. -/
def adv (s : St) : St := s.advance.2

end St

/-- The loop shared by `collect_identifer` (759–773), `collect_number` (775–789), `collect_hex_number` (791–804) and
`collect_binary_number` (806–819) of `src/parser/scanner.rs`: peek, test, push, advance. -/
def collectWhileN (p : Char → Bool) : Nat → St → Text × St
  | 0, s => ([], s)
  | n + 1, s =>
    match s.peek with
    | none => ([], s)
    | some c =>
      if p c then
        let r := collectWhileN p n s.adv
        (c :: r.1, r.2)
      else ([], s)

/-- See `collectWhileN`. -/
def collectWhile (p : Char → Bool) (s : St) : Text × St := collectWhileN p s.chars.length s

/-- Identifier characters (`src/parser/scanner.rs` 602, 763). -/
def isIdChar (U : Unicode) (c : Char) : Bool := U.isAlnum c || c = '_'

/-- `('0'..='9').contains(&c)`. -/
def isDigit (c : Char) : Bool := decide ('0' ≤ c) && decide (c ≤ '9')

/-- Hex digits (`src/parser/scanner.rs` 795). -/
def isHexDigit (c : Char) : Bool :=
  isDigit c || (decide ('a' ≤ c) && decide (c ≤ 'f')) || (decide ('A' ≤ c) && decide (c ≤ 'F'))

/-- Binary digits (`src/parser/scanner.rs` 810). -/
def isBinDigit (c : Char) : Bool := c = '0' || c = '1'

/-- The loop of `collect_until_escaped` (`src/parser/scanner.rs` 740–757) and, with `until = '"'`, of
`collect_encapsed_and_whitespace_string` (721–738). -/
def collectUntilEscapedN (until_ : Char) : Nat → Bool → St → Text × St
  | 0, _, s => ([], s)
  | n + 1, escaped, s =>
    match s.advance with
    | (none, s) => ([], s)
    | (some c, s) =>
      if c = '\\' then
        let r := collectUntilEscapedN until_ n (!escaped) s
        (c :: r.1, r.2)
      else if c = until_ ∧ escaped = false then ([], s)
      else
        let r := collectUntilEscapedN until_ n false s
        (c :: r.1, r.2)

/-- `collect_until_escaped`, `collect_encapsed_and_whitespace_string` (`src/parser/scanner.rs` 721–757). -/
def collectUntilEscaped (until_ : Char) (s : St) : Text × St :=
  collectUntilEscapedN until_ (s.chars.length + 1) false s

/-- The `for marker_char in marker.chars()` loop (`src/parser/scanner.rs` 685–701).  The result is the text
`partial_line_or_end_marker`, whether no mismatch occurred (`potential_end` stays true), and the new state. -/
def matchMarker : Text → St → Text × Bool × St
  | [], s => ([], true, s)
  | m :: ms, s =>
    match s.advance with
    | (some c, s) =>
      if c = m then
        let r := matchMarker ms s
        (c :: r.1, r.2.1, r.2.2)
      else ([], false, s)
    | (none, s) => matchMarker ms s

/-- The `while let Some(&c) = self.peek()` loop of `tokenize_here_doc` (`src/parser/scanner.rs` 662–708).
Result: `(heredoc, line, state)`. -/
def hereDocLoop (marker : Text) : Nat → Text → Text → Bool → St → Text × Text × St
  | 0, heredoc, line, _, s => (heredoc, line, s)
  | n + 1, heredoc, line, potentialEnd, s =>
    match s.peek with
    | none => (heredoc, line, s)
    | some c =>
      let line := line ++ [c]
      if c = '\n' then hereDocLoop marker n (heredoc ++ line) [] true s.adv
      else if potentialEnd = false ∨ c = ' ' ∨ c = '\t' then hereDocLoop marker n heredoc line potentialEnd s.adv
      else
        match matchMarker marker s with
        | (part, true, s) => (heredoc, part, s)
        | (part, false, s) => hereDocLoop marker n heredoc (line ++ part) false s

/-- Errors `scan` can return (`src/parser/scanner.rs` 626–629, 711). -/
inductive ScanError where
  | unexpectedChar (c : Char) (line col : Nat)
  | unterminatedHeredoc
deriving DecidableEq, Repr

/-- The leading `while let Some(' ') = self.peek()` loop (`src/parser/scanner.rs` 639–641). -/
def skipBlanks (s : St) : St := (collectWhile (fun c => c = ' ') s).2

/-- The marker of a heredoc (`src/parser/scanner.rs` 643–654). -/
def hereDocMarker (U : Unicode) (s : St) : Text × St :=
  match s.peek with
  | some '"' => collectUntilEscaped '"' s.adv
  | some '\'' => collectUntilEscaped '\'' s.adv
  | _ => collectWhile (isIdChar U) s

/-- `tokenize_here_doc` (`src/parser/scanner.rs` 638–718). -/
def tokenizeHereDoc (U : Unicode) (s : St) : Except ScanError St :=
  let s := skipBlanks s
  let m := hereDocMarker U s
  let marker := m.1
  let s := m.2.pushNamed .hereDocStart marker
  let r := hereDocLoop marker (s.chars.length + 1) [] [] false s
  let heredoc := r.1
  let line := r.2.1
  let s := r.2.2
  match s.peek with
  | none => .error .unterminatedHeredoc
  | some _ =>
    let s := s.pushNamed .encapsedAndWhitespaceString heredoc
    .ok (s.pushNamed .hereDocEnd line)

/-- The loop of `collect_doc_comment_information` (`src/parser/scanner.rs` 855–873). -/
def docCommentLoop : Nat → St → Text × St
  | 0, s => ([], s)
  | n + 1, s =>
    match s.advance with
    | (none, s) => ([], s)
    | (some c, s) =>
      if c = '*' ∧ s.peek = some '/' then ([], s.adv)
      else
        let r := docCommentLoop n s
        (c :: r.1, r.2)

/-- `collect_doc_comment_information` (`src/parser/scanner.rs` 852–877). -/
def collectDocComment (s : St) : St :=
  let r := docCommentLoop (s.chars.length + 1) s
  r.2.pushNamed .multilineComment r.1

/-- The loop of `consume_line_comment` (`src/parser/scanner.rs` 883–905).  `none` is the panic of `unwrap` in line 902. -/
def lineCommentLoop : Nat → Text → St → Option St
  | 0, comment, s => some (s.pushNamed .lineComment comment)
  | n + 1, comment, s =>
    match s.peek with
    | none => some (s.pushNamed .lineComment comment)
    | some c =>
      if c = '\n' ∨ c = '\r' then some (s.pushNamed .lineComment comment)
      else if c = '?' then
        let s := s.adv
        if s.peek = some '>' then
          let s := (s.adv.pushNamed .lineComment comment).push .scriptEnd
          some { s with ctx := .outScript }
        else lineCommentLoop n (comment ++ ['?']) s
      else
        match s.advance with
        | (some x, s) => lineCommentLoop n (comment ++ [x]) s
        | (none, _) => none

/-- `consume_line_comment` (`src/parser/scanner.rs` 881–906). -/
def consumeLineComment (s : St) : Option St := lineCommentLoop (s.chars.length + 1) [] s

/-- Result of one turn of the `scan` loop. -/
inductive Step where
  /-- continue with the next turn -/
  | cont (s : St)
  /-- end of text -/
  | done (s : St)
  /-- `return Err(..)` / `?` -/
  | err (e : ScanError) (s : St)
  /-- Rust panic -/
  | panic

/-- `':'` (`src/parser/scanner.rs` 96–104). -/
def scanColon (s : St) : St :=
  match s.peek with
  | some ':' => s.adv.push .paamayimNekudayim
  | _ => s.push .colon

/-- `'&'` (`src/parser/scanner.rs` 117–131). -/
def scanAmp (s : St) : St :=
  match s.peek with
  | some '=' => s.adv.push .binaryAndAssignment
  | some '&' => s.adv.push .logicAnd
  | _ => s.push .binaryAnd

/-- `'%'` (`src/parser/scanner.rs` 132–141). -/
def scanPercent (s : St) : St :=
  match s.peek with
  | some '=' => s.adv.push .moduloAssignment
  | _ => s.push .modulo

/-- `'|'` (`src/parser/scanner.rs` 142–156). -/
def scanPipe (s : St) : St :=
  match s.peek with
  | some '=' => s.adv.push .binaryOrAssignment
  | some '|' => s.adv.push .logicOr
  | _ => s.push .binaryOr

/-- `'>'` (`src/parser/scanner.rs` 157–180). -/
def scanGreater (s : St) : St :=
  match s.peek with
  | some '>' =>
    let s := s.adv
    match s.peek with
    | some '=' => s.adv.push .rightShiftAssignment
    | _ => s.push .rightShift
  | some '=' => s.adv.push .greaterOrEqual
  | _ => s.push .greater

/-- `'<'` (`src/parser/scanner.rs` 181–255). -/
def scanSmaller (U : Unicode) (s : St) : Step :=
  match s.peek with
  | some '<' =>
    let s := s.adv
    match s.peek with
    | some '<' =>
      let s := s.adv
      match tokenizeHereDoc U s with
      | .ok s => .cont s
      | .error e => .err e s
    | some '=' => .cont (s.adv.push .leftShiftAssignment)
    | _ => .cont (s.push .leftShift)
  | some '?' =>
    let s := s.adv
    match s.peek with
    | some ' ' | some '\n' | some '\t' | some '\r' => .cont ({ s with ctx := .inScript }.push .scriptStartShort)
    | some '=' => .cont ({ s.adv with ctx := .inScript }.push .scriptStartEcho)
    | some 'p' =>
      let s := s.adv
      if s.peek = some 'h' then
        let s := s.adv
        if s.peek = some 'p' then .cont ({ s.adv with ctx := .inScript }.push .scriptStartRegular)
        else .cont s
      else .cont s
    | _ => .cont s
  | some '=' =>
    let s := s.adv
    match s.peek with
    | some '>' => .cont (s.adv.push .spaceShip)
    | _ => .cont (s.push .smallerOrEqual)
  | some '>' => .cont (s.adv.push .isNotEqualAlt)
  | _ => .cont (s.push .smaller)

/-- `'?'` (`src/parser/scanner.rs` 256–294). -/
def scanQuestion (s : St) : St :=
  match s.peek with
  | some '>' => { s.adv.push .scriptEnd with ctx := .outScript }
  | some '?' =>
    let s := s.adv
    match s.peek with
    | some '=' => s.adv.push .coalesceAssignment
    | _ => s.push .coalesce
  | some '-' =>
    let s := s.adv
    match s.peek with
    | some '>' => s.adv.push .nullsafeObjectOperator
    | _ => (s.push .questionMark).push .minus
  | _ => s.push .questionMark

/-- `'!'` (`src/parser/scanner.rs` 295–312). -/
def scanBang (s : St) : St :=
  match s.peek with
  | some '=' =>
    let s := s.adv
    match s.peek with
    | some '=' => s.adv.push .isNotIdentical
    | _ => s.push .isNotEqual
  | _ => s.push .negation

/-- `'.'` (`src/parser/scanner.rs` 313–341). -/
def scanDot (s : St) : St :=
  match s.peek with
  | some c =>
    if c = '.' then
      let s := s.adv
      match s.peek with
      | some '.' => s.adv.push .elipsis
      | _ => (s.push .concat).push .concat
    else if c = '=' then s.adv.push .concatAssignment
    else if isDigit c then
      let r := collectWhile isDigit s
      r.2.pushNamed .decimalNumber (c!"0." ++ r.1)
    else s.push .concat
  | none => s.push .concat

/-- `'^'` (`src/parser/scanner.rs` 342–350). -/
def scanCaret (s : St) : St :=
  match s.peek with
  | some '=' => s.adv.push .xorAssignment
  | _ => s.push .binaryXor

/-- `'+'` (`src/parser/scanner.rs` 351–363). -/
def scanPlus (s : St) : St :=
  match s.peek with
  | some '+' => s.adv.push .increment
  | some '=' => s.adv.push .plusAssign
  | _ => s.push .plus

/-- `'-'` (`src/parser/scanner.rs` 364–381). -/
def scanMinus (s : St) : St :=
  match s.peek with
  | some '-' => s.adv.push .decrement
  | some '=' => s.adv.push .minusAssign
  | some '>' => s.adv.push .objectOperator
  | _ => s.push .minus

/-- `'*'` (`src/parser/scanner.rs` 382–404). -/
def scanStar (s : St) : St :=
  match s.peek with
  | some '*' =>
    let s := s.adv
    match s.peek with
    | some '=' => s.adv.push .powerAssignment
    | _ => s.push .power
  | some '=' => s.adv.push .mulAssign
  | _ => s.push .multiplication

/-- `'#'` (`src/parser/scanner.rs` 405–414). -/
def scanHash (s : St) : Step :=
  match s.peek with
  | some '[' => .cont (s.adv.push .attributeStart)
  | _ =>
    match consumeLineComment s.adv with
    | some s => .cont s
    | none => .panic

/-- `'/'` (`src/parser/scanner.rs` 415–433). -/
def scanSlash (s : St) : Step :=
  match s.peek with
  | some '/' =>
    match consumeLineComment s.adv with
    | some s => .cont s
    | none => .panic
  | some '*' => .cont (collectDocComment s.adv)
  | some '=' => .cont (s.adv.push .divAssign)
  | _ => .cont (s.push .division)

/-- `'='` (`src/parser/scanner.rs` 434–456). -/
def scanEquals (s : St) : St :=
  match s.peek with
  | some '=' =>
    let s := s.adv
    match s.peek with
    | some '=' => s.adv.push .isIdentical
    | _ => s.push .isEqual
  | some '>' => s.adv.push .doubleArrow
  | _ => s.push .assignment

/-- `'$'` (`src/parser/scanner.rs` 457–465). -/
def scanDollar (U : Unicode) (s : St) : St :=
  let r := collectWhile (isIdChar U) s
  if r.1 ≠ [] then r.2.pushNamed .variable r.1 else r.2.push .variable

/-- The fraction of a number (`src/parser/scanner.rs` 495–504): number so far, type, state. -/
def numberFraction (number : Text) (s : St) : Text × TT × St :=
  if s.peek = some '.' then
    let r := collectWhile isDigit s.adv
    (number ++ ['.'] ++ r.1, .decimalNumber, r.2)
  else (number, .longNumber, s)

/-- The sign of an exponent (`src/parser/scanner.rs` 510–520). -/
def numberSign (number : Text) (s : St) : Text × St :=
  match s.peek with
  | some '-' => (number ++ ['-'], s.adv)
  | some '+' => (number ++ ['+'], s.adv)
  | _ => (number, s)

/-- Numbers (`src/parser/scanner.rs` 466–531). -/
def scanNumber (c : Char) (s : St) : St :=
  if s.peek = some 'x' ∧ c = '0' then
    let r := collectWhile isHexDigit s.adv
    r.2.pushNamed .hexNumber ([c] ++ ['x'] ++ r.1)
  else if s.peek = some 'b' ∧ c = '0' then
    let r := collectWhile isBinDigit s.adv
    r.2.pushNamed .binaryNumber ([c] ++ ['b'] ++ r.1)
  else
    let r := collectWhile isDigit s
    let f := numberFraction ([c] ++ r.1) r.2
    let number := f.1
    let numberType := f.2.1
    let s := f.2.2
    if s.peek = some 'e' ∨ s.peek = some 'E' then
      let g := numberSign (number ++ ['e']) s.adv
      let d := collectWhile isDigit g.2
      d.2.pushNamed .exponentialNumber (g.1 ++ d.1)
    else s.pushNamed numberType number

/-- `')'` (`src/parser/scanner.rs` 536–570).  Lines 547–553: pop the parenthesis, push the cast, then overwrite position
of the last token; `last_mut().unwrap()` panics when there is no token. -/
def scanCloseParen (s : St) : Step :=
  match s.toks with
  | prev :: rest =>
    match mapCast prev.t with
    | some castTo =>
      match rest with
      | p :: rest' =>
        if p.t = .openParenthesis then
          let s := { s with toks := rest' }.push castTo
          match s.toks with
          | last :: r => .cont { s with toks := { last with line := p.line, col := p.col } :: r }
          | [] => .panic
        else .cont (s.push .closeParenthesis)
      | [] => .cont (s.push .closeParenthesis)
    | none => .cont (s.push .closeParenthesis)
  | [] => .cont (s.push .closeParenthesis)

/-- Words (`src/parser/scanner.rs` 601–631). -/
def scanWord (U : Unicode) (c : Char) (s : St) : Step :=
  if isIdChar U c then
    let r := collectWhile (isIdChar U) s
    let name := c :: r.1
    let s := r.2
    match mapKeyword U name with
    | some t => .cont (s.push t)
    | none =>
      if name = c!"from" then
        match s.toks with
        | y :: rest =>
          if y.t = .kwYield then .cont ({ s with toks := rest }.push .yieldFrom)
          else .cont (s.pushNamed .identifier name)
        | [] => .cont (s.pushNamed .identifier name)
      else .cont (s.pushNamed .identifier name)
  else .err (.unexpectedChar c s.line s.col) s

/-- Characters that are a token on their own (`src/parser/scanner.rs` 105–116, 533–535, 571–585). -/
def singleTable : List (Char × TT) := [
  ('@', .silencer), ('~', .bitwiseNegation), (',', .comma), ('\\', .namespaceSeparator), ('(', .openParenthesis),
  ('{', .openCurly), ('}', .closeCurly), ('[', .openBrackets), (']', .closeBrackets), (';', .semicolon)]

/-- Lookup in `singleTable`. -/
def singleChar (c : Char) : Option TT := singleTable.lookup c

/-- Quoted strings (`src/parser/scanner.rs` 586–600). -/
def scanQuoted (q : Char) (t : TT) (s : St) : St :=
  let r := collectUntilEscaped q s
  r.2.pushNamed t r.1

/-- The `match c` of `scan` (`src/parser/scanner.rs` 94–632), after `c` was read. -/
def scanChar (U : Unicode) (c : Char) (s : St) : Step :=
  if c = ' ' ∨ c = '\t' ∨ c = '\r' ∨ c = '\n' then .cont s
  else if c = ':' then .cont (scanColon s)
  else if c = '&' then .cont (scanAmp s)
  else if c = '%' then .cont (scanPercent s)
  else if c = '|' then .cont (scanPipe s)
  else if c = '>' then .cont (scanGreater s)
  else if c = '<' then scanSmaller U s
  else if c = '?' then .cont (scanQuestion s)
  else if c = '!' then .cont (scanBang s)
  else if c = '.' then .cont (scanDot s)
  else if c = '^' then .cont (scanCaret s)
  else if c = '+' then .cont (scanPlus s)
  else if c = '-' then .cont (scanMinus s)
  else if c = '*' then .cont (scanStar s)
  else if c = '#' then scanHash s
  else if c = '/' then scanSlash s
  else if c = '=' then .cont (scanEquals s)
  else if c = '$' then .cont (scanDollar U s)
  else if isDigit c then .cont (scanNumber c s)
  else if c = ')' then scanCloseParen s
  else if c = '\'' then .cont (scanQuoted c .constantEncapsedString s)
  else if c = '`' then .cont (scanQuoted c .shellEscape s)
  else if c = '"' then .cont (scanQuoted c .encapsedAndWhitespaceString s)
  else match singleChar c with
    | some t => .cont (s.push t)
    | none => scanWord U c s

/-- `self.start_of_token = (self.line, self.col);` (`src/parser/scanner.rs` 74). -/
def St.mark (s : St) : St := { s with sLine := s.line, sCol := s.col }

/-- One turn of the loop of `scan` (`src/parser/scanner.rs` 73–633). -/
def step (U : Unicode) (s : St) : Step :=
  match s.mark.advance with
  | (none, s) => .done (s.push .eof)
  | (some c, s) =>
    if s.ctx = .outScript ∧ c ≠ '<' then .cont s
    else scanChar U c s

/-- Outcome of `scan`; the final state is kept because `tokens` and `document_range` stay accessible. -/
inductive Outcome where
  | ok (s : St)
  | err (e : ScanError) (s : St)
  | panic
  | outOfFuel

/-- The loop of `scan` with fuel. -/
def loop (U : Unicode) : Nat → St → Outcome
  | 0, _ => .outOfFuel
  | n + 1, s =>
    match step U s with
    | .cont s => loop U n s
    | .done s => .ok s
    | .err e s => .err e s
    | .panic => .panic

/-- `Scanner::new(source)` followed by `scan` (`src/parser/scanner.rs` 72–636). -/
def scan (U : Unicode) (source : Text) : Outcome := loop U (source.length + 1) (new source)

/-- The token vector of a scanner, in the order of the Rust code. -/
def St.tokens (s : St) : List Token := s.toks.reverse

/-- `document_range` (`src/parser/scanner.rs` 53–55): `((0, 0), (col, line))`. -/
def documentRange (s : St) : ColLine × ColLine := ((0, 0), (s.col, s.line))

end PhpLs.Scanner
