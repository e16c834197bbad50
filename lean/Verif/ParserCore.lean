import Verif.DocBlock

/-!
# Parser: state, outcomes and token helpers

Model of `src/parser/mod.rs` (lines 8–100, 142–157, 473–736).

Simplifications, valid for all parser modules:
* `tokens` (reversed and popped from the end in Rust) is a list read from the front, `doc_comments` (pushed and popped at
  the end) is a list with the newest comment first;
* `u32` is `Nat`;
* a Rust function `f(&mut Parser) -> Result<T, Error>` is a function `PSt → Res T`; `?` is the monadic bind;
* a Rust panic is the outcome `panic`;
* recursion and loops run on fuel; the outcome `diverge` says that the fuel ran out, and where.
-/

namespace PhpLs.Parser

open PhpLs

/-- `Error` (`src/parser/mod.rs` 9–32) without the never constructed `RValueInWriteContext`. -/
inductive Err where
  | wrongToken (expected : List TT) (token : Token)
  | missingIdentifier (token : Token)
  | unexpectedToken (token : Token)
  | illegalOffsetType (expr : Node)
  | eof

/-- `Context` (`src/parser/mod.rs` 51–55) without the never constructed `Echo`. -/
inductive Ctx where
  | out | script
deriving DecidableEq, Repr

/-- `Parser` (`src/parser/mod.rs` 60–70).  `eof` is `(line, column)`, in this order, as in Rust (line 78). -/
structure PSt where
  docs : List Token
  toks : List Token
  errors : List Err
  ctx : Ctx
  eof : Nat × Nat
  endPrev : NodeRange

/-- The loops (and the recursion) of the parser that run on fuel.  The first six are the ones that can run forever; see
`Props/ParserTermination.lean`. -/
inductive Site where
  | ast | block | altBlock | globals | lexicals | alterations
  | other | recursion
deriving DecidableEq, Repr

/-- Outcome of a parser function. -/
inductive Res (α : Type) where
  | ok (a : α) (s : PSt)
  | err (e : Err) (s : PSt)
  | panic
  | diverge (site : Site)

/-- A parser function: `fn(&mut Parser) -> Result<α>`. -/
def P (α : Type) : Type := PSt → Res α

namespace P

/-- `Ok(a)`. -/
def pure (a : α) : P α := fun s => .ok a s

/-- `let a = p?; k a`. -/
def bind (p : P α) (k : α → P β) : P β := fun s =>
  match p s with
  | .ok a s' => k a s'
  | .err e s' => .err e s'
  | .panic => .panic
  | .diverge site => .diverge site

instance : Monad P where
  pure := P.pure
  bind := P.bind

/-- `return Err(e)`. -/
def fail (e : Err) : P α := fun s => .err e s

/-- A Rust panic. -/
def panic : P α := fun _ => .panic

/-- Out of fuel. -/
def diverge (site : Site) : P α := fun _ => .diverge site

/-- `match p { Ok(a) => ok(a), Err(e) => err(e) }`: an error that is caught. -/
def catchErr (p : P α) (ok : α → P β) (err : Err → P β) : P β := fun s =>
  match p s with
  | .ok a s' => ok a s'
  | .err e s' => err e s'
  | .panic => .panic
  | .diverge site => .diverge site

end P

/-- A Rust loop: `body b` either continues with a new value of the loop variables (`inl`) or leaves the loop (`inr`). -/
def loopP (site : Site) : Nat → (β → P (β ⊕ α)) → β → P α
  | 0, _, _ => P.diverge site
  | n + 1, body, b => do
    match ← body b with
    | .inl b' => loopP site n body b'
    | .inr a => pure a

/-- `Token::range` (`src/parser/token.rs` 484–486), `From<((u32, u32), (u32, u32))> for NodeRange`
(`src/parser/node.rs` 59–63).  `none` is a panic of `Token::end`. -/
def _root_.PhpLs.Token.range (k : Token) : Option NodeRange := do
  let e ← k.end
  some ⟨k.col, k.line, e.1, e.2⟩

/-- `NodeRange::end` (`src/parser/node.rs` 145–147). -/
def _root_.PhpLs.NodeRange.end (r : NodeRange) : ColLine := (r.endCol, r.endLine)

/-- Line comments and line breaks: the tokens the parser drops (`src/parser/mod.rs` 482, 498). -/
def isTrivia (k : Token) : Bool := k.t == .lineComment || k.t == .linebreak

/-- `Parser::next` (`src/parser/mod.rs` 474–488), on the remaining tokens. -/
def nextOn : List Token → PSt → Res (Option Token)
  | [], s => .ok none { s with toks := [] }
  | k :: r, s =>
    match k.range with
    | none => .panic
    | some rg =>
      if k.t = .multilineComment then nextOn r { s with endPrev := rg, docs := k :: s.docs }
      else if isTrivia k then nextOn r { s with endPrev := rg }
      else .ok (some k) { s with endPrev := rg, toks := r }

/-- `Parser::next` (`src/parser/mod.rs` 474–488). -/
def next : P (Option Token) := fun s => nextOn s.toks s

/-- `Parser::peek` (`src/parser/mod.rs` 491–507), on the remaining tokens.  An `Eof` token is popped. -/
def peekOn : List Token → PSt → Option Token × PSt
  | [], s => (none, { s with toks := [] })
  | k :: r, s =>
    if k.t = .eof then (none, { s with toks := r })
    else if k.t = .multilineComment then peekOn r { s with docs := k :: s.docs }
    else if isTrivia k then peekOn r s
    else (some k, { s with toks := k :: r })

/-- `Parser::peek` (`src/parser/mod.rs` 491–507). -/
def peek : P (Option Token) := fun s =>
  let (k, s') := peekOn s.toks s
  .ok k s'

/-- `self.errors.push(e)`. -/
def pushErr (e : Err) : P Unit := fun s => .ok () { s with errors := s.errors ++ [e] }

/-- `self.context = c`. -/
def setCtx (c : Ctx) : P Unit := fun s => .ok () { s with ctx := c }

/-- Reading `self.context`. -/
def getCtx : P Ctx := fun s => .ok s.ctx s

/-- `self.next().unwrap()`. -/
def nextUnwrap : P Token := do
  match ← next with
  | some k => pure k
  | none => P.panic

/-- The pattern `if let Some(t) = self.peek() { if f(t) { Some(self.next().unwrap()) } else { None } } else { None }`. -/
def takeIf (f : Token → Bool) : P (Option Token) := do
  match ← peek with
  | none => pure none
  | some k =>
    if f k then do
      let k' ← nextUnwrap
      pure (some k')
    else pure none

/-- `Parser::consume_or_ignore` (`src/parser/mod.rs` 598–608). -/
def consumeOrIgnore (t : TT) : P (Option Token) := takeIf fun k => k.t == t

/-- `Parser::consume_one_of_or_ignore` (`src/parser/mod.rs` 704–714). -/
def consumeOneOfOrIgnore (ts : List TT) : P (Option Token) := takeIf fun k => ts.contains k.t

/-- `if let Some(t) = self.peek() { f(t) } else { false }`. -/
def nextIs (f : Token → Bool) : P Bool := do
  match ← peek with
  | none => pure false
  | some k => pure (f k)

/-- `Parser::next_token_one_of` (`src/parser/mod.rs` 717–727). -/
def nextOneOf (ts : List TT) : P Bool := nextIs fun k => ts.contains k.t

/-- `Parser::next_is_member` (`src/parser/mod.rs` 669–675). -/
def nextIsMember : P Bool := nextIs fun k => k.isIdentifier || k.t == .variable

/-- `Parser::next_is_identifier` (`src/parser/mod.rs` 677–683). -/
def nextIsIdentifier : P Bool := nextIs fun k => k.isIdentifier

/-- `Parser::next_is_operator` (`src/parser/mod.rs` 729–736). -/
def nextIsOperator : P Bool := nextIs fun k => k.t.infixBP.isSome || k.t.prefixBP.isSome

/-- The loop `while let Some(next) = self.peek() { if ff_to contains next.t { break } self.next(); }` of
`error_fast_forward` (`src/parser/mod.rs` 143–157) and of `consume_or_ff_before` (585–592), on the remaining tokens.
`Props/ParserRecovery.lean` proves that it satisfies the loop equation (`ffBefore_eq`). -/
def ffBeforeOn (stop : List TT) : List Token → PSt → Res Unit
  | [], s => .ok () { s with toks := [] }
  | k :: r, s =>
    if k.t = .eof then .ok () { s with toks := r }
    else if k.t = .multilineComment then ffBeforeOn stop r { s with docs := k :: s.docs }
    else if isTrivia k then ffBeforeOn stop r s
    else if stop.contains k.t then .ok () { s with toks := k :: r }
    else
      match k.range with
      | none => .panic
      | some rg => ffBeforeOn stop r { s with endPrev := rg }

/-- As `ffBeforeOn`, from the current position. -/
def ffBefore (stop : List TT) : P Unit := fun s => ffBeforeOn stop s.toks s

/-- The tokens `error_fast_forward` stops at (`src/parser/mod.rs` 145–151). -/
def syncSet : List TT := [.semicolon, .scriptStartRegular, .scriptStartEcho, .scriptStartShort, .closeCurly]

/-- `Parser::error_fast_forward` (`src/parser/mod.rs` 143–157). -/
def errorFastForward : P Unit := ffBefore syncSet

/-- The loop `while let Some(next) = self.next() { if ff_to contains next.t { break } }` of `consume_or_ff_after`
(`src/parser/mod.rs` 557–563), on the remaining tokens.  `ffAfter_eq` is its loop equation. -/
def ffAfterOn (stop : List TT) : List Token → PSt → Res Unit
  | [], s => .ok () { s with toks := [] }
  | k :: r, s =>
    match k.range with
    | none => .panic
    | some rg =>
      if k.t = .multilineComment then ffAfterOn stop r { s with endPrev := rg, docs := k :: s.docs }
      else if isTrivia k then ffAfterOn stop r { s with endPrev := rg }
      else if stop.contains k.t then .ok () { s with endPrev := rg, toks := r }
      else ffAfterOn stop r { s with endPrev := rg }

/-- As `ffAfterOn`, from the current position. -/
def ffAfter (stop : List TT) : P Unit := fun s => ffAfterOn stop s.toks s

/-- The pattern `match self.peek() { Some(t) if f(t) => self.next().unwrap(), Some(t) => t.clone(), None => .. }`: the
flag says whether the token was taken. -/
def takeOr (f : Token → Bool) : P (Option (Token × Bool)) := do
  match ← peek with
  | none => pure none
  | some k =>
    if f k then do
      let k' ← nextUnwrap
      pure (some (k', true))
    else pure (some (k, false))

/-- `let (token, is_wrong_token) = ..` of `consume` and `consume_identifier` (`src/parser/mod.rs` 612–620, 635–643); the
flag is `is_wrong_token`.  `Token::missing` takes `(column, line)` but `self.eof` is `(line, column)`. -/
def takeOrMissing (f : Token → Bool) : P (Token × Bool) := do
  match ← peek with
  | none => fun s => .ok (Token.missing s.eof, true) s
  | some k =>
    if f k then do
      let k' ← nextUnwrap
      pure (k', false)
    else fun s => .ok (Token.missing s.endPrev.end, true) s

/-- `Parser::consume` (`src/parser/mod.rs` 611–631).  It never returns `Err`. -/
def consume (t : TT) : P Token := do
  let (k, wrong) ← takeOrMissing (fun k => k.t == t)
  if wrong then do
    errorFastForward
    pushErr (.wrongToken [t] k)
    pure k
  else pure k

/-- `Parser::consume_identifier` (`src/parser/mod.rs` 634–651).  It never returns `Err`. -/
def consumeIdentifier : P Token := do
  let (k, wrong) ← takeOrMissing Token.isIdentifier
  if wrong then do
    pushErr (.missingIdentifier k)
    pure k
  else pure k

/-- `Parser::consume_end_of_statement` (`src/parser/mod.rs` 510–537). -/
def consumeEndOfStatement : P Unit := do
  match ← takeOr (fun k => k.t == .semicolon) with
  | none => pushErr .eof
  | some (k, taken) =>
    if taken then pure ()
    else if k.t = .scriptEnd then pure ()
    else do
      errorFastForward
      pushErr (.wrongToken [.semicolon, .scriptEnd] k)

/-- `Parser::consume_or_ff_after` (`src/parser/mod.rs` 539–566). -/
def consumeOrFfAfter (t : TT) (ffTo : List TT) : P Unit := do
  match ← takeOr (fun k => k.t == t) with
  | none => pushErr .eof
  | some (k, taken) =>
    if taken then pure ()
    else do
      pushErr (.wrongToken [t] k)
      ffAfter ffTo

/-- `Parser::consume_or_ff_before` (`src/parser/mod.rs` 568–595). -/
def consumeOrFfBefore (t : TT) (ffTo : List TT) : P Token := do
  match ← takeOr (fun k => k.t == t) with
  | none => do
    pushErr .eof
    P.fail .eof
  | some (k, taken) =>
    if taken then pure k
    else do
      pushErr (.wrongToken [t] k)
      ffBefore ffTo
      pure k

/-- `Parser::consume_member` (`src/parser/mod.rs` 654–667). -/
def consumeMember : P Token := do
  match ← next with
  | some k =>
    if k.isIdentifier || k.t == .variable then pure k
    else P.fail (.wrongToken [.identifier, .variable] k)
  | none => P.fail .eof

/-- `Parser::consume_one_of` (`src/parser/mod.rs` 686–701). -/
def consumeOneOf (ts : List TT) : P Token := do
  match ← next with
  | some k => if ts.contains k.t then pure k else P.fail (.wrongToken ts k)
  | none => P.fail .eof

/-- Taking a token that satisfies `f` if the one after it satisfies `g`; otherwise the token is put back on the stack
(`src/parser/mod.rs` 439–457, `src/parser/ast/calls.rs` 143–160).  Comments and line breaks between the two tokens are
dropped in either case. -/
def lookahead (f g : Token → Bool) : P (Option Token) := do
  match ← takeIf f with
  | none => pure none
  | some k =>
    if ← nextIs g then pure (some k)
    else fun s => .ok none { s with toks := k :: s.toks }

/-- The first half of the heredoc case of `primary` (`src/parser/ast/expressions.rs` 140–142): the start marker is skipped
and the token after it is taken with `parser.next().unwrap()`. -/
def hereDocBody : P (Option Token) := do
  if ← nextOneOf [.hereDocStart] then do
    consumeOrFfAfter .hereDocStart [.hereDocStart]
    let k ← nextUnwrap
    pure (some k)
  else pure none

/-- `comments::consume_optional_doc_comment` (`src/parser/ast/comments.rs` 366–379); `doc` is
`DocBlockScanner::new(..).scan()`, whose `none` is a panic. -/
def popDoc (doc : Token → Option Node) : P (Option Node) := fun s =>
  match s.docs with
  | [] => .ok none s
  | k :: r =>
    match doc k with
    | none => .panic
    | some n => .ok (some n) { s with docs := r }

/-- The `var_docs` of a doc comment node. -/
def varDocs : Node → List Node
  | .docComment _ _ _ _ _ vs _ => vs
  | _ => []

/-- The loop of `src/parser/mod.rs` 125–133 (also 183–191, 232–240), on the remaining doc comments: all doc comments are
popped, their `@var` nodes are returned. -/
def drainDocsOn (doc : Token → Option Node) : List Token → PSt → Res (List Node)
  | [], s => .ok [] { s with docs := [] }
  | k :: r, s =>
    match doc k with
    | none => .panic
    | some n =>
      match drainDocsOn doc r s with
      | .ok l s' => .ok (varDocs n ++ l) s'
      | e => e

/-- As `drainDocsOn`, for all doc comments on the stack. -/
def drainDocs (doc : Token → Option Node) : P (List Node) := fun s => drainDocsOn doc s.docs s

/-- `Parser::new` (`src/parser/mod.rs` 73–90). -/
def new (tokens : List Token) : PSt where
  docs := []
  toks := tokens
  errors := []
  ctx := .out
  eof := match tokens.getLast? with
    | some k => (k.line, k.col)
    | none => (0, 0)
  endPrev := ⟨0, 0, 0, 0⟩

end PhpLs.Parser
