import Verif.Formatter
import Verif.Runs

/-!
# The formatter by spans

Model of `src/formatter/v2.rs`, `src/formatter/expressions.rs`, `src/formatter/loops.rs` and `src/formatter/classes/mod.rs`: the
second formatter, which reads the tokens so that comments are kept.  The server does not call it yet.  The result `none` is a
panic: `unwrap`, a slice out of range, `unimplemented!`, or the overflow of a level (`u8`), which panics in debug builds.
-/

namespace PhpLs

namespace Spans

/-- `Chunk` (`src/formatter/v2.rs` 17–23): tokens that are never split. -/
structure Chunk where
  tokens : List Token
  spaced : Bool
  spaceAfter : Bool
deriving DecidableEq, Repr

/-- `Chunk::new` (`src/formatter/v2.rs` 53–59). -/
def Chunk.new (tokens : List Token) : Chunk := ⟨tokens, true, false⟩

/-- `Chunk::single` (`src/formatter/v2.rs` 61–67). -/
def Chunk.single (token : Token) : Chunk := ⟨[token], false, false⟩

/-- `Chunk::unspaced` (`src/formatter/v2.rs` 69–75). -/
def Chunk.unspaced (tokens : List Token) : Chunk := ⟨tokens, false, false⟩

/-- `Chunk::with_space_after` (`src/formatter/v2.rs` 77–82). -/
def Chunk.withSpaceAfter (c : Chunk) : Chunk := { c with spaceAfter := true }

/-- `Chunk::right_offset` (`src/formatter/v2.rs` 85–87). -/
def Chunk.rightOffset (c : Chunk) : Option Nat := do
  let t ← c.tokens.getLast?
  t.offset

/-- `Chunk::left_offset` (`src/formatter/v2.rs` 90–92). -/
def Chunk.leftOffset (c : Chunk) : Option Nat := do
  let t ← c.tokens.head?
  t.offset

/-- The loop of `Display for Chunk` (`src/formatter/v2.rs` 25–49); the last token is the one without others behind it. -/
def Chunk.shown (spaced spaceAfter : Bool) : List Token → Option Text
  | [] => some []
  | k :: r => do
    let rest ← Chunk.shown spaced spaceAfter r
    if k.t = .linebreak then pure rest
    else do
      let t ← k.display
      if k.t.infixBP.isSome || (!r.isEmpty && (spaced || k.t == .semicolon)) || spaceAfter then pure (t ++ c!" " ++ rest)
      else pure (t ++ rest)

/-- `Display for Chunk`. -/
def Chunk.display (c : Chunk) : Option Text := Chunk.shown c.spaced c.spaceAfter c.tokens

/-- `Span` (`src/formatter/v2.rs` 106–118): chunks for one line, and the spans it may be broken into. -/
inductive Span where
  | mk (chunks : List Chunk) (spans : List Span) (lvl : Nat) (spaced : Bool)

/-- The chunks of a span. -/
def Span.chunks : Span → List Chunk
  | .mk cs _ _ _ => cs

/-- Whether the chunks are separated by blanks. -/
def Span.spaced : Span → Bool
  | .mk _ _ _ b => b

/-- `Span::new` (`src/formatter/v2.rs` 155–162). -/
def Span.new (chunks : List Chunk) (spans : List Span) (lvl : Nat) : Span := .mk chunks spans lvl true

/-- `Span::unspaced` (`src/formatter/v2.rs` 164–171). -/
def Span.unspaced (chunks : List Chunk) (spans : List Span) (lvl : Nat) : Span := .mk chunks spans lvl false

/-- `Span::leaf` (`src/formatter/v2.rs` 173–180). -/
def Span.leaf (chunks : List Chunk) (lvl : Nat) : Span := .mk chunks [] lvl false

/-- `Display for Span` (`src/formatter/v2.rs` 120–133). -/
def Span.display : Span → Option Text
  | .mk cs _ lvl spaced => do
    let ts ← cs.mapM Chunk.display
    pure (Formatter.spaces (lvl * 4) ++ Formatter.joinText (if spaced then c!" " else []) ts)

/-- `Span::right_offset` (`src/formatter/v2.rs` 183–185). -/
def Span.rightOffset (s : Span) : Option Nat := do
  let c ← s.chunks.getLast?
  c.rightOffset

/-- `Span::left_offset` (`src/formatter/v2.rs` 188–190). -/
def Span.leftOffset (s : Span) : Option Nat := do
  let c ← s.chunks.head?
  c.leftOffset

/-- Tokens are added behind the last chunk. -/
def extendLast (ts : List Token) : List Chunk → Option (List Chunk)
  | [] => none
  | [c] => some [{ c with tokens := c.tokens ++ ts }]
  | c :: d :: r => do
    let r' ← extendLast ts (d :: r)
    pure (c :: r')

/-- Tokens are added in front of the first chunk. -/
def extendFirst (ts : List Token) : List Chunk → Option (List Chunk)
  | [] => none
  | c :: r => some ({ c with tokens := ts ++ c.tokens } :: r)

mutual

/-- `Span::right_extend` (`src/formatter/v2.rs` 196–206). -/
def Span.rightExtend (ts : List Token) : Span → Option Span
  | .mk cs ss lvl spaced => do
    let cs' ← extendLast ts cs
    let ss' ← rightExtendLast ts ss
    pure (.mk cs' ss' lvl spaced)

/-- The part of `right_extend` for the inner spans. -/
def rightExtendLast (ts : List Token) : List Span → Option (List Span)
  | [] => some []
  | [s] => do
    let s' ← s.rightExtend ts
    pure [s']
  | s :: s2 :: r => do
    let r' ← rightExtendLast ts (s2 :: r)
    pure (s :: r')

end

mutual

/-- `Span::left_extend` (`src/formatter/v2.rs` 212–222). -/
def Span.leftExtend (ts : List Token) : Span → Option Span
  | .mk cs ss lvl spaced => do
    let cs' ← extendFirst ts cs
    let ss' ← leftExtendFirst ts ss
    pure (.mk cs' ss' lvl spaced)

/-- The part of `left_extend` for the inner spans. -/
def leftExtendFirst (ts : List Token) : List Span → Option (List Span)
  | [] => some []
  | s :: r => do
    let s' ← s.leftExtend ts
    pure (s' :: r)

end

/-- `tokens[a..b]`. -/
def slice (ts : List Token) (a b : Nat) : Option (List Token) :=
  if a ≤ b ∧ b ≤ ts.length then some ((ts.take b).drop a) else none

/-- `next_that` (`src/formatter/v2.rs` 226–233). -/
def nextThat (start : Nat) (ts : List Token) (f : Token → Bool) : Option Nat := do
  let r ← slice ts (start + 1) ts.length
  let k ← r.find? f
  k.offset

/-- `prev_that` (`src/formatter/v2.rs` 236–244). -/
def prevThat (start : Nat) (ts : List Token) (f : Token → Bool) : Option Nat := do
  let r ← slice ts 0 start
  let k ← r.reverse.find? f
  k.offset

/-- `Token::is_comment` (`src/parser/token.rs` 457–459). -/
def isComment (k : Token) : Bool := k.t == .lineComment || k.t == .multilineComment

/-- `pre_statement_span` (`src/formatter/v2.rs` 248–262). -/
def preStatementSpan (offset : Nat) (ts : List Token) (lvl : Nat) : Option Span := do
  let p ← prevThat offset ts fun k => k.t != .multilineComment
  let r ← slice ts (p + 1) offset
  pure (.new (r.map Chunk.single) [] lvl)

/-- `slice.split(|t| t.t == TokenType::Linebreak)`. -/
def splitLines : List Token → List (List Token)
  | [] => [[]]
  | k :: r =>
    if k.t = .linebreak then [] :: splitLines r
    else
      match splitLines r with
      | [] => [[k]]
      | l :: ls => (k :: l) :: ls

/-- `lvl + 1` of a `u8`. -/
def deeper (lvl : Nat) : Option Nat := if lvl < 255 then some (lvl + 1) else none

/-- `lvl - 1` of a `u8`. -/
def outer (lvl : Nat) : Option Nat := if 0 < lvl then some (lvl - 1) else none

/-- What the loop of `binary_to_spans` over the line comments in front of the right side changes. -/
structure Cut where
  start : Nat
  chunks : List Chunk
  subspans : List Span
  spans : List Span

/-- The loop of `binary_to_spans` over the line comments (`src/formatter/expressions.rs` 90–111).  The fuel is enough if every
token knows its index (C10); with other offsets the loop may not end, which is `none` here. -/
def cutComments (ts : List Token) (lmt lvl : Nat) : Nat → Cut → Option Cut
  | 0, _ => none
  | n + 1, c => do
    let between ← slice ts c.start lmt
    match between.find? (·.t == .lineComment) with
    | none => pure c
    | some lc => do
      let off ← lc.offset
      let r ← slice ts c.start (off + 1)
      let chunk := Chunk.unspaced r
      cutComments ts lmt lvl n
        ⟨off + 1, [], [], c.spans ++ [.new (c.chunks ++ [chunk]) (c.subspans ++ [.leaf [chunk] lvl]) lvl]⟩

/-- `binary_to_spans` (`src/formatter/expressions.rs` 57–125), with the spans of both sides. -/
def binarySpans (ts : List Token) (lvl : Nat) (left right : List Span) : Option (List Span) := do
  let chunks := match left with
    | [] => []
    | s :: _ => s.chunks
  let last ← chunks.getLast?
  let rels ← last.rightOffset
  match right with
  | [] => pure []
  | first :: rest => do
    let lmt ← first.leftOffset
    let c ← cutComments ts lmt lvl (lmt + 1) ⟨rels + 1, chunks, left.take 1, []⟩
    let op ← slice ts c.start lmt
    let first' ← first.leftExtend op
    pure (c.spans ++ [.new (c.chunks ++ first'.chunks) (c.subspans ++ [first']) lvl] ++ rest)

/-- The first part of `expression_stmt_to_spans`: comments are added on the left (`src/formatter/expressions.rs` 26–34). -/
def addComments (ts : List Token) : List Span → Option (List Span)
  | [] => some []
  | s :: r => do
    let l ← s.leftOffset
    let p ← prevThat l ts fun k => k.t != .multilineComment
    let c ← slice ts (p + 1) l
    let s' ← s.leftExtend c
    pure (s' :: r)

/-- The second part: everything up to the end of the statement is added on the right (`src/formatter/expressions.rs` 36–51). -/
def addEnd (ts : List Token) : List Span → Option (List Span)
  | [] => some []
  | [s] => do
    let r ← s.rightOffset
    let e ← nextThat r ts fun k => k.t == .semicolon
    let k ← ts[e + 1]?
    let c ← slice ts (r + 1) ((if k.t = .lineComment then e + 1 else e) + 1)
    let s' ← s.rightExtend c
    pure [s']
  | s :: s2 :: r => do
    let r' ← addEnd ts (s2 :: r)
    pure (s :: r')

/-- The chunks of the condition in the head of a loop (`src/formatter/loops.rs` 57–72). -/
def headChunks : List Span → List Chunk
  | [] => []
  | first :: _ =>
    if first.spaced then first.chunks.dropLast.map Chunk.withSpaceAfter ++ first.chunks.getLast?.toList else first.chunks

/-- The tokens between the parenthesis and the body; the `{` of a block belongs to them (`src/formatter/loops.rs` 40–45). -/
def closing (ts : List Token) (cp oc : Nat) (curly : Bool) : Option Chunk :=
  if curly then (slice ts cp (oc + 1)).map Chunk.new else (slice ts cp oc).map Chunk.unspaced

/-- `while_to_spans` (`src/formatter/loops.rs` 10–80), with the spans of the condition and of the body. -/
def whileSpans (ts : List Token) (token op cp : Token) (lvl : Nat) (condition body : List Span) : Option (List Span) := do
  let tokenOffset ← token.offset
  let opOffset ← op.offset
  let cpOffset ← cp.offset
  let pre ← preStatementSpan tokenOffset ts lvl
  let w ← slice ts tokenOffset (opOffset + 1)
  let whileOp := Chunk.new w
  let behind ← slice ts (cpOffset + 1) ts.length
  let oc ← behind.find? fun k => !isComment k && k.t != .linebreak
  let ocOffset ← oc.offset
  let cpOc ← closing ts cpOffset ocOffset (oc.t == .openCurly)
  pure (.unspaced (pre.chunks ++ [whileOp] ++ headChunks condition ++ [cpOc])
    ([pre, .leaf [whileOp] lvl] ++ condition ++ [.leaf [cpOc] lvl]) lvl :: body)

/-- Cut off a leading line break (`src/formatter/v2.rs` 289–291). -/
def trimFront : List Token → List Token
  | k :: r => if k.t = .linebreak then r else k :: r
  | [] => []

/-- Cut off a trailing line break (`src/formatter/v2.rs` 293–296). -/
def trimBack (b : List Token) : List Token :=
  match b.getLast? with
  | some k => if k.t = .linebreak then b.dropLast else b
  | none => b

/-- The tokens in front of a statement, a span for each line (`src/formatter/v2.rs` 286–306). -/
def betweenSpans (ts : List Token) (lvl prev cur : Nat) : Option (List Span) := do
  let between ← slice ts (prev + 1) cur
  if 1 < between.length then
    pure ((splitLines (trimBack (trimFront between))).map fun l => .leaf [.new l] lvl)
  else pure []

mutual

/-- `node_to_spans` (`src/formatter/v2.rs` 325–375); `class_stmt_to_spans` (`src/formatter/classes/mod.rs` 8–14) adds nothing. -/
def nodeSpans (ts : List Token) : Node → Nat → Option (List Span)
  | .whileStatement token op condition cp body, lvl => do
    let l ← deeper lvl
    let c ← nodeSpans ts condition l
    let b ← nodeSpans ts body l
    whileSpans ts token op cp lvl c b
  | .literal token, lvl => some [.leaf [.unspaced [token]] lvl]
  | .binary left _ right, lvl => do
    let l ← nodeSpans ts left lvl
    let r ← nodeSpans ts right lvl
    binarySpans ts lvl l r
  | .variable token, lvl => some [.leaf [.unspaced [token]] lvl]
  | .expressionStatement e, lvl => do
    let ss ← nodeSpans ts e lvl
    let ss ← addComments ts ss
    addEnd ts ss
  | .block oc statements cc, lvl => do
    let o ← oc.offset
    let c ← cc.offset
    let ss ← astSpans ts statements lvl o c
    let e ← nextThat c ts fun k => !isComment k
    let r ← slice ts c e
    let l ← outer lvl
    pure (ss ++ [.new [.new r] [] l])
  | .classStatement .., _ => some []
  | _, _ => none

/-- `ast_to_spans` (`src/formatter/v2.rs` 268–322). -/
def astSpans (ts : List Token) : List Node → Nat → Nat → Nat → Option (List Span)
  | [], lvl, prev, next => do
    let between ← slice ts (prev + 1) next
    pure [.leaf ((splitLines between).map .new) lvl]
  | n :: r, lvl, prev, next => do
    let ss ← nodeSpans ts n lvl
    let pre ← match ss with
      | [] => some []
      | first :: _ => do
        let cur ← first.leftOffset
        betweenSpans ts lvl prev cur
    let last ← ss.getLast?
    let prev' ← last.rightOffset
    let rest ← astSpans ts r lvl prev' next
    pure (pre ++ ss ++ rest)

end

/-- The lines of the spans, as the tests of `src/formatter/expressions.rs` (156–163) and `src/formatter/loops.rs` (127–134) print
them. -/
def printed (ss : List Span) : Option Text := do
  let ls ← ss.mapM Span.display
  pure (Formatter.joinText c!"\n" ls)

/-- A text is formatted as in these tests. -/
def formatted (source : Text) : Option Text :=
  match Scanner.scan Unicode.ascii source with
  | .ok s => do
    let k ← s.tokens.head?
    let e ← s.tokens.getLast?
    let a ← k.offset
    let b ← e.offset
    let ss ← astSpans s.tokens (treeOf source) 0 a b
    printed ss
  | _ => none

end Spans

end PhpLs
