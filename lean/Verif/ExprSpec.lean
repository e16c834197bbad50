import Verif.ParserRun

/-!
# Specification of operator expressions (C17, C18, C19)

`Ex` is the specification's syntax of operator expressions, with every token of the source in it; `Ex.yield` writes an
expression down and `Ex.Valid` says, from a table of precedence levels, which of the many trees that are written down the
same way is the right one.
-/

namespace PhpLs.Parser

open PhpLs

/-! ## Specification: the operator table -/

/-- Precedence levels, the loosest first. -/
abbrev Level := Fin 22

/-- Associativity. -/
inductive Assoc where
  | left | right
deriving DecidableEq, Repr

/-- The level of each infix operator. -/
def infixLevel : TT → Option Level
  | .logicXor => some 1
  | .kwPrint => some 2
  | .kwYield => some 3
  | .yieldFrom => some 4
  | .assignment | .binaryAndAssignment | .binaryOrAssignment | .moduloAssignment | .concatAssignment
  | .xorAssignment | .rightShiftAssignment | .leftShiftAssignment | .coalesceAssignment | .powerAssignment
  | .plusAssign | .minusAssign | .mulAssign | .divAssign => some 5
  | .questionMark => some 6
  | .coalesce => some 7
  | .logicOr => some 8
  | .logicAnd => some 9
  | .binaryOr => some 10
  | .binaryXor => some 11
  | .binaryAnd => some 12
  | .isNotIdentical | .isIdentical | .spaceShip | .isEqual | .isNotEqual | .isNotEqualAlt => some 13
  | .greater | .smaller | .greaterOrEqual | .smallerOrEqual => some 14
  | .rightShift | .leftShift => some 15
  | .plus | .minus | .concat => some 16
  | .modulo | .multiplication | .division => some 17
  | .instanceOf => some 18
  | .power => some 20
  | _ => none

/-- The level of each postfix operator. -/
def postfixLevel : TT → Option Level
  | .increment | .decrement => some 19
  | _ => none

/-- A prefix operator takes everything into its operand that binds at least at its level. -/
def prefixLevel : TT → Option Level
  | .plus | .minus => some 16
  | .increment | .decrement => some 19
  | .silencer | .negation | .bitwiseNegation | .boolCast | .badCast | .intCast | .stringCast | .arrayCast
  | .objectCast | .doubleCast | .elipsis | .unsetCast => some 20
  | .kwClone | .kwNew | .binaryAnd => some 21
  | _ => none

/-- How the infix operators of a level associate. -/
def assoc (l : Level) : Assoc :=
  if l = 1 ∨ (8 ≤ l ∧ l ≤ 12) ∨ (15 ≤ l ∧ l ≤ 18) then .right else .left

/-- The level of an operator that continues an expression: infix or postfix. -/
def opLevel (t : TT) : Option Level :=
  match postfixLevel t with
  | some l => some l
  | none => infixLevel t

/-! ## Specification: expressions -/

mutual

/-- An operator expression with all its tokens. -/
inductive Ex where
  /-- A literal. -/
  | lit (k : Token)
  /-- A variable. -/
  | var (k : Token)
  /-- A name: an optional leading backslash, an identifier, and pairs of a backslash and an identifier. -/
  | name (ns : Option Token) (id : Token) (path : List (Token × Token))
  /-- An expression in parentheses. -/
  | group (lp : Token) (e : Ex) (rp : Token)
  /-- Access to a member with `->` or `?->`. -/
  | member (e : Ex) (op : Token) (m : Token)
  /-- Access to an element with `[..]`. -/
  | index (e : Ex) (ob : Token) (i : Ex) (cb : Token)
  /-- Access to a static member or a class constant with `::`. -/
  | static (e : Ex) (pn : Token) (m : Token)
  /-- A call. -/
  | call (e : Ex) (lp : Token) (args : Args) (rp : Token)
  /-- A prefix operator and its operand. -/
  | un (k : Token) (e : Ex)
  /-- A postfix operator and its operand. -/
  | post (e : Ex) (k : Token)
  /-- An infix operator and its operands. -/
  | bin (l : Ex) (k : Token) (r : Ex)
  /-- `l ? m : r`. -/
  | tern (l : Ex) (q : Token) (m : Ex) (c : Token) (r : Ex)
  /-- `l ?: r`. -/
  | short (l : Ex) (q : Token) (c : Token) (r : Ex)

/-- The arguments of a call, with a comma between them and optionally behind the last one. -/
inductive Args where
  | nil
  | last (e : Ex)
  | cons (e : Ex) (comma : Token) (more : Args)

end

namespace Ex

/-- The tokens of a path. -/
def pathToks (path : List (Token × Token)) : List Token := path.flatMap fun p => [p.1, p.2]

mutual

/-- The tokens of an expression, in the order of the source. -/
def yield : Ex → List Token
  | .lit k => [k]
  | .var k => [k]
  | .name ns id path => ns.toList ++ id :: pathToks path
  | .group lp e rp => lp :: (e.yield ++ [rp])
  | .member e op m => e.yield ++ [op, m]
  | .index e ob i cb => e.yield ++ ob :: (i.yield ++ [cb])
  | .static e pn m => e.yield ++ [pn, m]
  | .call e lp args rp => e.yield ++ lp :: (args.yield ++ [rp])
  | .un k e => k :: e.yield
  | .post e k => e.yield ++ [k]
  | .bin l k r => l.yield ++ k :: r.yield
  | .tern l q m c r => l.yield ++ q :: (m.yield ++ c :: r.yield)
  | .short l q c r => l.yield ++ q :: c :: r.yield

/-- The tokens of the arguments of a call. -/
def _root_.PhpLs.Parser.Args.yield : Args → List Token
  | .nil => []
  | .last e => e.yield
  | .cons e comma more => e.yield ++ comma :: more.yield

end

mutual

/-- The syntax tree of an expression. -/
def toNode : Ex → Node
  | .lit k => .literal k
  | .var k => .variable k
  | .name ns id path => .typeRef ⟨ns.toList ++ id :: pathToks path, false⟩
  | .group _ e _ => .grouping e.toNode
  | .member e op m => .member e.toNode op none (.literal m) none
  | .index e ob i cb => .field e.toNode ob (some i.toNode) cb
  | .static e pn m => .staticMember e.toNode pn none (.literal m) none
  | .call e lp args rp => .call e.toNode lp args.toNodes rp
  | .un k e => .unary e.toNode k
  | .post e k => .postUnary e.toNode k
  | .bin l k r => .binary l.toNode k r.toNode
  | .tern l q m c r => .ternary l.toNode q (some m.toNode) c r.toNode
  | .short l q c r => .ternary l.toNode q none c r.toNode

/-- The syntax trees of the arguments of a call. -/
def _root_.PhpLs.Parser.Args.toNodes : Args → List Node
  | .nil => []
  | .last e => [e.toNode]
  | .cons e _ more => e.toNode :: more.toNodes

end

/-- Expressions without an operator at the top. -/
def IsCall : Ex → Prop
  | .lit _ | .var _ | .name _ _ _ | .group _ _ _ | .member _ _ _ | .index _ _ _ _
  | .static _ _ _ | .call _ _ _ _ => True
  | _ => False

/-- An operator whose right operand is still open where the expression ends. -/
inductive Edge where
  | pre (t : TT)
  | inf (t : TT)

/-- An open operator takes a following operator of type `t` into its operand iff that one binds tighter, or equally tight
where the table says so. -/
def Edge.Admits : Edge → TT → Prop
  | .pre p, t => ∃ lp l, prefixLevel p = some lp ∧ opLevel t = some l ∧ lp ≤ l
  | .inf p, t => ∃ lp l, infixLevel p = some lp ∧ opLevel t = some l ∧ (lp < l ∨ (lp = l ∧ assoc lp = .right))

/-- The operators on the left edge: those whose left operand starts where the expression starts. -/
def lefts : Ex → List TT
  | .post e k => k.t :: e.lefts
  | .bin l k _ => k.t :: l.lefts
  | .tern l q _ _ _ => q.t :: l.lefts
  | .short l q _ _ => q.t :: l.lefts
  | _ => []

/-- The operators on the right edge: those whose right operand ends where the expression ends. -/
def rights : Ex → List Edge
  | .un k e => .pre k.t :: e.rights
  | .bin _ k r => .inf k.t :: r.rights
  | .tern _ q _ _ r => .inf q.t :: r.rights
  | .short _ q _ r => .inf q.t :: r.rights
  | _ => []

/-- `r` is a right operand of the open operator `o`: `o` takes every operator on its left edge. -/
def RightOf (o : Edge) (r : Ex) : Prop := ∀ t ∈ r.lefts, o.Admits t

/-- `l` is a left operand of an operator of type `t`: no operator on its right edge takes `t`. -/
def LeftOf (l : Ex) (t : TT) : Prop := ∀ o ∈ l.rights, ¬ o.Admits t

mutual

/-- The tree is made of tokens of the right types, and it is the one the operator table defines. -/
def Valid : Ex → Prop
  | .lit k => Plain k ∧ k.t ∈ literalSet
  | .var k => Plain k ∧ k.t = .variable ∧ k.label.isSome = true
  | .name ns id path => (∀ k ∈ ns, Plain k ∧ k.t = .namespaceSeparator) ∧ (ns = none → id.t = .identifier) ∧
      (Plain id ∧ id.isIdentifier = true) ∧
      ∀ p ∈ path, (Plain p.1 ∧ p.1.t = .namespaceSeparator) ∧ Plain p.2 ∧ p.2.isIdentifier = true
  | .group lp e rp => (Plain lp ∧ lp.t = .openParenthesis) ∧ e.Valid ∧ Plain rp ∧ rp.t = .closeParenthesis
  | .member e op m => e.Valid ∧ e.IsCall ∧ (Plain op ∧ (op.t = .objectOperator ∨ op.t = .nullsafeObjectOperator)) ∧
      Plain m ∧ m.isIdentifier = true
  | .index e ob i cb => e.Valid ∧ e.IsCall ∧ (Plain ob ∧ ob.t = .openBrackets) ∧ i.Valid ∧ Plain cb ∧
      cb.t = .closeBrackets
  | .static e pn m => e.Valid ∧ e.IsCall ∧ (Plain pn ∧ pn.t = .paamayimNekudayim) ∧ Plain m ∧ m.isIdentifier = true
  | .call e lp args rp => e.Valid ∧ e.IsCall ∧ (Plain lp ∧ lp.t = .openParenthesis) ∧ args.Valid ∧ Plain rp ∧
      rp.t = .closeParenthesis
  | .un k e => (Plain k ∧ (prefixLevel k.t).isSome = true) ∧ e.Valid ∧ RightOf (.pre k.t) e
  | .post e k => e.Valid ∧ (Plain k ∧ (postfixLevel k.t).isSome = true) ∧ LeftOf e k.t
  | .bin l k r => l.Valid ∧ (Plain k ∧ (infixLevel k.t).isSome = true ∧ k.t ≠ .questionMark) ∧ r.Valid ∧
      LeftOf l k.t ∧ RightOf (.inf k.t) r
  | .tern l q m c r => l.Valid ∧ (Plain q ∧ q.t = .questionMark) ∧ m.Valid ∧ (Plain c ∧ c.t = .colon) ∧ r.Valid ∧
      LeftOf l q.t ∧ RightOf (.inf q.t) r
  | .short l q c r => l.Valid ∧ (Plain q ∧ q.t = .questionMark) ∧ (Plain c ∧ c.t = .colon) ∧ r.Valid ∧
      LeftOf l q.t ∧ RightOf (.inf q.t) r

/-- The arguments are valid expressions with commas between them. -/
def _root_.PhpLs.Parser.Args.Valid : Args → Prop
  | .nil => True
  | .last e => e.Valid
  | .cons e comma more => e.Valid ∧ (Plain comma ∧ comma.t = .comma) ∧ more.Valid

end

/-- A token that ends every expression: it continues neither a name, a chain of calls and accesses, nor a chain of
operators. -/
structure Ends (k : Token) : Prop where
  plain : Plain k
  noOp : opLevel k.t = none
  noChain : k.t ∉ [TT.openParenthesis, .objectOperator, .nullsafeObjectOperator, .paamayimNekudayim, .openBrackets,
    .openCurly, .namespaceSeparator]

end Ex

end PhpLs.Parser
