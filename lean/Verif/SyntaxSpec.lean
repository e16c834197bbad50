import Verif.SyntaxRun
import Verif.Props.Imports
import Verif.Props.ParserModifiers

/-!
# Specification of programs (C67)

The grammar of the language, as rules that say which tokens are a statement, an expression, a declaration .. and which tree
they have.  `Is doc i ts` reads "the tokens `ts` are an `i`"; the tree is part of `i`.  The rules do not mention the parser.

Not covered: `?>` behind an expression instead of a semicolon, `<?=` anywhere but between two other tags, comments elsewhere than in front of a
declaration, attributes of anything but declarations and parameters, holes and commas at places where the language forbids
them, `yield` without a value inside of another construct than an expression statement, and `{..}` as a subscript.
-/

namespace PhpLs.Syntax

open PhpLs PhpLs.Parser

/-! ## Token classes -/

/-- The types of tokens an expression starts with. -/
def exprStart (t : TT) : Bool :=
  literalSet.contains t || (prefixLevel t).isSome ||
    [.variable, .namespaceSeparator, .identifier, .openParenthesis, .openBrackets, .typeArray, .kwList, .kwIsset, .kwEmpty,
      .kwExit, .kwFunction, .kwFn, .kwStatic, .typeSelf, .kwParent, .kwMatch, .kwClass, .hereDocStart, .kwRequire,
      .requireOnce, .kwInclude, .includeOnce, .kwYield, .yieldFrom].contains t

/-- The types of tokens an operand without operators starts with. -/
def operandStart (t : TT) : Bool := exprStart t && !(prefixLevel t).isSome

/-- A token behind a complete operand: it continues neither a name nor a chain of calls and accesses. -/
def behind (t : TT) : Bool :=
  ![TT.openParenthesis, .objectOperator, .nullsafeObjectOperator, .paamayimNekudayim, .openBrackets, .openCurly,
    .namespaceSeparator, .kwFunction, .kwFn].contains t

/-- A token that ends a key. -/
def keyEnds (t : TT) : Bool := (opLevel t).isNone && behind t

/-- A token that ends every expression. -/
def ends (t : TT) : Bool := keyEnds t && t != .doubleArrow

/-- What an open right edge of an expression takes: an operator takes operators by precedence, a `yield`, an include or an
arrow function takes all of them (and a `yield` an arrow).  A `yield` without a value takes everything but a semicolon. -/
inductive Rim where
  | op (e : Ex.Edge)
  | all
  | bare

/-- Whether the edge takes a following operator. -/
def Rim.Admits : Rim → TT → Prop
  | .op e, t => e.Admits t
  | .all, t => (opLevel t).isSome = true ∨ t = .doubleArrow
  | .bare, t => t ≠ .semicolon

/-! ## Names and types -/

/-- A name. -/
inductive Name : List Token → Node → Prop where
  | mk {ns : Option Token} {id : Token} {path : List (Token × Token)} (h1 : ∀ k ∈ ns, Tok .namespaceSeparator k)
      (h2 : Word id) (h3 : ∀ p ∈ path, Tok .namespaceSeparator p.1 ∧ Word p.2) :
      Name (ns.toList ++ id :: Ex.pathToks path) (.typeRef ⟨ns.toList ++ id :: Ex.pathToks path, false⟩)

/-- Names with a separator in between. -/
inductive Names (t : TT) : List Token → List Node → Prop where
  | one {ts : List Token} {n : Node} (h : Name ts n) : Names t ts [n]
  | more {ts us : List Token} {k : Token} {n : Node} {ns : List Node} (h : Name ts n) (hk : Tok t k)
      (hm : Names t us ns) : Names t (ts ++ k :: us) (n :: ns)

/-- A type: names with `|` in between, or `?` and such. -/
inductive TypeIs : List Token → Node → Prop where
  | plain {ts : List Token} {ns : List Node} (h : Names .binaryOr ts ns) : TypeIs ts (.dataType none ns)
  | nullable {k : Token} {ts : List Token} {ns : List Node} (hk : Tok .questionMark k) (h : Names .binaryOr ts ns) :
      TypeIs (k :: ts) (.dataType (some k) ns)

/-- An optional type. -/
inductive OptType : List Token → Option Node → Prop where
  | none : OptType [] none
  | some {ts : List Token} {n : Node} (h : TypeIs ts n) : OptType ts (some n)

/-- The return type of a function. -/
inductive RetType : List Token → Option Node → Prop where
  | none : RetType [] none
  | some {k : Token} {ts : List Token} {n : Node} (hk : Tok .colon k) (h : TypeIs ts n) :
      RetType (k :: ts) (some (.returnType k n))

/-- The `extends` of a class. -/
inductive Extends : List Token → Option Node → Prop where
  | none : Extends [] none
  | some {k : Token} {ts : List Token} {n : Node} (hk : Tok .kwExtends k) (h : Name ts n) : Extends (k :: ts) (some n)

/-- The `implements` of a class (`t` is that word) and the `extends` of an interface. -/
inductive Heirs (t : TT) : List Token → Option (List Node) → Prop where
  | none : Heirs t [] none
  | some {k : Token} {ts : List Token} {ns : List Node} (hk : Tok t k) (h : Names .comma ts ns) :
      Heirs t (k :: ts) (some ns)

/-- An optional token. -/
inductive OptTok (t : TT) : List Token → Option Token → Prop where
  | none : OptTok t [] none
  | some {k : Token} (hk : Tok t k) : OptTok t [k] (some k)

/-- A variable. -/
def Var (k : Token) : Prop := Tok .variable k ∧ k.label.isSome = true

/-- Variables, each perhaps by reference, with commas in between: what a closure takes from its surroundings. -/
inductive Lexicals : List Token → List Node → Prop where
  | one {as : List Token} {a : Option Token} {v : Token} (ha : OptTok .binaryAnd as a) (hv : Tok .variable v) :
      Lexicals (as ++ [v]) [.lexicalVariable a v]
  | more {as us : List Token} {a : Option Token} {v k : Token} {ns : List Node} (ha : OptTok .binaryAnd as a)
      (hv : Tok .variable v) (hk : Tok .comma k) (hm : Lexicals us ns) :
      Lexicals (as ++ v :: k :: us) (.lexicalVariable a v :: ns)

/-- The `use` of a closure. -/
inductive Captures : List Token → Option (List Node) → Prop where
  | none : Captures [] none
  | some {k lp rp : Token} {ts : List Token} {ns : List Node} (hk : Tok .kwUse k) (hl : Tok .openParenthesis lp)
      (h : Lexicals ts ns) (hr : Tok .closeParenthesis rp) : Captures (k :: lp :: (ts ++ [rp])) (some ns)

/-- The variables of a `global` statement. -/
inductive Globals : List Token → List Node → Prop where
  | one {v : Token} (hv : Var v) : Globals [v] [.variable v]
  | more {v k : Token} {us : List Token} {ns : List Node} (hv : Var v) (hk : Tok .comma k) (hm : Globals us ns) :
      Globals (v :: k :: us) (.variable v :: ns)

/-- The method that a trait adaptation is about, perhaps with its trait. -/
inductive Target : List Token → Option Node → Option Token → Node → Prop where
  | plain {ts : List Token} {n : Node} (h : Name ts n) : Target ts none none n
  | of {ts us : List Token} {c m : Node} {k : Token} (h : Name ts c) (hk : Tok .paamayimNekudayim k) (hm : Name us m) :
      Target (ts ++ k :: us) (some c) (some k) m

/-- The visibilities. -/
def visibilities : List TT := [.kwPrivate, .kwPublic, .kwProtected]

/-- A trait adaptation: `insteadof` and traits, or `as` and a visibility, a name, or both. -/
inductive Adaptation : List Token → Node → Prop where
  | instead {ts us : List Token} {l : Option Node} {p : Option Token} {m : Node} {w : Token} {ns : List Node}
      (h : Target ts l p m) (hw : Tok .insteadof w) (hn : Names .comma us ns) :
      Adaptation (ts ++ w :: us) (.useTraitInsteadOf l p m w ns)
  | visible {ts : List Token} {l : Option Node} {p : Option Token} {m : Node} {w v : Token} {t : TT} (h : Target ts l p m)
      (hw : Tok .kwAs w) (hv : Tok t v) (ht : t ∈ visibilities) : Adaptation (ts ++ [w, v]) (.useTraitAs l p m w (some v) none)
  | rename {ts : List Token} {l : Option Node} {p : Option Token} {m : Node} {w x : Token} (h : Target ts l p m)
      (hw : Tok .kwAs w) (hx : Word x) (hv : visibilities.contains x.t = false) :
      Adaptation (ts ++ [w, x]) (.useTraitAs l p m w none (some x))
  | both {ts : List Token} {l : Option Node} {p : Option Token} {m : Node} {w v x : Token} {t : TT} (h : Target ts l p m)
      (hw : Tok .kwAs w) (hv : Tok t v) (ht : t ∈ visibilities) (hx : Word x) :
      Adaptation (ts ++ [w, v, x]) (.useTraitAs l p m w (some v) (some x))

/-- Trait adaptations, each with a semicolon. -/
inductive Adaptations : List Token → List Node → Prop where
  | none : Adaptations [] []
  | more {ts us : List Token} {e : Token} {n : Node} {ns : List Node} (h : Adaptation ts n) (he : Tok .semicolon e)
      (hm : Adaptations us ns) : Adaptations (ts ++ e :: us) (n :: ns)

/-! ## The grammar -/

/-- What may follow a statement: anything; anything but a comment or a token that would continue it (`else`, `elseif`,
`catch`, `finally`, an opening tag); only a semicolon or a closing tag; only a closing tag.  The third is for the statements
whose semicolon the tree has as a statement of its own, the last for the statements with a closing tag instead of a semicolon. -/
inductive Tail where
  | done
  | loose
  | semi
  | tag
deriving DecidableEq

/-- The statement needs nothing behind it. -/
def Tail.Free (o : Tail) : Prop := o = .done ∨ o = .loose

instance (o : Tail) : Decidable o.Free := inferInstanceAs (Decidable (o = .done ∨ o = .loose))

/-- The tail of an `if` whose last branch has the given tail. -/
def Tail.orOpen : Tail → Tail
  | .semi => .semi
  | .tag => .tag
  | _ => .loose

/-- The tokens that continue an `if`, a `try` or the text outside of the script. -/
def continues : List TT := [.kwElse, .elseIf, .kwCatch, .kwFinally, .scriptStartRegular, .scriptStartShort, .scriptStartEcho]

/-- `us` may follow a statement. -/
def Follows (o : Tail) (us : List Token) : Prop :=
  match o with
  | .done => True
  | .loose => Ahead us fun t => !continues.contains t
  | .semi => Next us fun t => t == .semicolon || t == .scriptEnd
  | .tag => Next us (· == .scriptEnd)

/-- The elements of lists with commas. -/
inductive Cat where
  | expr
  /-- An expression in front of an arrow. -/
  | key
  | arg
  | pair
  | arm
  | param (d : Option Node)
  | constant
  | classConst (visibility : Option Token)
  | prop
  | staticVar

/-- The syntactic categories, with their trees. -/
inductive Item where
  /-- An operand without calls and accesses. -/
  | prim (n : Node)
  /-- An operand with calls and accesses. -/
  | call (n : Node)
  /-- An expression, with the operators on its left edge and what is open at its right edge. -/
  | expr (n : Node) (lefts : List TT) (rights : List Rim)
  /-- An element of a list. -/
  | one (c : Cat) (n : Node)
  /-- A list with commas; with `b` it may be empty or end with a comma. -/
  | list (c : Cat) (b : Bool) (ns : List Node)
  /-- Pairs of `[..]` and `list(..)`: elements may be missing. -/
  | slots (ns : List Node)
  /-- Attributes. -/
  | attrs (ns : List Node)
  /-- The parameters of a function with the doc comment `d`. -/
  | params (d : Option Node) (o : Option (List Node))
  /-- The part of a function behind its name. -/
  | func (d : Option Node) (n : Node)
  /-- `{ .. }`. -/
  | block (n : Node)
  /-- The body of a loop, with the word that ends its alternative form. -/
  | body (t : TT) (o : Tail) (n : Node)
  /-- A statement. -/
  | stmt (o : Tail) (n : Node)
  /-- A statement in a list of statements. -/
  | top (o : Tail) (n : Node)
  /-- A list of statements. -/
  | stmts (o : Tail) (ns : List Node)
  /-- A declaration with its doc comment and its attributes. -/
  | decl (d : Option Node) (as : List Node) (n : Node)
  /-- The `elseif`s of an `if`. -/
  | elifs (o : Tail) (ns : List Node)
  /-- The `elseif`s of an `if` in its alternative form, between two of the tokens that end a branch. -/
  | alts (k : Token) (ns : List Node) (k' : Token)
  /-- The `catch`es of a `try`. -/
  | catches (ns : List Node)
  /-- The labels of a branch of a `switch`. -/
  | labels (cs : List (Option Node))
  /-- The branches of a `switch` that ends with a token of type `t`. -/
  | branches (t : TT) (ns : List Node)
  /-- A class member with its doc comment and its attributes. -/
  | member (d : Option Node) (as : List Node) (n : Node)
  /-- A class member in the body of a class. -/
  | entry (n : Node)
  /-- The members of a class. -/
  | entries (ns : List Node)
  /-- The body of a class. -/
  | classBody (n : Node)
  /-- The arguments of an anonymous class. -/
  | ctorArgs (o : Option (List Node))

/-- The branches of an `if` have the tail of their last one. -/
def lastTail (ns : List Node) (o o' : Tail) : Tail := if ns.isEmpty then o else o'

/-- The tokens `ts` are an `i`; `doc` gives the tree of a doc comment. -/
inductive Is (doc : Token → Option Node) : Item → List Token → Prop where
  -- Operands
  | lit {k : Token} (h : Plain k) (hk : k.t ∈ literalSet) : Is doc (.prim (.literal k)) [k]
  | var {k : Token} (h : Var k) : Is doc (.prim (.variable k)) [k]
  | name {ts : List Token} {n : Node} (h : Name ts n)
      (hs : Next ts fun t => t == .namespaceSeparator || t == .identifier) : Is doc (.prim n) ts
  | group {lp rp : Token} {ts : List Token} {n : Node} (hl : Tok .openParenthesis lp) (h : Is doc (.one .expr n) ts)
      (hr : Tok .closeParenthesis rp) : Is doc (.prim (.grouping n)) (lp :: (ts ++ [rp]))
  | array {ob cb : Token} {ts : List Token} {ns : List Node} (hl : Tok .openBrackets ob) (h : Is doc (.slots ns) ts)
      (hr : Tok .closeBrackets cb) : Is doc (.prim (.array ob ns cb)) (ob :: (ts ++ [cb]))
  | oldArray {k lp rp : Token} {ts : List Token} {ns : List Node} (hk : Tok .typeArray k) (hl : Tok .openParenthesis lp)
      (h : Is doc (.list .pair true ns) ts) (hr : Tok .closeParenthesis rp) :
      Is doc (.prim (.oldArray k lp ns rp)) (k :: lp :: (ts ++ [rp]))
  | list {k lp rp : Token} {ts : List Token} {ns : List Node} (hk : Tok .kwList k) (hl : Tok .openParenthesis lp)
      (h : Is doc (.slots ns) ts) (hr : Tok .closeParenthesis rp) :
      Is doc (.prim (.list k lp ns rp)) (k :: lp :: (ts ++ [rp]))
  | isset {k lp rp : Token} {ts : List Token} {n : Node} {ns : List Node} (hk : Tok .kwIsset k)
      (hl : Tok .openParenthesis lp) (h : Is doc (.list .expr true (n :: ns)) ts) (hr : Tok .closeParenthesis rp) :
      Is doc (.prim (.isset k lp (n :: ns) rp)) (k :: lp :: (ts ++ [rp]))
  | empty {k lp rp : Token} {ts : List Token} {n : Node} {ns : List Node} (hk : Tok .kwEmpty k)
      (hl : Tok .openParenthesis lp) (h : Is doc (.list .expr true (n :: ns)) ts) (hr : Tok .closeParenthesis rp) :
      Is doc (.prim (.emptyExpr k lp (n :: ns) rp)) (k :: lp :: (ts ++ [rp]))
  | exit {k lp rp : Token} {ts : List Token} {ns : List Node} (hk : Tok .kwExit k) (hl : Tok .openParenthesis lp)
      (h : Is doc (.list .expr true ns) ts) (hr : Tok .closeParenthesis rp) :
      Is doc (.prim (.exitExpr k (some lp) (some ns) (some rp))) (k :: lp :: (ts ++ [rp]))
  | closure {ss as ts us rs bs : List Token} {s a : Option Token} {k lp rp : Token} {o c : Option (List Node)}
      {rt : Option Node} {b : Node} (hs : OptTok .kwStatic ss s) (hk : Tok .kwFunction k) (ha : OptTok .binaryAnd as a)
      (hl : Tok .openParenthesis lp) (hp : Is doc (.params none o) ts) (hr : Tok .closeParenthesis rp) (hu : Captures us c)
      (hrt : RetType rs rt) (hb : Is doc (.block b) bs) :
      Is doc (.prim (.closure s a k lp o rp c rt b [])) (ss ++ k :: (as ++ lp :: (ts ++ rp :: (us ++ (rs ++ bs)))))
  | word {k : Token} {t : TT} (h : Tok t k) (ht : t ∈ [TT.kwStatic, .typeSelf, .kwParent]) :
      Is doc (.prim (.literal k)) [k]
  | «match» {k lp rp oc cc : Token} {ts us : List Token} {n : Node} {ns : List Node} (hk : Tok .kwMatch k)
      (hl : Tok .openParenthesis lp) (h : Is doc (.one .expr n) ts) (hr : Tok .closeParenthesis rp)
      (ho : Tok .openCurly oc) (ha : Is doc (.list .arm true ns) us) (hc : Tok .closeCurly cc) :
      Is doc (.prim (.matchExpr k oc lp n rp ns cc)) (k :: lp :: (ts ++ rp :: oc :: (us ++ [cc])))
  | heredoc {s k e : Token} (hs : Tok .hereDocStart s) (hk : Tok .encapsedAndWhitespaceString k) (he : Tok .hereDocEnd e) :
      Is doc (.prim (.literal k)) [s, k, e]
  | anonClass {k : Token} {ts es is bs : List Token} {o i : Option (List Node)} {e : Option Node} {b : Node}
      (hk : Tok .kwClass k) (ha : Is doc (.ctorArgs o) ts) (he : Extends es e) (hi : Heirs .kwImplements is i)
      (hb : Is doc (.classBody b) bs) :
      Is doc (.prim (.anonClass k o e i b [])) (k :: (ts ++ (es ++ (is ++ bs))))
  | noCtorArgs : Is doc (.ctorArgs none) []
  | ctorArgs {lp rp : Token} {ts : List Token} {ns : List Node} (hl : Tok .openParenthesis lp)
      (h : Is doc (.list .expr true ns) ts) (hr : Tok .closeParenthesis rp) :
      Is doc (.ctorArgs (some ns)) (lp :: (ts ++ [rp]))
  -- Calls and accesses
  | prim {ts : List Token} {n : Node} (h : Is doc (.prim n) ts) : Is doc (.call n) ts
  | getMember {ts : List Token} {n : Node} {op m : Token} (h : Is doc (.call n) ts)
      (ho : Tok .objectOperator op ∨ Tok .nullsafeObjectOperator op) (hm : Word m) :
      Is doc (.call (.member n op none (.literal m) none)) (ts ++ [op, m])
  | getVariable {ts : List Token} {n : Node} {op v : Token} (h : Is doc (.call n) ts)
      (ho : Tok .objectOperator op ∨ Tok .nullsafeObjectOperator op) (hv : Var v) :
      Is doc (.call (.member n op none (.variable v) none)) (ts ++ [op, v])
  | getComputed {ts us : List Token} {n m : Node} {op oc cc : Token} (h : Is doc (.call n) ts)
      (ho : Tok .objectOperator op ∨ Tok .nullsafeObjectOperator op) (hl : Tok .openCurly oc)
      (hm : Is doc (.one .expr m) us) (hr : Tok .closeCurly cc) :
      Is doc (.call (.member n op (some oc) m (some cc))) (ts ++ op :: oc :: (us ++ [cc]))
  | getStatic {ts : List Token} {n : Node} {op m : Token} (h : Is doc (.call n) ts) (ho : Tok .paamayimNekudayim op)
      (hm : Word m) : Is doc (.call (.staticMember n op none (.literal m) none)) (ts ++ [op, m])
  | getStaticVariable {ts : List Token} {n : Node} {op v : Token} (h : Is doc (.call n) ts)
      (ho : Tok .paamayimNekudayim op) (hv : Var v) :
      Is doc (.call (.staticMember n op none (.variable v) none)) (ts ++ [op, v])
  | index {ts us : List Token} {n i : Node} {ob cb : Token} (h : Is doc (.call n) ts) (hl : Tok .openBrackets ob)
      (hi : Is doc (.one .expr i) us) (hr : Tok .closeBrackets cb) :
      Is doc (.call (.field n ob (some i) cb)) (ts ++ ob :: (us ++ [cb]))
  | push {ts : List Token} {n : Node} {ob cb : Token} (h : Is doc (.call n) ts) (hl : Tok .openBrackets ob)
      (hr : Tok .closeBrackets cb) : Is doc (.call (.field n ob none cb)) (ts ++ [ob, cb])
  | apply {ts us : List Token} {n : Node} {ns : List Node} {lp rp : Token} (h : Is doc (.call n) ts)
      (hl : Tok .openParenthesis lp) (ha : Is doc (.list .arg true ns) us) (hr : Tok .closeParenthesis rp) :
      Is doc (.call (.call n lp ns rp)) (ts ++ lp :: (us ++ [rp]))
  -- Expressions
  | call {ts : List Token} {n : Node} (h : Is doc (.call n) ts) : Is doc (.expr n [] []) ts
  | un {k : Token} {ts : List Token} {n : Node} {ls : List TT} {rs : List Rim} (hk : Plain k)
      (hp : (prefixLevel k.t).isSome = true) (h : Is doc (.expr n ls rs) ts) (hls : ∀ t ∈ ls, (Ex.Edge.pre k.t).Admits t) :
      Is doc (.expr (.unary n k) [] (.op (.pre k.t) :: rs)) (k :: ts)
  | post {k : Token} {ts : List Token} {n : Node} {ls : List TT} {rs : List Rim} (h : Is doc (.expr n ls rs) ts)
      (hk : Plain k) (hp : (postfixLevel k.t).isSome = true) (hrs : ∀ o ∈ rs, ¬ o.Admits k.t) :
      Is doc (.expr (.postUnary n k) (k.t :: ls) []) (ts ++ [k])
  | bin {k : Token} {ts us : List Token} {l r : Node} {ls ls' : List TT} {rs rs' : List Rim}
      (hl : Is doc (.expr l ls rs) ts) (hk : Plain k) (hi : (infixLevel k.t).isSome = true) (hq : k.t ≠ .questionMark)
      (hr : Is doc (.expr r ls' rs') us) (hrs : ∀ o ∈ rs, ¬ o.Admits k.t) (hls : ∀ t ∈ ls', (Ex.Edge.inf k.t).Admits t) :
      Is doc (.expr (.binary l k r) (k.t :: ls) (.op (.inf k.t) :: rs')) (ts ++ k :: us)
  | tern {q c : Token} {ts ms us : List Token} {l m r : Node} {ls ls' : List TT} {rs rs' : List Rim}
      (hl : Is doc (.expr l ls rs) ts) (hq : Tok .questionMark q) (hm : Is doc (.one .expr m) ms) (hc : Tok .colon c)
      (hr : Is doc (.expr r ls' rs') us) (hrs : ∀ o ∈ rs, ¬ o.Admits q.t) (hls : ∀ t ∈ ls', (Ex.Edge.inf q.t).Admits t) :
      Is doc (.expr (.ternary l q (some m) c r) (q.t :: ls) (.op (.inf q.t) :: rs')) (ts ++ q :: (ms ++ c :: us))
  | short {q c : Token} {ts us : List Token} {l r : Node} {ls ls' : List TT} {rs rs' : List Rim}
      (hl : Is doc (.expr l ls rs) ts) (hq : Tok .questionMark q) (hc : Tok .colon c)
      (hr : Is doc (.expr r ls' rs') us) (hrs : ∀ o ∈ rs, ¬ o.Admits q.t) (hls : ∀ t ∈ ls', (Ex.Edge.inf q.t).Admits t) :
      Is doc (.expr (.ternary l q none c r) (q.t :: ls) (.op (.inf q.t) :: rs')) (ts ++ q :: c :: us)
  | includes {k : Token} {t : TT} {ts : List Token} {n : Node} (hk : Tok t k)
      (ht : t ∈ [TT.kwRequire, .requireOnce, .kwInclude, .includeOnce]) (h : Is doc (.one .expr n) ts) :
      Is doc (.expr (.fileInclude k n) [] [.all]) (k :: ts)
  | yields {k : Token} {ts : List Token} {n : Node} (hk : Tok .kwYield k) (h : Is doc (.one .pair n) ts) :
      Is doc (.expr (.yieldExpr k (some n)) [] [.all]) (k :: ts)
  | yieldsNothing {k : Token} (hk : Tok .kwYield k) : Is doc (.expr (.yieldExpr k none) [] [.bare]) [k]
  | yieldsFrom {k : Token} {ts : List Token} {n : Node} (hk : Tok .yieldFrom k) (h : Is doc (.one .expr n) ts) :
      Is doc (.expr (.yieldFrom k n) [] [.all]) (k :: ts)
  | arrow {ss as ts rs es : List Token} {s a : Option Token} {k lp rp w : Token} {o : Option (List Node)}
      {rt : Option Node} {n : Node} (hs : OptTok .kwStatic ss s) (hk : Tok .kwFn k) (ha : OptTok .binaryAnd as a)
      (hl : Tok .openParenthesis lp) (hp : Is doc (.params none o) ts) (hr : Tok .closeParenthesis rp)
      (hrt : RetType rs rt) (hw : Tok .doubleArrow w) (h : Is doc (.one .expr n) es) :
      Is doc (.expr (.arrowFunction s a k lp o rp w rt n []) [] [.all])
        (ss ++ k :: (as ++ lp :: (ts ++ rp :: (rs ++ w :: es))))
  | exits {k : Token} (hk : Tok .kwExit k) : Is doc (.expr (.exitExpr k none none none) [] []) [k]
  -- Elements of lists
  | expr {ts : List Token} {n : Node} {ls : List TT} {rs : List Rim} (h : Is doc (.expr n ls rs) ts)
      (hb : Rim.bare ∉ rs := by simp) : Is doc (.one .expr n) ts
  | key {ts : List Token} {n : Node} {ls : List TT} {rs : List Ex.Edge} (h : Is doc (.expr n ls (rs.map .op)) ts) :
      Is doc (.one .key n) ts
  | arg {ts : List Token} {n : Node} (h : Is doc (.one .expr n) ts) : Is doc (.one .arg n) ts
  | namedArg {w c : Token} {ts : List Token} {n : Node} (hw : Word w) (hc : Tok .colon c) (h : Is doc (.one .expr n) ts) :
      Is doc (.one .arg (.namedParameter w c n)) (w :: c :: ts)
  | value {ts : List Token} {n : Node} (h : Is doc (.one .expr n) ts) : Is doc (.one .pair (.arrayElement none none n)) ts
  | keyed {ts us : List Token} {k v : Node} {w : Token} (h : Is doc (.one .key k) ts) (hw : Tok .doubleArrow w)
      (hv : Is doc (.one .expr v) us) (hs : Next us (· != .binaryAnd)) :
      Is doc (.one .pair (.arrayElement (some k) (some w) v)) (ts ++ w :: us)
  | keyedRef {ts : List Token} {k : Node} {w a v : Token} (h : Is doc (.one .key k) ts) (hw : Tok .doubleArrow w)
      (ha : Tok .binaryAnd a) (hv : Tok .variable v) :
      Is doc (.one .pair (.arrayElement (some k) (some w) (.lexicalVariable (some a) v))) (ts ++ [w, a, v])
  | arm {ts us : List Token} {ps : List Node} {w : Token} {n : Node} (h : Is doc (.list .key false ps) ts)
      (hw : Tok .doubleArrow w) (hn : Is doc (.one .expr n) us) :
      Is doc (.one .arm (.matchArm (some ps) w n)) (ts ++ w :: us)
  | defaultArm {us : List Token} {k w : Token} {n : Node} (hk : Tok .kwDefault k)
      (hw : Tok .doubleArrow w) (hn : Is doc (.one .expr n) us) :
      Is doc (.one .arm (.matchArm none w n)) (k :: w :: us)
  | param {as ts rs es : List Token} {ats : List Node} {d : Option Node} {ty : Option Node} {a e : Option Token} {v : Token}
      (hat : Is doc (.attrs ats) as) (ht : OptType ts ty) (ha : OptTok .binaryAnd rs a) (he : OptTok .elipsis es e)
      (hv : Tok .variable v) :
      Is doc (.one (.param d) (.functionArgument ty v none none e a (DocBlock.paramCommentFor d v) ats))
        (as ++ (ts ++ (rs ++ (es ++ [v]))))
  | paramInit {as ts rs es us : List Token} {ats : List Node} {d : Option Node} {ty : Option Node} {a e : Option Token}
      {v w : Token} {n : Node} (hat : Is doc (.attrs ats) as) (ht : OptType ts ty) (ha : OptTok .binaryAnd rs a)
      (he : OptTok .elipsis es e) (hv : Tok .variable v) (hw : Tok .assignment w) (h : Is doc (.one .expr n) us) :
      Is doc (.one (.param d) (.functionArgument ty v (some w) (some n) e a (DocBlock.paramCommentFor d v) ats))
        (as ++ (ts ++ (rs ++ (es ++ v :: w :: us))))
  | constant {k w : Token} {ts : List Token} {n : Node} (hk : Word k) (hw : Tok .assignment w) (h : Is doc (.one .expr n) ts) :
      Is doc (.one .constant (.const k w n)) (k :: w :: ts)
  | classConst {vis : Option Token} {k w : Token} {ts : List Token} {n : Node} (hk : Word k) (hw : Tok .assignment w)
      (h : Is doc (.one .expr n) ts) : Is doc (.one (.classConst vis) (.classConstant vis k n)) (k :: w :: ts)
  | prop {v : Token} (hv : Tok .variable v) : Is doc (.one .prop (.property v none)) [v]
  | propInit {v w : Token} {ts : List Token} {n : Node} (hv : Tok .variable v) (hw : Tok .assignment w)
      (h : Is doc (.one .expr n) ts) : Is doc (.one .prop (.property v (some n))) (v :: w :: ts)
  | staticVar {v w : Token} {ts : List Token} {n : Node} (hv : Tok .variable v) (hw : Tok .assignment w)
      (h : Is doc (.one .expr n) ts) :
      Is doc (.one .staticVar (.staticVariable v (some w) (some n))) (v :: w :: ts)
  -- Lists
  | nil {c : Cat} : Is doc (.list c true []) []
  | last {c : Cat} {b : Bool} {ts : List Token} {n : Node} (h : Is doc (.one c n) ts) : Is doc (.list c b [n]) ts
  | cons {c : Cat} {b : Bool} {ts us : List Token} {k : Token} {n : Node} {ns : List Node} (h : Is doc (.one c n) ts)
      (hk : Tok .comma k) (hm : Is doc (.list c b ns) us) : Is doc (.list c b (n :: ns)) (ts ++ k :: us)
  | slots {ts : List Token} {ns : List Node} (h : Is doc (.list .pair true ns) ts) : Is doc (.slots ns) ts
  | hole {k : Token} {us : List Token} {ns : List Node} (hk : Tok .comma k) (h : Is doc (.slots ns) us) :
      Is doc (.slots ns) (k :: us)
  | slot {k : Token} {ts us : List Token} {n : Node} {ns : List Node} (h : Is doc (.one .pair n) ts) (hk : Tok .comma k)
      (hm : Is doc (.slots ns) us) : Is doc (.slots (n :: ns)) (ts ++ k :: us)
  | noAttrs : Is doc (.attrs []) []
  | attrs {s e : Token} {ts us : List Token} {ns as : List Node} (hs : Tok .attributeStart s)
      (h : Is doc (.list .expr false ns) ts) (he : Tok .closeBrackets e) (hm : Is doc (.attrs as) us) :
      Is doc (.attrs (.attr s ns e :: as)) (s :: (ts ++ e :: us))
  -- Functions
  | noParams {d : Option Node} : Is doc (.params d none) []
  | params {d : Option Node} {ts : List Token} {ns : List Node} (h : Is doc (.list (.param d) false ns) ts) :
      Is doc (.params d (some ns)) ts
  | func {d : Option Node} {lp rp : Token} {ts rs bs : List Token} {o : Option (List Node)} {rt : Option Node} {b : Node}
      (hl : Tok .openParenthesis lp) (h : Is doc (.params d o) ts) (hr : Tok .closeParenthesis rp) (hrt : RetType rs rt)
      (hb : Is doc (.block b) bs) :
      Is doc (.func d (.functionDefinitionStatement lp o rp rt (some b) d)) (lp :: (ts ++ rp :: (rs ++ bs)))
  | signature {d : Option Node} {lp rp e : Token} {ts rs : List Token} {o : Option (List Node)} {rt : Option Node}
      (hl : Tok .openParenthesis lp) (h : Is doc (.params d o) ts) (hr : Tok .closeParenthesis rp) (hrt : RetType rs rt)
      (he : Tok .semicolon e) :
      Is doc (.func d (.functionDefinitionStatement lp o rp rt none d)) (lp :: (ts ++ rp :: (rs ++ [e])))
  -- Statements
  | block {oc cc : Token} {ts : List Token} {o : Tail} {ns : List Node} (ho : Tok .openCurly oc)
      (h : Is doc (.stmts o ns) ts) (hs : o.Free) (hc : Tok .closeCurly cc) :
      Is doc (.block (.block oc ns cc)) (oc :: (ts ++ [cc]))
  | body {t : TT} {o : Tail} {ts : List Token} {n : Node} (h : Is doc (.stmt o n) ts) : Is doc (.body t o n) ts
  | altBody {t : TT} {o : Tail} {c k e : Token} {ts : List Token} {ns : List Node} (hc : Tok .colon c)
      (h : Is doc (.stmts o ns) ts) (hs : o.Free) (ht : t ∈ [TT.endWhile, .endFor, .endForeach]) (hk : Tok t k)
      (he : Tok .semicolon e) : Is doc (.body t .done (.alternativeBlock c ns k)) (c :: (ts ++ [k, e]))
  | noStmts : Is doc (.stmts .done []) []
  | stmts {o o' : Tail} {ts us : List Token} {n : Node} {ns : List Node} (h : Is doc (.top o n) ts)
      (hm : Is doc (.stmts o' ns) us) (hf : us = [] ∨ Follows o us) :
      Is doc (.stmts (lastTail ns o o') (n :: ns)) (ts ++ us)
  | top {o : Tail} {ts : List Token} {n : Node} (h : Is doc (.stmt o n) ts) : Is doc (.top o n) ts
  | documented {c : Token} {ts : List Token} {x n : Node} (hc : Comment c) (hx : doc c = some x)
      (h : Is doc (.decl (some x) [] n) ts) : Is doc (.top .done n) (c :: ts)
  | declared {as ts : List Token} {ats : List Node} {n : Node} (ha : Is doc (.attrs ats) as)
      (h : Is doc (.decl none ats n) ts) : Is doc (.stmt .done n) (as ++ ts)
  | blockStmt {ts : List Token} {n : Node} (h : Is doc (.block n) ts) : Is doc (.stmt .done n) ts
  | exprStmt {ts : List Token} {n : Node} {e : Token} (h : Is doc (.one .expr n) ts)
      (hs : Next ts fun t => t != .kwFunction && t != .kwClass) (he : Tok .semicolon e) :
      Is doc (.stmt .done (.expressionStatement n)) (ts ++ [e])
  | exprSemi {ts : List Token} {n : Node} {ls : List TT} {rs : List Rim} {e : Token} (h : Is doc (.expr n ls rs) ts)
      (hs : Next ts fun t => t != .kwFunction && t != .kwClass) (he : Tok .semicolon e) :
      Is doc (.stmt .done (.expressionStatement n)) (ts ++ [e])
  | inline {s g : Token} {t : TT} (hs : Tok .scriptEnd s) (hg : Tok t g) (ht : t ∈ [TT.scriptStartRegular, .scriptStartShort]) :
      Is doc (.stmt .done (.inlineHtml s (some g))) [s, g]
  | inlineEcho {s k s' g : Token} {t : TT} {ts es : List Token} {ns : List Node} {e : Option Token} (hs : Tok .scriptEnd s)
      (hk : Tok .scriptStartEcho k) (h : Is doc (.list .expr false ns) ts) (he : OptTok .semicolon es e)
      (hs' : Tok .scriptEnd s') (hg : Tok t g) (ht : t ∈ [TT.scriptStartRegular, .scriptStartShort]) :
      Is doc (.stmt .done (.echoStatement k ns)) (s :: k :: (ts ++ (es ++ [s', g])))
  | label {k c : Token} (hk : Tok .identifier k) (hc : Tok .colon c) : Is doc (.stmt .done (.labelStatement k c)) [k, c]
  | noop {e : Token} (he : Tok .semicolon e) : Is doc (.stmt .done (.tokenStatement e none)) [e]
  | echo {k e : Token} {ts : List Token} {ns : List Node} (hk : Tok .kwEcho k) (h : Is doc (.list .expr false ns) ts)
      (he : Tok .semicolon e) : Is doc (.stmt .done (.echoStatement k ns)) (k :: (ts ++ [e]))
  | print {k e : Token} {ts : List Token} {n : Node} (hk : Tok .kwPrint k) (h : Is doc (.one .expr n) ts)
      (he : Tok .semicolon e) : Is doc (.stmt .done (.printStatement k [n])) (k :: (ts ++ [e]))
  | echoTag {k : Token} {ts : List Token} {ns : List Node} (hk : Tok .kwEcho k) (h : Is doc (.list .expr false ns) ts) :
      Is doc (.stmt .tag (.echoStatement k ns)) (k :: ts)
  | printTag {k : Token} {ts : List Token} {n : Node} (hk : Tok .kwPrint k) (h : Is doc (.one .expr n) ts) :
      Is doc (.stmt .tag (.printStatement k [n])) (k :: ts)
  | ret0 {k e : Token} (hk : Tok .kwReturn k) (he : Tok .semicolon e) :
      Is doc (.stmt .done (.returnStatement k none)) [k, e]
  | ret {k e : Token} {ts : List Token} {n : Node} (hk : Tok .kwReturn k) (h : Is doc (.one .expr n) ts)
      (he : Tok .semicolon e) : Is doc (.stmt .done (.returnStatement k (some n))) (k :: (ts ++ [e]))
  | throw {k e : Token} {ts : List Token} {n : Node} (hk : Tok .kwThrow k) (h : Is doc (.one .expr n) ts)
      (he : Tok .semicolon e) : Is doc (.stmt .done (.throwStatement k n)) (k :: (ts ++ [e]))
  | jump0 {k e : Token} {t : TT} (hk : Tok t k) (ht : t ∈ [TT.kwBreak, .kwContinue]) (he : Tok .semicolon e) :
      Is doc (.stmt .done (.tokenStatement k none)) [k, e]
  | jump {k e : Token} {t : TT} {ts : List Token} {n : Node} (hk : Tok t k) (ht : t ∈ [TT.kwBreak, .kwContinue])
      (h : Is doc (.one .expr n) ts) (he : Tok .semicolon e) :
      Is doc (.stmt .done (.tokenStatement k (some n))) (k :: (ts ++ [e]))
  | goto {k l e : Token} (hk : Tok .kwGoto k) (hl : Word l) (he : Tok .semicolon e) :
      Is doc (.stmt .done (.gotoStatement k l)) [k, l, e]
  | global {k e : Token} {ts : List Token} {ns : List Node} (hk : Tok .kwGlobal k) (h : Globals ts ns)
      (he : Tok .semicolon e) : Is doc (.stmt .done (.globalVariablesStatement k ns)) (k :: (ts ++ [e]))
  | statics {k : Token} {ts : List Token} {ns : List Node} (hk : Tok .kwStatic k) (h : Is doc (.list .staticVar false ns) ts) :
      Is doc (.stmt .semi (.staticVariablesStatement k ns)) (k :: ts)
  | unset {k lp rp : Token} {ts : List Token} {n : Node} {ns : List Node} (hk : Tok .kwUnset k) (hl : Tok .openParenthesis lp)
      (h : Is doc (.list .expr true (n :: ns)) ts) (hr : Tok .closeParenthesis rp) :
      Is doc (.stmt .semi (.unsetStatement k lp (n :: ns) rp)) (k :: lp :: (ts ++ [rp]))
  | die0 {k lp rp : Token} (hk : Tok .kwDie k) (hl : Tok .openParenthesis lp) (hr : Tok .closeParenthesis rp) :
      Is doc (.stmt .semi (.dieStatement k lp none rp)) [k, lp, rp]
  | die {k lp rp : Token} {ts : List Token} {n : Node} (hk : Tok .kwDie k) (hl : Tok .openParenthesis lp)
      (h : Is doc (.one .expr n) ts) (hr : Tok .closeParenthesis rp) :
      Is doc (.stmt .semi (.dieStatement k lp (some n) rp)) (k :: lp :: (ts ++ [rp]))
  | define {k lp c rp : Token} {ts us : List Token} {n v : Node} (hk : Tok .kwDefine k) (hl : Tok .openParenthesis lp)
      (h : Is doc (.one .expr n) ts) (hc : Tok .comma c) (hv : Is doc (.one .expr v) us) (hr : Tok .closeParenthesis rp) :
      Is doc (.stmt .semi (.defineStatement n v lp rp k none)) (k :: lp :: (ts ++ c :: (us ++ [rp])))
  | declare {k lp i w v rp : Token} {t : TT} (hk : Tok .kwDeclare k) (hl : Tok .openParenthesis lp) (hi : Tok .identifier i)
      (hw : Tok .assignment w) (hv : Tok t v) (ht : t ∈ [TT.kwFalse, .kwTrue, .kwNull, .longNumber, .decimalNumber,
        .exponentialNumber, .hexNumber, .binaryNumber, .constantEncapsedString, .encapsedAndWhitespaceString])
      (hr : Tok .closeParenthesis rp) :
      Is doc (.stmt .semi (.declareStatement i v w lp rp k)) [k, lp, i, w, v, rp]
  | consts {k e : Token} {ts : List Token} {ns : List Node} (hk : Tok .kwConst k) (h : Is doc (.list .constant false ns) ts)
      (he : Tok .semicolon e) : Is doc (.stmt .done (.constStatement k ns)) (k :: (ts ++ [e]))
  | «if» {k lp rp : Token} {ts us vs : List Token} {c b : Node} {bs : List Node} {o o' : Tail} (hk : Tok .kwIf k)
      (hl : Tok .openParenthesis lp) (hc : Is doc (.one .expr c) ts) (hr : Tok .closeParenthesis rp)
      (hb : Is doc (.stmt o b) us) (hm : Is doc (.elifs o' bs) vs) (ho : bs = [] ∨ o = .done) :
      Is doc (.stmt (lastTail bs o o').orOpen (.ifStatement (.ifBranch k lp c rp b) bs none))
        (k :: lp :: (ts ++ rp :: (us ++ vs)))
  | ifElse {k lp rp e : Token} {ts us vs ws : List Token} {c b b' : Node} {bs : List Node} {o : Tail} (hk : Tok .kwIf k)
      (hl : Tok .openParenthesis lp) (hc : Is doc (.one .expr c) ts) (hr : Tok .closeParenthesis rp)
      (hb : Is doc (.stmt .done b) us) (hm : Is doc (.elifs .done bs) vs) (he : Tok .kwElse e)
      (he' : Is doc (.stmt o b') ws) :
      Is doc (.stmt o (.ifStatement (.ifBranch k lp c rp b) bs (some (.elseBranch e b'))))
        (k :: lp :: (ts ++ rp :: (us ++ (vs ++ e :: ws))))
  | noElif : Is doc (.elifs .done []) []
  | elif {k lp rp : Token} {ts us vs : List Token} {c b : Node} {bs : List Node} {o o' : Tail} (hk : Tok .elseIf k)
      (hl : Tok .openParenthesis lp) (hc : Is doc (.one .expr c) ts) (hr : Tok .closeParenthesis rp)
      (hb : Is doc (.stmt o b) us) (hm : Is doc (.elifs o' bs) vs) (ho : bs = [] ∨ o = .done) :
      Is doc (.elifs (lastTail bs o o') (.ifBranch k lp c rp b :: bs)) (k :: lp :: (ts ++ rp :: (us ++ vs)))
  | altIf {k lp rp c k1 k2 : Token} {ts us vs : List Token} {e : Node} {ns bs : List Node} {o : Tail} (hk : Tok .kwIf k)
      (hl : Tok .openParenthesis lp) (he : Is doc (.one .expr e) ts) (hr : Tok .closeParenthesis rp) (hc : Tok .colon c)
      (h : Is doc (.stmts o ns) us) (h1 : (Tok .endIf k1 ∧ o.Free) ∨ (Tok .elseIf k1 ∧ o = .done))
      (hm : Is doc (.alts k1 bs k2) vs) (h2 : k2.t = .endIf) :
      Is doc (.stmt .semi (.ifStatement (.ifBranch k lp e rp (.alternativeBlock c ns k1)) bs none))
        (k :: lp :: (ts ++ rp :: c :: (us ++ k1 :: vs)))
  | altIfElse {k lp rp c k1 k2 c' k3 sc : Token} {ts us vs ws : List Token} {e : Node} {ns bs ms : List Node} {o : Tail}
      (hk : Tok .kwIf k) (hl : Tok .openParenthesis lp) (he : Is doc (.one .expr e) ts) (hr : Tok .closeParenthesis rp)
      (hc : Tok .colon c) (h : Is doc (.stmts .done ns) us) (h1 : Tok .kwElse k1 ∨ Tok .elseIf k1)
      (hm : Is doc (.alts k1 bs k2) vs) (h2 : k2.t = .kwElse) (hc' : Tok .colon c') (h' : Is doc (.stmts o ms) ws)
      (ho : o.Free) (h3 : Tok .endIf k3) (hs : Tok .semicolon sc) :
      Is doc (.stmt .done (.ifStatement (.ifBranch k lp e rp (.alternativeBlock c ns k1)) bs
          (some (.elseBranch k2 (.alternativeBlock c' ms k3)))))
        (k :: lp :: (ts ++ rp :: c :: (us ++ k1 :: (vs ++ c' :: (ws ++ [k3, sc])))))
  | noAlt {k : Token} (hk : k.t ≠ .elseIf) : Is doc (.alts k [] k) []
  | alt {k lp rp c k1 k2 : Token} {ts us vs : List Token} {e : Node} {ns bs : List Node} {o : Tail} (hk : k.t = .elseIf)
      (hl : Tok .openParenthesis lp) (he : Is doc (.one .expr e) ts) (hr : Tok .closeParenthesis rp) (hc : Tok .colon c)
      (h : Is doc (.stmts o ns) us)
      (h1 : (Tok .endIf k1 ∧ o.Free) ∨ ((Tok .elseIf k1 ∨ Tok .kwElse k1) ∧ o = .done))
      (hm : Is doc (.alts k1 bs k2) vs) :
      Is doc (.alts k (.ifBranch k lp e rp (.alternativeBlock c ns k1) :: bs) k2)
        (lp :: (ts ++ rp :: c :: (us ++ k1 :: vs)))
  | «while» {k lp rp : Token} {ts us : List Token} {c b : Node} {o : Tail} (hk : Tok .kwWhile k)
      (hl : Tok .openParenthesis lp) (hc : Is doc (.one .expr c) ts) (hr : Tok .closeParenthesis rp)
      (hb : Is doc (.body .endWhile o b) us) :
      Is doc (.stmt o (.whileStatement k lp c rp b)) (k :: lp :: (ts ++ rp :: us))
  | doWhile {k w lp rp e : Token} {ts us : List Token} {c b : Node} {o : Tail} (hk : Tok .kwDo k)
      (hb : Is doc (.stmt o b) us) (ho : o.Free) (hw : Tok .kwWhile w) (hl : Tok .openParenthesis lp)
      (hc : Is doc (.one .expr c) ts) (hr : Tok .closeParenthesis rp) (he : Tok .semicolon e) :
      Is doc (.stmt .done (.doWhileStatement k lp rp w c b)) (k :: (us ++ w :: lp :: (ts ++ [rp, e])))
  | «for» {k lp e e' rp : Token} {xs ys zs us : List Token} {is cs ss : List Node} {b : Node} {o : Tail} (hk : Tok .kwFor k)
      (hl : Tok .openParenthesis lp) (hi : Is doc (.list .expr true is) xs) (he : Tok .semicolon e)
      (hc : Is doc (.list .expr true cs) ys) (he' : Tok .semicolon e') (hs : Is doc (.list .expr true ss) zs)
      (hr : Tok .closeParenthesis rp) (hb : Is doc (.body .endFor o b) us) :
      Is doc (.stmt o (.forStatement k is cs ss b)) (k :: lp :: (xs ++ e :: (ys ++ e' :: (zs ++ rp :: us))))
  | foreach {k lp w rp : Token} {ts ps us : List Token} {c p b : Node} {o : Tail} (hk : Tok .kwForeach k)
      (hl : Tok .openParenthesis lp) (hc : Is doc (.one .expr c) ts) (hw : Tok .kwAs w) (hp : Is doc (.one .pair p) ps)
      (hr : Tok .closeParenthesis rp) (hb : Is doc (.body .endForeach o b) us) :
      Is doc (.stmt o (.forEachStatement k lp c w p rp b)) (k :: lp :: (ts ++ w :: (ps ++ rp :: us)))
  | switch {k lp rp oc cc : Token} {ts us : List Token} {e : Node} {bs : List Node} (hk : Tok .kwSwitch k)
      (hl : Tok .openParenthesis lp) (he : Is doc (.one .expr e) ts) (hr : Tok .closeParenthesis rp)
      (ho : Tok .openCurly oc) (hb : Is doc (.branches .closeCurly bs) us) (hc : Tok .closeCurly cc) :
      Is doc (.stmt .done (.switchCase k lp e rp (.switchBody oc bs cc))) (k :: lp :: (ts ++ rp :: oc :: (us ++ [cc])))
  | altSwitch {k lp rp c w : Token} {ts us : List Token} {e : Node} {bs : List Node} (hk : Tok .kwSwitch k)
      (hl : Tok .openParenthesis lp) (he : Is doc (.one .expr e) ts) (hr : Tok .closeParenthesis rp)
      (hc : Tok .colon c) (hb : Is doc (.branches .endSwitch bs) us) (hw : Tok .endSwitch w) :
      Is doc (.stmt .semi (.switchCase k lp e rp (.switchBody c bs w))) (k :: lp :: (ts ++ rp :: c :: (us ++ [w])))
  | noBranch {t : TT} : Is doc (.branches t []) []
  | branch {t : TT} {ts us vs : List Token} {cs : List (Option Node)} {ns bs : List Node} {o : Tail}
      (hc : Is doc (.labels cs) ts) (h : Is doc (.stmts o ns) us) (ho : o.Free) (hb : Is doc (.branches t bs) vs)
      (he : ns = [] → bs = []) (hd : us = [] ∨ Next us fun _ => true) : Is doc (.branches t (.switchBranch cs ns :: bs)) (ts ++ (us ++ vs))
  | label1 {k c : Token} {ts : List Token} {n : Node} (hk : Tok .kwCase k) (h : Is doc (.one .expr n) ts)
      (hc : Tok .colon c ∨ Tok .semicolon c) : Is doc (.labels [some n]) (k :: (ts ++ [c]))
  | default1 {k c : Token} (hk : Tok .kwDefault k) (hc : Tok .colon c ∨ Tok .semicolon c) : Is doc (.labels [none]) [k, c]
  | labels {k c : Token} {ts us : List Token} {n : Node} {cs : List (Option Node)} (hk : Tok .kwCase k)
      (h : Is doc (.one .expr n) ts) (hc : Tok .colon c ∨ Tok .semicolon c) (hm : Is doc (.labels cs) us) :
      Is doc (.labels (some n :: cs)) (k :: (ts ++ c :: us))
  | defaults {k c : Token} {us : List Token} {cs : List (Option Node)} (hk : Tok .kwDefault k)
      (hc : Tok .colon c ∨ Tok .semicolon c) (hm : Is doc (.labels cs) us) : Is doc (.labels (none :: cs)) (k :: c :: us)
  | «try» {k : Token} {ts us : List Token} {b : Node} {cs : List Node} (hk : Tok .kwTry k) (hb : Is doc (.block b) ts)
      (hc : Is doc (.catches cs) us) : Is doc (.stmt .loose (.tryCatch k b cs none)) (k :: (ts ++ us))
  | tryFinally {k f : Token} {ts us vs : List Token} {b b' : Node} {cs : List Node} (hk : Tok .kwTry k)
      (hb : Is doc (.block b) ts) (hc : Is doc (.catches cs) us) (hf : Tok .kwFinally f) (hb' : Is doc (.block b') vs) :
      Is doc (.stmt .done (.tryCatch k b cs (some (.finallyBlock f b')))) (k :: (ts ++ (us ++ f :: vs)))
  | noCatch : Is doc (.catches []) []
  | «catch» {k lp v rp : Token} {ts us vs : List Token} {tys cs : List Node} {b : Node} (hk : Tok .kwCatch k)
      (hl : Tok .openParenthesis lp) (ht : Names .binaryOr ts tys) (hv : Tok .variable v) (hr : Tok .closeParenthesis rp)
      (hb : Is doc (.block b) us) (hm : Is doc (.catches cs) vs) :
      Is doc (.catches (.catchBlock k lp tys v rp b :: cs)) (k :: lp :: (ts ++ v :: rp :: (us ++ vs)))
  | «namespace» {k e : Token} {ts : List Token} {n : Node} (hk : Tok .kwNamespace k) (h : Name ts n) (he : Tok .semicolon e) :
      Is doc (.stmt .done (.namespaceStatement k n)) (k :: (ts ++ [e]))
  | namespaceBlock {k : Token} {ts us : List Token} {n b : Node} (hk : Tok .kwNamespace k) (h : Name ts n)
      (hb : Is doc (.block b) us) : Is doc (.stmt .done (.namespaceBlock k (some n) b)) (k :: (ts ++ us))
  | use {u : UseStmt} {kind : UseKind} (h : u.Ok kind) : Is doc (.stmt .done (u.node kind)) u.toks
  -- Declarations
  | function {k w : Token} {as ts : List Token} {a : Option Token} {d : Option Node} {ats : List Node} {f : Node}
      (hk : Tok .kwFunction k) (ha : OptTok .binaryAnd as a) (hw : Word w) (h : Is doc (.func d f) ts) :
      Is doc (.decl d ats (.namedFunctionDefinitionStatement k a w f ats)) (k :: (as ++ w :: ts))
  | «class» {ms es is bs : List Token} {ab fi : Option Token} {k w : Token} {d e : Option Node} {ats : List Node} {b : Node}
      {i : Option (List Node)}
      (hm : (OptTok .kwAbstract ms ab ∧ fi = none) ∨ (OptTok .kwFinal ms fi ∧ ab = none)) (hk : Tok .kwClass k)
      (hw : Word w) (he : Extends es e) (hi : Heirs .kwImplements is i) (hb : Is doc (.classBody b) bs) :
      Is doc (.decl d ats (.classStatement k w ab fi i e b d ats)) (ms ++ k :: w :: (es ++ (is ++ bs)))
  | interface {k w : Token} {es bs : List Token} {d : Option Node} {ats : List Node} {e : Option (List Node)} {b : Node}
      (hk : Tok .kwInterface k) (hw : Tok .identifier w) (he : Heirs .kwExtends es e) (hb : Is doc (.classBody b) bs) :
      Is doc (.decl d ats (.interface k w e b d)) (k :: w :: (es ++ bs))
  | trait {k w : Token} {bs : List Token} {d : Option Node} {ats : List Node} {b : Node} (hk : Tok .kwTrait k)
      (hw : Tok .identifier w) (hb : Is doc (.classBody b) bs) :
      Is doc (.decl d ats (.traitStatement k w b d)) (k :: w :: bs)
  | classBody {oc cc : Token} {ts : List Token} {ns : List Node} (ho : Tok .openCurly oc) (h : Is doc (.entries ns) ts)
      (hc : Tok .closeCurly cc) : Is doc (.classBody (.block oc ns cc)) (oc :: (ts ++ [cc]))
  | noEntries : Is doc (.entries []) []
  | entries {ts us : List Token} {n : Node} {ns : List Node} (h : Is doc (.entry n) ts) (hm : Is doc (.entries ns) us) :
      Is doc (.entries (n :: ns)) (ts ++ us)
  | useTraits {k e : Token} {ts : List Token} {ns : List Node} (hk : Tok .kwUse k) (h : Names .comma ts ns)
      (he : Tok .semicolon e) : Is doc (.entry (.useTraitStatement k (ns.map Node.useTrait))) (k :: (ts ++ [e]))
  | adaptTraits {k oc cc : Token} {ts us : List Token} {ns as : List Node} (hk : Tok .kwUse k) (h : Names .comma ts ns)
      (ho : Tok .openCurly oc) (ha : Adaptations us as) (hc : Tok .closeCurly cc) :
      Is doc (.entry (.useTraitStatement k [.useTraitAlterationBlock ns oc as cc])) (k :: (ts ++ oc :: (us ++ [cc])))
  | memberEntry {as ts : List Token} {ats : List Node} {n : Node} (ha : Is doc (.attrs ats) as)
      (h : Is doc (.member none ats n) ts) : Is doc (.entry n) (as ++ ts)
  | documentedEntry {c : Token} {ts : List Token} {x n : Node} (hc : Comment c) (hx : doc c = some x)
      (h : Is doc (.member (some x) [] n) ts) : Is doc (.entry n) (c :: ts)
  | constMember {ms ts : List Token} {k e : Token} {d : Option Node} {ats ns : List Node} (hm : AllMods ms) (ho : InOrder ms)
      (hk : Tok .kwConst k) (h : Is doc (.list (.classConst (slots ms).2.2.1) false ns) ts) (he : Tok .semicolon e) :
      Is doc (.member d ats (.classConstantDefinitionStatement k ns d (slots ms).2.2.1 ats)) (ms ++ k :: (ts ++ [e]))
  | method {ms as ts : List Token} {k w : Token} {a : Option Token} {d : Option Node} {ats : List Node} {f : Node}
      (hm : AllMods ms) (ho : InOrder ms) (hk : Tok .kwFunction k) (ha : OptTok .binaryAnd as a) (hw : Word w)
      (h : Is doc (.func d f) ts) :
      Is doc (.member d ats (.methodDefinitionStatement k (slots ms).2.1 a w (slots ms).2.2.1 (slots ms).1 f (slots ms).2.2.2
        d ats)) (ms ++ k :: (as ++ w :: ts))
  | property {ms ys ts : List Token} {e : Token} {d ty : Option Node} {ats ns : List Node} (hm : AllMods ms) (hn : ms ≠ [])
      (ho : InOrder ms) (ht : OptType ys ty) (hs : Next (ys ++ ts) fun t => t != .kwConst && t != .kwFunction && !modifierSet.contains t)
      (h : Is doc (.list .prop false ns) ts) (he : Tok .semicolon e) :
      Is doc (.member d ats (.propertyDefinitionStatement ns d (slots ms).2.2.1 ty (slots ms).2.2.2 (slots ms).1 ats))
        (ms ++ (ys ++ (ts ++ [e])))

end PhpLs.Syntax
