import Verif.SyntaxSpec

/-!
# Programs with missing semicolons: the specification

`Has doc i ts es` extends the grammar of `Verif/SyntaxSpec.lean` (`Is`) by statements whose semicolon is missing.  `es` are the
errors to report, in the order of the tokens they point to.  The rules say what becomes of the tokens behind the place of the
missing semicolon.

* An expression statement, `return`, `throw`, `break`, `continue`, `goto`, `do`/`while`, `namespace`, `use` and the constants,
  properties and traits of a class report the token found in place of the semicolon, and everything up to and including the
  next semicolon is lost — also brackets and whole statements (`consume_or_ff_after`, `src/parser/mod.rs` 539–566).
* `echo` and `print` report it as well, but stop in front of the next semicolon, closing brace or opening tag
  (`consume_end_of_statement`, `src/parser/mod.rs` 509–537).
* `unset`, `die`, `define`, `declare`, `static`, `if (..): .. endif` and `switch (..): .. endswitch` do not look for a semicolon at all: nothing is reported.
-/

namespace PhpLs.Syntax

open PhpLs PhpLs.Parser

/-- What has to follow a statement: what the grammar says, or exactly this token. -/
inductive After where
  | tail (o : Tail)
  | stop (y : Token)

/-- `us` may follow. -/
def After.Holds : After → List Token → Prop
  | .tail o, us => Follows o us
  | .stop y, us => ∃ r, us = y :: r

/-- The token `c` (a closing brace, an `endwhile` and the like) may follow. -/
def After.Closed : After → Token → Prop
  | .tail o, _ => o.Free
  | .stop y, c => y = c

/-- The last of a list of statements decides what may follow the list. -/
def lastAfter (ns : List Node) (a a' : After) : After := if ns.isEmpty then a else a'

/-- The parts of a program that may contain statements without their semicolons. -/
inductive Part where
  | stmt (a : After) (n : Node)
  | top (a : After) (n : Node)
  | stmts (a : After) (ns : List Node)
  | block (n : Node)
  | body (t : TT) (o : Tail) (n : Node)
  | branches (t : TT) (bs : List Node)
  | elifs (o : Tail) (bs : List Node)
  | alts (k : Token) (bs : List Node) (k' : Token)
  | func (d : Option Node) (n : Node)
  | decl (d : Option Node) (as : List Node) (n : Node)
  | member (d : Option Node) (as : List Node) (n : Node)
  | entry (n : Node)
  | entries (ns : List Node)
  | classBody (n : Node)

/-- Tokens that are skipped: no comments, none of the given types. -/
def Skipped (l : List TT) (us : List Token) : Prop := ∀ u ∈ us, Plain u ∧ u.t ∉ l

/-- The tokens from the place of a missing semicolon up to and including the next semicolon; the first one is `x`. -/
structure Lost (x : Token) (us : List Token) (e : Token) : Prop where
  first : Plain x
  no : x.t ≠ .semicolon
  skip : Skipped [.semicolon] us
  semi : Tok .semicolon e

/-- The tokens `us` from the place of the missing semicolon of an `echo` to the token `y` its recovery stops in front of; `x` is
the first of them, so `y` itself if there is none. -/
structure Halt (x : Token) (us : List Token) (y : Token) : Prop where
  first : ∃ r, us ++ [y] = x :: r
  ends : ends x.t = true
  no : x.t ≠ .semicolon ∧ x.t ≠ .scriptEnd ∧ x.t ≠ .comma
  skip : Skipped syncSet us
  plain : Plain y
  sync : y.t ∈ syncSet

/-- The error for a missing semicolon. -/
def missing (x : Token) : Err := .wrongToken [.semicolon] x

/-- The error for a missing end of an `echo` or `print`. -/
def missingEnd (x : Token) : Err := .wrongToken [.semicolon, .scriptEnd] x

/-- The tokens `ts` are an `i` in which semicolons may be missing; `es` are the errors. -/
inductive Has (doc : Token → Option Node) : Part → List Token → List Err → Prop where
  -- Parts that are well-formed
  | okStmt {o : Tail} {n : Node} {ts : List Token} (h : Is doc (.stmt o n) ts) : Has doc (.stmt (.tail o) n) ts []
  | okTop {o : Tail} {n : Node} {ts : List Token} (h : Is doc (.top o n) ts) : Has doc (.top (.tail o) n) ts []
  | okBlock {n : Node} {ts : List Token} (h : Is doc (.block n) ts) : Has doc (.block n) ts []
  | okBody {t : TT} {o : Tail} {n : Node} {ts : List Token} (h : Is doc (.body t o n) ts) : Has doc (.body t o n) ts []
  | okFunc {d : Option Node} {n : Node} {ts : List Token} (h : Is doc (.func d n) ts) : Has doc (.func d n) ts []
  | okDecl {d : Option Node} {as : List Node} {n : Node} {ts : List Token} (h : Is doc (.decl d as n) ts) :
      Has doc (.decl d as n) ts []
  | okMember {d : Option Node} {as : List Node} {n : Node} {ts : List Token} (h : Is doc (.member d as n) ts) :
      Has doc (.member d as n) ts []
  | okEntry {n : Node} {ts : List Token} (h : Is doc (.entry n) ts) : Has doc (.entry n) ts []
  | okClassBody {n : Node} {ts : List Token} (h : Is doc (.classBody n) ts) : Has doc (.classBody n) ts []
  -- Statements without their semicolon
  | expr {ts us : List Token} {n : Node} {x e : Token} (h : Is doc (.one .expr n) ts)
      (hs : Next ts fun t => t != .kwFunction && t != .kwClass) (hl : Lost x us e) (hx : ends x.t = true)
      (hc : x.t ≠ .scriptEnd)
      (hw : 2 ≤ ts.length ∨ (x.t ≠ .colon ∧ (x.t = .variable → Next ts (· != .kwStatic)))) :
      Has doc (.stmt (.tail .done) (.expressionStatement n)) (ts ++ x :: (us ++ [e])) [missing x]
  | ret {ts us : List Token} {n : Node} {k x e : Token} (hk : Tok .kwReturn k) (h : Is doc (.one .expr n) ts)
      (hl : Lost x us e) (hx : ends x.t = true) :
      Has doc (.stmt (.tail .done) (.returnStatement k (some n))) (k :: (ts ++ x :: (us ++ [e]))) [missing x]
  | throw {ts us : List Token} {n : Node} {k x e : Token} (hk : Tok .kwThrow k) (h : Is doc (.one .expr n) ts)
      (hl : Lost x us e) (hx : ends x.t = true) :
      Has doc (.stmt (.tail .done) (.throwStatement k n)) (k :: (ts ++ x :: (us ++ [e]))) [missing x]
  | jump {t : TT} {ts us : List Token} {n : Node} {k x e : Token} (hk : Tok t k) (ht : t ∈ [TT.kwBreak, .kwContinue])
      (h : Is doc (.one .expr n) ts) (hl : Lost x us e) (hx : ends x.t = true) :
      Has doc (.stmt (.tail .done) (.tokenStatement k (some n))) (k :: (ts ++ x :: (us ++ [e]))) [missing x]
  | goto {us : List Token} {k w x e : Token} (hk : Tok .kwGoto k) (hw : Word w) (hl : Lost x us e) :
      Has doc (.stmt (.tail .done) (.gotoStatement k w)) (k :: w :: x :: (us ++ [e])) [missing x]
  | doWhile {k w lp rp x e : Token} {ts us vs : List Token} {es : List Err} {c b : Node} {o : Tail} (hk : Tok .kwDo k)
      (hb : Has doc (.stmt (.tail o) b) us es) (ho : o.Free) (hw : Tok .kwWhile w) (hp : Tok .openParenthesis lp)
      (hc : Is doc (.one .expr c) ts) (hr : Tok .closeParenthesis rp) (hl : Lost x vs e) :
      Has doc (.stmt (.tail .done) (.doWhileStatement k lp rp w c b))
        (k :: (us ++ w :: lp :: (ts ++ rp :: x :: (vs ++ [e])))) (es ++ [missing x])
  | «namespace» {ts us : List Token} {n : Node} {k x e : Token} (hk : Tok .kwNamespace k) (h : Name ts n) (hl : Lost x us e)
      (hx : x.t ≠ .namespaceSeparator ∧ x.t ≠ .openCurly) :
      Has doc (.stmt (.tail .done) (.namespaceStatement k n)) (k :: (ts ++ x :: (us ++ [e]))) [missing x]
  | use {u : UseStmt} {kind : UseKind} {us : List Token} {x : Token} (h : u.Ok kind) (hl : Lost x us u.semi)
      (hx : x.t ≠ .namespaceSeparator ∧ x.t ≠ .kwAs ∧ x.t ≠ .comma) :
      Has doc (.stmt (.tail .done) (u.node kind))
        (u.use :: (u.kw.toList ++ (u.first.toks ++ (u.more.flatMap (fun p => p.1 :: p.2.toks) ++ x :: (us ++ [u.semi])))))
        [missing x]
  | echo {ts us : List Token} {ns : List Node} {k x y : Token} (hk : Tok .kwEcho k) (h : Is doc (.list .expr false ns) ts)
      (hl : Halt x us y) : Has doc (.stmt (.stop y) (.echoStatement k ns)) (k :: (ts ++ us)) [missingEnd x]
  | print {ts us : List Token} {n : Node} {k x y : Token} (hk : Tok .kwPrint k) (h : Is doc (.one .expr n) ts)
      (hl : Halt x us y) : Has doc (.stmt (.stop y) (.printStatement k [n])) (k :: (ts ++ us)) [missingEnd x]
  -- Statements whose missing semicolon is not reported
  | unset {k lp rp : Token} {ts : List Token} {n : Node} {ns : List Node} (hk : Tok .kwUnset k) (hl : Tok .openParenthesis lp)
      (h : Is doc (.list .expr true (n :: ns)) ts) (hr : Tok .closeParenthesis rp) :
      Has doc (.stmt (.tail .done) (.unsetStatement k lp (n :: ns) rp)) (k :: lp :: (ts ++ [rp])) []
  | die0 {k lp rp : Token} (hk : Tok .kwDie k) (hl : Tok .openParenthesis lp) (hr : Tok .closeParenthesis rp) :
      Has doc (.stmt (.tail .done) (.dieStatement k lp none rp)) [k, lp, rp] []
  | die {k lp rp : Token} {ts : List Token} {n : Node} (hk : Tok .kwDie k) (hl : Tok .openParenthesis lp)
      (h : Is doc (.one .expr n) ts) (hr : Tok .closeParenthesis rp) :
      Has doc (.stmt (.tail .done) (.dieStatement k lp (some n) rp)) (k :: lp :: (ts ++ [rp])) []
  | define {k lp c rp : Token} {ts us : List Token} {n v : Node} (hk : Tok .kwDefine k) (hl : Tok .openParenthesis lp)
      (h : Is doc (.one .expr n) ts) (hc : Tok .comma c) (hv : Is doc (.one .expr v) us) (hr : Tok .closeParenthesis rp) :
      Has doc (.stmt (.tail .done) (.defineStatement n v lp rp k none)) (k :: lp :: (ts ++ c :: (us ++ [rp]))) []
  | declare {k lp i w v rp : Token} {t : TT} (hk : Tok .kwDeclare k) (hl : Tok .openParenthesis lp) (hi : Tok .identifier i)
      (hw : Tok .assignment w) (hv : Tok t v) (ht : t ∈ [TT.kwFalse, .kwTrue, .kwNull, .longNumber, .decimalNumber,
        .exponentialNumber, .hexNumber, .binaryNumber, .constantEncapsedString, .encapsedAndWhitespaceString])
      (hr : Tok .closeParenthesis rp) :
      Has doc (.stmt (.tail .done) (.declareStatement i v w lp rp k)) [k, lp, i, w, v, rp] []
  | statics {k y : Token} {ts : List Token} {ns : List Node} (hk : Tok .kwStatic k) (h : Is doc (.list .staticVar false ns) ts)
      (hy : Plain y) (hx : ends y.t = true) (hc : y.t ≠ .comma) :
      Has doc (.stmt (.stop y) (.staticVariablesStatement k ns)) (k :: ts) []
  -- Members of classes without their semicolon
  | useTraits {k x e : Token} {ts us : List Token} {ns : List Node} (hk : Tok .kwUse k) (h : Names .comma ts ns)
      (hl : Lost x us e) (hx : x.t ≠ .namespaceSeparator ∧ x.t ≠ .openCurly ∧ x.t ≠ .comma) :
      Has doc (.entry (.useTraitStatement k (ns.map Node.useTrait))) (k :: (ts ++ x :: (us ++ [e]))) [missing x]
  | constMember {ms ts us : List Token} {k x e : Token} {d : Option Node} {ats ns : List Node} (hm : AllMods ms)
      (ho : InOrder ms) (hk : Tok .kwConst k) (h : Is doc (.list (.classConst (slots ms).2.2.1) false ns) ts)
      (hl : Lost x us e) (hx : ends x.t = true) (hc : x.t ≠ .comma) :
      Has doc (.member d ats (.classConstantDefinitionStatement k ns d (slots ms).2.2.1 ats))
        (ms ++ k :: (ts ++ x :: (us ++ [e]))) [missing x]
  | property {ms ys ts us : List Token} {x e : Token} {d ty : Option Node} {ats ns : List Node} (hm : AllMods ms)
      (hn : ms ≠ []) (ho : InOrder ms) (ht : OptType ys ty)
      (hs : Next (ys ++ ts) fun t => t != .kwConst && t != .kwFunction && !modifierSet.contains t)
      (h : Is doc (.list .prop false ns) ts) (hl : Lost x us e) (hx : ends x.t = true)
      (hc : x.t ≠ .assignment ∧ x.t ≠ .comma) :
      Has doc (.member d ats (.propertyDefinitionStatement ns d (slots ms).2.2.1 ty (slots ms).2.2.2 (slots ms).1 ats))
        (ms ++ (ys ++ (ts ++ x :: (us ++ [e])))) [missing x]
  -- Statements around them
  | top {a : After} {ts : List Token} {es : List Err} {n : Node} (h : Has doc (.stmt a n) ts es) : Has doc (.top a n) ts es
  | noStmts : Has doc (.stmts (.tail .done) []) [] []
  | stmts {a a' : After} {ts us : List Token} {es es' : List Err} {n : Node} {ns : List Node} (h : Has doc (.top a n) ts es)
      (hm : Has doc (.stmts a' ns) us es') (hf : us = [] ∨ a.Holds us) :
      Has doc (.stmts (lastAfter ns a a') (n :: ns)) (ts ++ us) (es ++ es')
  | block {oc cc : Token} {ts : List Token} {es : List Err} {a : After} {ns : List Node} (ho : Tok .openCurly oc)
      (h : Has doc (.stmts a ns) ts es) (hs : a.Closed cc) (hc : Tok .closeCurly cc) :
      Has doc (.block (.block oc ns cc)) (oc :: (ts ++ [cc])) es
  | blockStmt {ts : List Token} {es : List Err} {n : Node} (h : Has doc (.block n) ts es) : Has doc (.stmt (.tail .done) n) ts es
  | body {t : TT} {o : Tail} {ts : List Token} {es : List Err} {n : Node} (h : Has doc (.stmt (.tail o) n) ts es) :
      Has doc (.body t o n) ts es
  | altBody {t : TT} {a : After} {c k e : Token} {ts : List Token} {es : List Err} {ns : List Node} (hc : Tok .colon c)
      (h : Has doc (.stmts a ns) ts es) (hs : a.Closed k) (ht : t ∈ [TT.endWhile, .endFor, .endForeach]) (hk : Tok t k)
      (he : Tok .semicolon e) : Has doc (.body t .done (.alternativeBlock c ns k)) (c :: (ts ++ [k, e])) es
  | «if» {k lp rp : Token} {ts us vs : List Token} {es es' : List Err} {c b : Node} {bs : List Node} {o o' : Tail}
      (hk : Tok .kwIf k) (hl : Tok .openParenthesis lp) (hc : Is doc (.one .expr c) ts) (hr : Tok .closeParenthesis rp)
      (hb : Has doc (.stmt (.tail o) b) us es) (hm : Has doc (.elifs o' bs) vs es') (ho : bs = [] ∨ o = .done) :
      Has doc (.stmt (.tail (lastTail bs o o').orOpen) (.ifStatement (.ifBranch k lp c rp b) bs none))
        (k :: lp :: (ts ++ rp :: (us ++ vs))) (es ++ es')
  | ifElse {k lp rp x : Token} {ts us vs ws : List Token} {es es' es'' : List Err} {c b b' : Node} {bs : List Node} {o : Tail}
      (hk : Tok .kwIf k) (hl : Tok .openParenthesis lp) (hc : Is doc (.one .expr c) ts) (hr : Tok .closeParenthesis rp)
      (hb : Has doc (.stmt (.tail .done) b) us es) (hm : Has doc (.elifs .done bs) vs es') (hx : Tok .kwElse x)
      (hb' : Has doc (.stmt (.tail o) b') ws es'') :
      Has doc (.stmt (.tail o) (.ifStatement (.ifBranch k lp c rp b) bs (some (.elseBranch x b'))))
        (k :: lp :: (ts ++ rp :: (us ++ (vs ++ x :: ws)))) (es ++ (es' ++ es''))
  | noElif : Has doc (.elifs .done []) [] []
  | elif {k lp rp : Token} {ts us vs : List Token} {es es' : List Err} {c b : Node} {bs : List Node} {o o' : Tail}
      (hk : Tok .elseIf k) (hl : Tok .openParenthesis lp) (hc : Is doc (.one .expr c) ts) (hr : Tok .closeParenthesis rp)
      (hb : Has doc (.stmt (.tail o) b) us es) (hm : Has doc (.elifs o' bs) vs es') (ho : bs = [] ∨ o = .done) :
      Has doc (.elifs (lastTail bs o o') (.ifBranch k lp c rp b :: bs)) (k :: lp :: (ts ++ rp :: (us ++ vs))) (es ++ es')
  | altIf {k lp rp c k1 k2 : Token} {ts us vs : List Token} {es es' : List Err} {e : Node} {ns bs : List Node} {o : Tail}
      (hk : Tok .kwIf k) (hl : Tok .openParenthesis lp) (he : Is doc (.one .expr e) ts) (hr : Tok .closeParenthesis rp)
      (hc : Tok .colon c) (h : Has doc (.stmts (.tail o) ns) us es)
      (h1 : (Tok .endIf k1 ∧ o.Free) ∨ (Tok .elseIf k1 ∧ o = .done)) (hm : Has doc (.alts k1 bs k2) vs es')
      (h2 : k2.t = .endIf) :
      Has doc (.stmt (.tail .done) (.ifStatement (.ifBranch k lp e rp (.alternativeBlock c ns k1)) bs none))
        (k :: lp :: (ts ++ rp :: c :: (us ++ k1 :: vs))) (es ++ es')
  | altIfElse {k lp rp c k1 k2 c' k3 sc : Token} {ts us vs ws : List Token} {es es' es'' : List Err} {e : Node}
      {ns bs ms : List Node} {a : After} (hk : Tok .kwIf k) (hl : Tok .openParenthesis lp) (he : Is doc (.one .expr e) ts)
      (hr : Tok .closeParenthesis rp) (hc : Tok .colon c) (h : Has doc (.stmts (.tail .done) ns) us es)
      (h1 : Tok .kwElse k1 ∨ Tok .elseIf k1) (hm : Has doc (.alts k1 bs k2) vs es') (h2 : k2.t = .kwElse)
      (hc' : Tok .colon c') (h' : Has doc (.stmts a ms) ws es'') (ho : a.Closed k3) (h3 : Tok .endIf k3)
      (hs : Tok .semicolon sc) :
      Has doc (.stmt (.tail .done) (.ifStatement (.ifBranch k lp e rp (.alternativeBlock c ns k1)) bs
          (some (.elseBranch k2 (.alternativeBlock c' ms k3)))))
        (k :: lp :: (ts ++ rp :: c :: (us ++ k1 :: (vs ++ c' :: (ws ++ [k3, sc]))))) (es ++ (es' ++ es''))
  | noAlt {k : Token} (hk : k.t ≠ .elseIf) : Has doc (.alts k [] k) [] []
  | alt {k lp rp c k1 k2 : Token} {ts us vs : List Token} {es es' : List Err} {e : Node} {ns bs : List Node} {o : Tail}
      (hk : k.t = .elseIf) (hl : Tok .openParenthesis lp) (he : Is doc (.one .expr e) ts) (hr : Tok .closeParenthesis rp)
      (hc : Tok .colon c) (h : Has doc (.stmts (.tail o) ns) us es)
      (h1 : (Tok .endIf k1 ∧ o.Free) ∨ ((Tok .elseIf k1 ∨ Tok .kwElse k1) ∧ o = .done))
      (hm : Has doc (.alts k1 bs k2) vs es') :
      Has doc (.alts k (.ifBranch k lp e rp (.alternativeBlock c ns k1) :: bs) k2)
        (lp :: (ts ++ rp :: c :: (us ++ k1 :: vs))) (es ++ es')
  | «while» {k lp rp : Token} {ts us : List Token} {es : List Err} {c b : Node} {o : Tail} (hk : Tok .kwWhile k)
      (hl : Tok .openParenthesis lp) (hc : Is doc (.one .expr c) ts) (hr : Tok .closeParenthesis rp)
      (hb : Has doc (.body .endWhile o b) us es) :
      Has doc (.stmt (.tail o) (.whileStatement k lp c rp b)) (k :: lp :: (ts ++ rp :: us)) es
  | «for» {k lp e1 e2 rp : Token} {xs ys zs us : List Token} {es : List Err} {is cs ss : List Node} {b : Node} {o : Tail}
      (hk : Tok .kwFor k) (hl : Tok .openParenthesis lp) (hi : Is doc (.list .expr true is) xs) (he1 : Tok .semicolon e1)
      (hc : Is doc (.list .expr true cs) ys) (he2 : Tok .semicolon e2) (hs : Is doc (.list .expr true ss) zs)
      (hr : Tok .closeParenthesis rp) (hb : Has doc (.body .endFor o b) us es) :
      Has doc (.stmt (.tail o) (.forStatement k is cs ss b)) (k :: lp :: (xs ++ e1 :: (ys ++ e2 :: (zs ++ rp :: us)))) es
  | foreach {k lp w rp : Token} {ts ps us : List Token} {es : List Err} {c p b : Node} {o : Tail} (hk : Tok .kwForeach k)
      (hl : Tok .openParenthesis lp) (hc : Is doc (.one .expr c) ts) (hw : Tok .kwAs w) (hp : Is doc (.one .pair p) ps)
      (hr : Tok .closeParenthesis rp) (hb : Has doc (.body .endForeach o b) us es) :
      Has doc (.stmt (.tail o) (.forEachStatement k lp c w p rp b)) (k :: lp :: (ts ++ w :: (ps ++ rp :: us))) es
  | switch {k lp rp oc cc : Token} {ts us : List Token} {es : List Err} {e : Node} {bs : List Node} (hk : Tok .kwSwitch k)
      (hl : Tok .openParenthesis lp) (he : Is doc (.one .expr e) ts) (hr : Tok .closeParenthesis rp)
      (ho : Tok .openCurly oc) (hb : Has doc (.branches .closeCurly bs) us es) (hc : Tok .closeCurly cc) :
      Has doc (.stmt (.tail .done) (.switchCase k lp e rp (.switchBody oc bs cc)))
        (k :: lp :: (ts ++ rp :: oc :: (us ++ [cc]))) es
  | altSwitch {k lp rp c w : Token} {ts us : List Token} {es : List Err} {e : Node} {bs : List Node} (hk : Tok .kwSwitch k)
      (hl : Tok .openParenthesis lp) (he : Is doc (.one .expr e) ts) (hr : Tok .closeParenthesis rp)
      (hc : Tok .colon c) (hb : Has doc (.branches .endSwitch bs) us es) (hw : Tok .endSwitch w) :
      Has doc (.stmt (.tail .done) (.switchCase k lp e rp (.switchBody c bs w)))
        (k :: lp :: (ts ++ rp :: c :: (us ++ [w]))) es
  | noBranch {t : TT} : Has doc (.branches t []) [] []
  | branch {t : TT} {ts us vs : List Token} {es es' : List Err} {cs : List (Option Node)} {ns bs : List Node} {o : Tail}
      (hc : Is doc (.labels cs) ts) (h : Has doc (.stmts (.tail o) ns) us es) (ho : o.Free)
      (hb : Has doc (.branches t bs) vs es') (he : ns = [] → bs = []) (hd : us = [] ∨ Next us fun _ => true) :
      Has doc (.branches t (.switchBranch cs ns :: bs)) (ts ++ (us ++ vs)) (es ++ es')
  | «try» {k : Token} {ts us : List Token} {es : List Err} {b : Node} {cs : List Node} (hk : Tok .kwTry k)
      (hb : Has doc (.block b) ts es) (hc : Is doc (.catches cs) us) :
      Has doc (.stmt (.tail .loose) (.tryCatch k b cs none)) (k :: (ts ++ us)) es
  | tryFinally {k f : Token} {ts us vs : List Token} {es es' : List Err} {b b' : Node} {cs : List Node} (hk : Tok .kwTry k)
      (hb : Has doc (.block b) ts es) (hc : Is doc (.catches cs) us) (hf : Tok .kwFinally f)
      (hb' : Has doc (.block b') vs es') :
      Has doc (.stmt (.tail .done) (.tryCatch k b cs (some (.finallyBlock f b')))) (k :: (ts ++ (us ++ f :: vs))) (es ++ es')
  | namespaceBlock {k : Token} {ts us : List Token} {es : List Err} {n b : Node} (hk : Tok .kwNamespace k) (h : Name ts n)
      (hb : Has doc (.block b) us es) : Has doc (.stmt (.tail .done) (.namespaceBlock k (some n) b)) (k :: (ts ++ us)) es
  -- Declarations around them
  | documented {c : Token} {ts : List Token} {es : List Err} {x n : Node} (hc : Comment c) (hx : doc c = some x)
      (h : Has doc (.decl (some x) [] n) ts es) : Has doc (.top (.tail .done) n) (c :: ts) es
  | declared {as ts : List Token} {es : List Err} {ats : List Node} {n : Node} (ha : Is doc (.attrs ats) as)
      (h : Has doc (.decl none ats n) ts es) : Has doc (.stmt (.tail .done) n) (as ++ ts) es
  | func {d : Option Node} {lp rp : Token} {ts rs bs : List Token} {es : List Err} {o : Option (List Node)} {rt : Option Node}
      {b : Node} (hl : Tok .openParenthesis lp) (h : Is doc (.params d o) ts) (hr : Tok .closeParenthesis rp)
      (hrt : RetType rs rt) (hb : Has doc (.block b) bs es) :
      Has doc (.func d (.functionDefinitionStatement lp o rp rt (some b) d)) (lp :: (ts ++ rp :: (rs ++ bs))) es
  | function {k w : Token} {as ts : List Token} {es : List Err} {a : Option Token} {d : Option Node} {ats : List Node} {f : Node}
      (hk : Tok .kwFunction k) (ha : OptTok .binaryAnd as a) (hw : Word w) (h : Has doc (.func d f) ts es) :
      Has doc (.decl d ats (.namedFunctionDefinitionStatement k a w f ats)) (k :: (as ++ w :: ts)) es
  | «class» {ms xs is bs : List Token} {es : List Err} {ab fi : Option Token} {k w : Token} {d e : Option Node}
      {ats : List Node} {b : Node} {i : Option (List Node)}
      (hm : (OptTok .kwAbstract ms ab ∧ fi = none) ∨ (OptTok .kwFinal ms fi ∧ ab = none)) (hk : Tok .kwClass k)
      (hw : Word w) (he : Extends xs e) (hi : Heirs .kwImplements is i) (hb : Has doc (.classBody b) bs es) :
      Has doc (.decl d ats (.classStatement k w ab fi i e b d ats)) (ms ++ k :: w :: (xs ++ (is ++ bs))) es
  | trait {k w : Token} {bs : List Token} {es : List Err} {d : Option Node} {ats : List Node} {b : Node} (hk : Tok .kwTrait k)
      (hw : Tok .identifier w) (hb : Has doc (.classBody b) bs es) :
      Has doc (.decl d ats (.traitStatement k w b d)) (k :: w :: bs) es
  | classBody {oc cc : Token} {ts : List Token} {es : List Err} {ns : List Node} (ho : Tok .openCurly oc)
      (h : Has doc (.entries ns) ts es) (hc : Tok .closeCurly cc) : Has doc (.classBody (.block oc ns cc)) (oc :: (ts ++ [cc])) es
  | noEntries : Has doc (.entries []) [] []
  | entries {ts us : List Token} {es es' : List Err} {n : Node} {ns : List Node} (h : Has doc (.entry n) ts es)
      (hm : Has doc (.entries ns) us es') : Has doc (.entries (n :: ns)) (ts ++ us) (es ++ es')
  | memberEntry {as ts : List Token} {es : List Err} {ats : List Node} {n : Node} (ha : Is doc (.attrs ats) as)
      (h : Has doc (.member none ats n) ts es) : Has doc (.entry n) (as ++ ts) es
  | documentedEntry {c : Token} {ts : List Token} {es : List Err} {x n : Node} (hc : Comment c) (hx : doc c = some x)
      (h : Has doc (.member (some x) [] n) ts es) : Has doc (.entry n) (c :: ts) es
  | method {ms as ts : List Token} {es : List Err} {k w : Token} {a : Option Token} {d : Option Node} {ats : List Node} {f : Node}
      (hm : AllMods ms) (ho : InOrder ms) (hk : Tok .kwFunction k) (ha : OptTok .binaryAnd as a) (hw : Word w)
      (h : Has doc (.func d f) ts es) :
      Has doc (.member d ats (.methodDefinitionStatement k (slots ms).2.1 a w (slots ms).2.2.1 (slots ms).1 f (slots ms).2.2.2
        d ats)) (ms ++ k :: (as ++ w :: ts)) es

/-- A program in which semicolons may be missing, its tree and the errors to report. -/
inductive Flawed (doc : Token → Option Node) : List Token → List Node → List Err → Prop where
  | mk {tag : Token} {t : TT} {eof : Token} {ts : List Token} {es : List Err} {o : Tail} {n : Node} {ns : List Node}
      (ht : Tok t tag) (hs : t ∈ [TT.scriptStartRegular, .scriptStartShort])
      (h : Has doc (.stmts (.tail o) (n :: ns)) ts es) (ho : o.Free) (he : eof.t = .eof) :
      Flawed doc (tag :: (ts ++ [eof])) (n :: ns) es

end PhpLs.Syntax
