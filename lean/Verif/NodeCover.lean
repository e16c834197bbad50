import Verif.GrammarRange

/-!
# Ranges of nodes and of their children

Which nodes have a range that is the place of the node in the text, and which nodes cover their children.  `Odd` are the nodes
whose range is not their place, `Gap` are the children a node does not cover.  `parts` are the parts of a node in the order of
the text; `nodeR_of_seq` shows, for every kind of node, that the range of the node lies between the first and the last part and
covers the children, if the parts follow one another.
-/

namespace PhpLs.Parser

open PhpLs PhpLs.Suggester

set_option linter.unusedSimpArgs false
set_option linter.unusedVariables false

/-! ## Specification -/

/-- The start of a range, as `(column, line)`. -/
def _root_.PhpLs.NodeRange.start (r : NodeRange) : ColLine := (r.startCol, r.startLine)

/-- Nodes whose range is not their place: those without a case in `Node::range`, and classes with a doc comment, whose range
starts at the comment. -/
def Odd : Node → Prop
  | .namedParameter .. => True
  | .attr .. => True
  | .inlineHtml .. => True
  | .emptyScript => True
  | .docCommentVar .. => True
  | .classStatement _ _ _ _ _ _ _ (some _) _ => True
  | _ => False

/-- No odd node in the tree. -/
def Placed (n : Node) : Prop := ∀ m, Below n m → ¬ Odd m

/-- The comment is in front of the token (in the order `le` of places). -/
def InFront (le : ColLine → ColLine → Prop) (doc : Node) (k : Token) : Prop :=
  ∃ r, doc.range = some r ∧ le r.start r.end ∧ le r.end (k.col, k.line)

/-- The children a node does not cover: the expression behind the name of a named parameter and those of an attribute (which have
no range); the children of the argument of `die`; the parts of a doc comment; the condition of a `match`; the values of a `case`;
the type of a parameter by reference; attributes of functions and class members; all children of a class whose doc comment is not
in front of it. -/
def Gap (le : ColLine → ColLine → Prop) : Node → Node → Prop
  | .namedParameter .., _ => True
  | .attr .., _ => True
  | .dieStatement .., _ => True
  | .docComment .., _ => True
  | .matchExpr _ _ _ cond _ _ _, c => c = cond
  | .switchBranch cs _, c => some c ∈ cs
  | .functionArgument (some ty) _ _ _ _ (some _) _ _, c => c = ty
  | .classConstantDefinitionStatement _ _ _ _ ats, c => c ∈ ats
  | .propertyDefinitionStatement _ _ _ _ _ _ ats, c => c ∈ ats
  | .methodDefinitionStatement _ _ _ _ _ _ _ _ _ ats, c => c ∈ ats
  | .namedFunctionDefinitionStatement _ _ _ _ ats, c => c ∈ ats
  | .classStatement t _ _ _ _ _ _ (some d) _, _ => ¬ InFront le d t
  | _, _ => False

/-- Nodes whose range goes from an opening to a closing token, whatever is in between. -/
def Fenced : Node → Prop
  | .block .. => True
  | .alternativeBlock .. => True
  | .switchBody .. => True
  | .array .. => True
  | .oldArray .. => True
  | .list .. => True
  | .isset .. => True
  | .emptyExpr .. => True
  | .unsetStatement .. => True
  | .matchExpr .. => True
  | .doWhileStatement .. => True
  | _ => False

/-- The range of `m` covers the range of `c`. -/
def Covers (le : ColLine → ColLine → Prop) (m c : Node) : Prop :=
  ∀ r r', m.range = some r → c.range = some r' → le r.start r'.start ∧ le r'.end r.end

/-- The token by which a declaration is shown: its name, the keyword of an arrow function, or the text that `define` names. -/
def nameOf : Node → Option Token
  | .classStatement _ name .. => some name
  | .traitStatement _ name .. => some name
  | .interface _ name .. => some name
  | .methodDefinitionStatement _ _ _ name .. => some name
  | .namedFunctionDefinitionStatement _ _ name .. => some name
  | .arrowFunction _ _ token .. => some token
  | .defineStatement (.literal name) .. => some name
  | .functionArgument _ name .. => some name
  | _ => none

/-- The last one of the parameters, the type and the body of a function has a range that is its place. -/
def FirmBody : Node → Prop
  | .functionDefinitionStatement _ _ _ _ (some b) _ => Placed b ∨ Fenced b
  | .functionDefinitionStatement _ _ _ (some r) none _ => Placed r
  | .functionDefinitionStatement _ _ _ none none _ => True
  | _ => False

/-- The last part of a declaration has a range that is its place, and the first one is really the first one: the range of an arrow
function by reference starts behind its keyword. -/
def Firm : Node → Prop
  | .classStatement _ _ _ _ _ _ b _ _ => Placed b ∨ Fenced b
  | .traitStatement _ _ b _ => Placed b ∨ Fenced b
  | .interface _ _ _ b _ => Placed b ∨ Fenced b
  | .methodDefinitionStatement _ _ _ _ _ _ f _ _ _ => FirmBody f
  | .namedFunctionDefinitionStatement _ _ _ f _ => FirmBody f
  | .arrowFunction st br _ _ _ _ _ _ b _ => (st = none → br = none) ∧ (Placed b ∨ Fenced b)
  | .functionArgument ty _ _ d _ br _ _ => (br = none → ∀ x ∈ ty, Placed x) ∧ ∀ x ∈ d, Placed x ∨ Fenced x
  | _ => True

/-- The doc comment of a class is in front of it. -/
def DocInFront (le : ColLine → ColLine → Prop) : Node → Prop
  | .classStatement t _ _ _ _ _ _ (some d) _ => InFront le d t
  | _ => True

/-- The range of `m` covers the token. -/
def HasName (le : ColLine → ColLine → Prop) (m : Node) (k : Token) : Prop :=
  ∀ r r', m.range = some r → k.range = some r' → le r.start r'.start ∧ le r'.end r.end

/-- Doc comments and their parts. -/
def InDoc : Node → Prop
  | .docComment .. => True
  | .docCommentProperty .. => True
  | .docCommentVar .. => True
  | _ => False

/-- Every node of the tree ends behind its start and covers its children, with the exceptions of `Gap`, if nothing odd
interferes. -/
def Cov (le : ColLine → ColLine → Prop) (n : Node) : Prop :=
  ∀ m, Below n m →
    ((Placed m ∨ Fenced m) → ¬ InDoc m → ∀ r, m.range = some r → le r.start r.end) ∧
    (∀ c ∈ m.children, ¬ Gap le m c → Placed c → (Fenced m ∨ ∀ d ∈ m.children, Placed d) → Covers le m c) ∧
    ∀ k ∈ nameOf m, Firm m → DocInFront le m → HasName le m k

theorem Placed.odd {n : Node} (h : Placed n) : ¬ Odd n := h n (.here n)
theorem Placed.child {n d : Node} (h : Placed n) (hd : d ∈ n.children) : Placed d := fun m hm => h m (.down hd hm)

/-! ## Places -/

/-- How places are counted: by numbers below `bound`; numbers from `bound` on stand for a run with errors. -/
structure Sc where
  pos : ColLine → Nat
  bound : Nat

namespace Sc

variable (c : Sc)

/-- The order of places. -/
def le (a b : ColLine) : Prop := c.pos a ≤ c.pos b
/-- The start of a token. -/
def st (k : Token) : Nat := c.pos (k.col, k.line)
/-- The end of a token. -/
def en (k : Token) : Nat := match k.end with
  | some e => c.pos e
  | none => 0
/-- The start of a range. -/
def lo (r : NodeRange) : Nat := c.pos r.start
/-- The end of a range. -/
def hi (r : NodeRange) : Nat := c.pos r.end

/-- The range of the node lies between two places. -/
def In (p q : Nat) (n : Node) : Prop := ∀ r, n.range = some r → p ≤ c.lo r ∧ c.lo r ≤ c.hi r ∧ c.hi r ≤ q

/-- The token lies between two places. -/
def TkR (p q : Nat) (k : Token) : Prop := p ≤ c.st k ∧ c.st k ≤ c.en k ∧ c.en k ≤ q

/-- The node lies between two places and its nodes cover their children. -/
def NdR (p q : Nat) (n : Node) : Prop :=
  p ≤ q ∧ Cov c.le n ∧ (Placed n → c.In p q n) ∧ (Fenced n → c.In p q n) ∧ (FirmBody n → c.In p q n)

/-- Neither the start nor the end of `b` is in front of that of `a`. -/
def Before (a b : Node) : Prop :=
  Placed a → Placed b → ∀ r r', a.range = some r → b.range = some r' → c.lo r ≤ c.lo r' ∧ c.hi r ≤ c.hi r'

/-- The nodes lie between two places, in their order. -/
def NdLR (p q : Nat) (l : List Node) : Prop := p ≤ q ∧ (∀ n ∈ l, c.NdR p q n) ∧ l.Pairwise c.Before

/-- The nodes lie between two places, the ends in their order. -/
def OverR (p q : Nat) (l : List Node) : Prop := p ≤ q ∧ (∀ n ∈ l, c.NdR p q n) ∧
  l.Pairwise fun a b => Placed a → Placed b → ∀ r r', a.range = some r → b.range = some r' → c.hi r ≤ c.hi r'

/-- The tokens lie between two places and follow one another. -/
def PathR (p q : Nat) (l : List Token) : Prop := p ≤ q ∧ (∀ k ∈ l, c.TkR p q k) ∧ l.Pairwise fun a b => c.en a ≤ c.st b

end Sc

/-- A part of a node. -/
inductive Part where
  | tok (k : Token) | otok (o : Option Token)
  | node (n : Node) | onode (o : Option Node) | plain (n : Node) | oplain (o : Option Node)
  | list (l : List Node) | olist (o : Option (List Node)) | plains (l : List Node)
  | vals (cs : List (Option Node)) | path (l : List Token) | over (k : Token) (l : List Node)
  | never

namespace Sc

variable (c : Sc)

/-- The part lies between two places. -/
def OkR (a b : Nat) : Part → Prop
  | .tok k => c.TkR a b k
  | .otok o => a ≤ b ∧ ∀ k, o = some k → c.TkR a b k
  | .node n => c.NdR a b n
  | .onode o => a ≤ b ∧ ∀ n, o = some n → c.NdR a b n
  | .plain n => c.NdR a b n ∧ Placed n
  | .oplain o => a ≤ b ∧ ∀ n, o = some n → c.NdR a b n ∧ Placed n
  | .list l => c.NdLR a b l
  | .olist o => a ≤ b ∧ ∀ l, o = some l → c.NdLR a b l
  | .plains l => c.NdLR a b l ∧ ∀ n ∈ l, Placed n
  | .vals cs => a ≤ b ∧ ∀ n, some n ∈ cs → c.NdR a b n
  | .path l => c.PathR a b l
  | .over k l => a ≤ c.st k ∧ c.OverR (c.st k) b l
  | .never => False

/-- The parts follow one another between two places. -/
def SeqR (p q : Nat) : List Part → Prop
  | [] => p ≤ q
  | i :: r => ∃ a b, p ≤ a ∧ c.OkR a b i ∧ SeqR b q r

end Sc

/-- The parts of a node in the order of the text.  Parts its range and its children do not depend on are left out. -/
def _root_.PhpLs.Node.parts : Node → List Part
  | .unary e k => [.tok k, .node e]
  | .postUnary e k => [.node e, .tok k]
  | .const n t v => [.tok n, .tok t, .node v]
  | .binary l k r => [.node l, .tok k, .node r]
  | .ternary c q t co f => [.node c, .tok q, .onode t, .tok co, .node f]
  | .literal k => [.tok k]
  | .variable k => [.tok k]
  | .missing k => [.tok k]
  | .lexicalVariable r v => [.otok r, .tok v]
  | .aliasedVariable v e => [.tok v, .node e]
  | .dynamicVariable v oc e cc => [.tok v, .tok oc, .node e, .tok cc]
  | .staticVariable v a e => [.tok v, .otok a, .onode e]
  | .grouping e => [.node e]
  | .array ob l cb => [.tok ob, .list l, .tok cb]
  | .oldArray t op l cp => [.tok t, .tok op, .list l, .tok cp]
  | .list t op l cp => [.tok t, .tok op, .list l, .tok cp]
  | .arrayElement k a v => [.onode k, .otok a, .node v]
  | .call c op ps cp => [.node c, .tok op, .list ps, .tok cp]
  | .isset t op ps cp => [.tok t, .tok op, .list ps, .tok cp]
  | .emptyExpr t op ps cp => [.tok t, .tok op, .list ps, .tok cp]
  | .exitExpr t none none none => [.tok t]
  | .exitExpr t (some op) (some ps) (some cp) => [.tok t, .tok op, .list ps, .tok cp]
  | .newExpr t c => [.tok t, .node c]
  | .member o a oc m cc => [.node o, .tok a, .otok oc, .node m, .otok cc]
  | .staticMember o a oc m cc => [.node o, .tok a, .otok oc, .node m, .otok cc]
  | .field a ob i cb => [.node a, .tok ob, .onode i, .tok cb]
  | .matchExpr m oc op c cp b cc => [.tok m, .tok op, .node c, .tok cp, .tok oc, .list b, .tok cc]
  | .matchArm ps a e => [.olist ps, .tok a, .node e]
  | .closure st br t op as cp us rt b _ => [.otok st, .tok t, .otok br, .tok op, .olist as, .tok cp, .olist us, .onode rt, .node b]
  | .arrowFunction st br t op as cp arrow rt b _ =>
    [.otok st, .tok t, .otok br, .tok op, .olist as, .tok cp, .onode rt, .tok arrow, .node b]
  | .namedParameter n co e => [.tok n, .tok co, .node e]
  | .functionArgument ty n a d sp rf _ _ => [.onode ty, .otok rf, .otok sp, .tok n, .otok a, .onode d]
  | .dataType q ts => [.otok q, .list ts]
  | .returnType co d => [.tok co, .plain d]
  | .typeRef t => [.path t.kind]
  | .anonClass t as e i b _ => [.tok t, .olist as, .onode e, .olist i, .node b]
  | .yieldExpr t e => [.tok t, .onode e]
  | .yieldFrom t e => [.tok t, .node e]
  | .fileInclude t e => [.tok t, .node e]
  | .useDeclaration t d al a => [.otok t, .plain d, .otok al, .otok a]
  | .useConst t d al a => [.otok t, .plain d, .otok al, .otok a]
  | .useFunction t d al a => [.otok t, .plain d, .otok al, .otok a]
  | .groupedUse t p oc _ cc => [.tok t, .plain p, .tok oc, .tok cc]
  | .expressionStatement e => [.node e]
  | .echoStatement t l => [.tok t, .list l]
  | .constStatement t l => [.tok t, .list l]
  | .printStatement t l => [.tok t, .list l]
  | .gotoStatement t l => [.tok t, .tok l]
  | .labelStatement l co => [.tok l, .tok co]
  | .throwStatement t e => [.tok t, .node e]
  | .declareStatement _ _ _ _ cp t => [.tok t, .tok cp]
  | .defineStatement n _ _ cp t _ => [.tok t, .node n, .tok cp]
  | .unsetStatement t op l cp => [.tok t, .tok op, .list l, .tok cp]
  | .dieStatement t op e cp => [.tok t, .tok op, .onode e, .tok cp]
  | .returnStatement t e => [.tok t, .onode e]
  | .namespaceStatement t n => [.tok t, .node n]
  | .namespaceBlock t ty b => [.tok t, .onode ty, .node b]
  | .useStatement t l => [.over t l]
  | .useFunctionStatement t l => [.over t l]
  | .useConstStatement t l => [.over t l]
  | .useTraitStatement t l => [.tok t, .list l]
  | .useTrait n => [.plain n]
  | .useTraitAlterationBlock _ oc _ cc => [.tok oc, .tok cc]
  | .useTraitInsteadOf l p m k is => [.oplain l, .otok p, .plain m, .tok k, .plains is]
  | .useTraitAs l p m k v a => [.oplain l, .otok p, .plain m, .tok k, .otok v, .otok a]
  | .classStatement t n ab fi im ex b _ _ => [.otok ab, .otok fi, .tok t, .tok n, .onode ex, .olist im, .node b]
  | .traitStatement t n b _ => [.tok t, .tok n, .node b]
  | .interface t n e b _ => [.tok t, .tok n, .olist e, .node b]
  | .classConstantDefinitionStatement t cs _ _ _ => [.tok t, .list cs]
  | .classConstant _ n e => [.tok n, .node e]
  | .property n v => [.tok n, .onode v]
  | .propertyDefinitionStatement ps _ _ ty _ _ _ => [.onode ty, .list ps]
  | .methodDefinitionStatement t fi br n vi ab f _ _ _ =>
    [.otok ab, .otok fi, .otok vi, .tok t, .otok br, .tok n, .node f]
  | .functionDefinitionStatement op as cp rt b _ => [.tok op, .olist as, .tok cp, .onode rt, .onode b]
  | .namedFunctionDefinitionStatement t br n f _ => [.tok t, .otok br, .tok n, .node f]
  | .whileStatement t op e cp b => [.tok t, .tok op, .node e, .tok cp, .node b]
  | .doWhileStatement t op cp wt e b => [.tok t, .node b, .tok wt, .tok op, .node e, .tok cp]
  | .forStatement t i e s b => [.tok t, .list i, .list e, .list s, .node b]
  | .forEachStatement t op e as kv cp b => [.tok t, .tok op, .node e, .tok as, .node kv, .tok cp, .node b]
  | .block oc l cc => [.tok oc, .list l, .tok cc]
  | .alternativeBlock co l t => [.tok co, .list l, .tok t]
  | .ifBranch t op e cp b => [.tok t, .tok op, .node e, .tok cp, .node b]
  | .elseBranch t b => [.tok t, .node b]
  | .ifStatement i es e => [.node i, .list es, .onode e]
  | .switchBranch cs b => [.vals cs, .list b]
  | .switchCase t op e cp b => [.tok t, .tok op, .node e, .tok cp, .node b]
  | .switchBody s bs e => [.tok s, .list bs, .tok e]
  | .tokenStatement t e => [.tok t, .onode e]
  | .catchBlock t op ts v cp b => [.tok t, .tok op, .tok v, .tok cp, .node b]
  | .finallyBlock t b => [.tok t, .node b]
  | .tryCatch t b cs f => [.tok t, .node b, .list cs, .onode f]
  | .staticVariablesStatement t l => [.tok t, .list l]
  | .globalVariablesStatement t l => [.tok t, .list l]
  | .inlineHtml _ _ => []
  | .attr a l cb => [.tok a, .list l, .tok cb]
  | .emptyScript => []
  | .docCommentVar _ _ _ => []
  | _ => [.never]

/-- The children that are not among the parts: doc comments and attributes. -/
def _root_.PhpLs.Node.loose : Node → List Node
  | .classStatement _ _ _ _ _ _ _ d _ => d.toList
  | .classConstantDefinitionStatement _ _ _ _ ats => ats
  | .propertyDefinitionStatement _ _ _ _ _ _ ats => ats
  | .methodDefinitionStatement _ _ _ _ _ _ _ _ _ ats => ats
  | .namedFunctionDefinitionStatement _ _ _ _ ats => ats
  | _ => []

namespace Sc

variable {c : Sc}

/-! ## Ranges -/

theorem range_tok {k : Token} {x : NodeRange} (h : k.range = some x) : c.lo x = c.st k ∧ c.hi x = c.en k := by
  unfold Token.range at h
  cases hk : k.end with
  | none => rw [hk] at h; cases h
  | some e =>
    rw [hk] at h
    cases h
    exact ⟨rfl, by unfold hi en; rw [hk]; rfl⟩

theorem range_TT {a b : Token} {x : NodeRange} (h : rangeTT a b = some x) : c.lo x = c.st a ∧ c.hi x = c.en b := by
  unfold rangeTT at h
  cases hk : b.end with
  | none => rw [hk] at h; cases h
  | some e =>
    rw [hk] at h
    cases h
    exact ⟨rfl, by unfold hi en; rw [hk]; rfl⟩

theorem range_TN {a : Token} {b : Option NodeRange} {x : NodeRange} (h : rangeTN a b = some x) :
    ∃ y, b = some y ∧ c.lo x = c.st a ∧ c.hi x = c.hi y := by
  cases b with
  | none => cases h
  | some y => cases h; exact ⟨y, rfl, rfl, rfl⟩

theorem range_NN {a b : Option NodeRange} {x : NodeRange} (h : rangeNN a b = some x) :
    ∃ y z, a = some y ∧ b = some z ∧ c.lo x = c.lo y ∧ c.hi x = c.hi z := by
  cases a with
  | none => cases h
  | some y =>
    cases b with
    | none => cases h
    | some z => cases h; exact ⟨y, z, rfl, rfl, rfl, rfl⟩

theorem range_NT {a : Option NodeRange} {b : Token} {x : NodeRange} (h : rangeNT a b = some x) :
    ∃ y, a = some y ∧ c.lo x = c.lo y ∧ c.hi x = c.en b := by
  cases a with
  | none => cases h
  | some y =>
    unfold rangeNT at h
    cases hk : b.end with
    | none => rw [hk] at h; cases h
    | some e =>
      rw [hk] at h
      cases h
      exact ⟨y, rfl, rfl, by unfold hi en; rw [hk]; rfl⟩

theorem range_fst {l : List Node} {x : NodeRange} (h : Node.rangeFirst l = some x) : ∃ n t, l = n :: t ∧ n.range = some x := by
  cases l with
  | nil => cases h
  | cons n t => exact ⟨n, t, rfl, h⟩

theorem range_lst : ∀ {l : List Node} {x : NodeRange}, Node.rangeLast l = some x → ∃ t n, l = t ++ [n] ∧ n.range = some x
  | [], x, h => by cases h
  | [n], x, h => ⟨[], n, rfl, h⟩
  | n :: m :: l, x, h => by
    rw [Node.rangeLast] at h
    cases hl : Node.rangeLast (m :: l) with
    | none => rw [hl] at h; simp at h
    | some y =>
      rw [hl] at h
      cases h
      obtain ⟨t, k, e, hk⟩ := range_lst hl
      exact ⟨n :: t, k, by rw [e]; rfl, hk⟩

/-- The range of the first node. -/
theorem fst_in {a b : Nat} {l : List Node} {x : NodeRange} (h : c.NdLR a b l) (hp : ∀ n ∈ l, Placed n)
    (hx : Node.rangeFirst l = some x) : a ≤ c.lo x ∧ c.lo x ≤ c.hi x ∧ c.hi x ≤ b ∧
    ∀ n ∈ l, ∀ y, n.range = some y → c.lo x ≤ c.lo y ∧ c.lo y ≤ c.hi y ∧ c.hi y ≤ b := by
  obtain ⟨n, t, rfl, hn⟩ := range_fst hx
  obtain ⟨h1, h2, h3⟩ := h
  have i1 := (h2 n (by simp)).2.2.1 (hp n (by simp)) x hn
  refine ⟨i1.1, i1.2.1, i1.2.2, fun m hm y hy => ?_⟩
  have i2 := (h2 m hm).2.2.1 (hp m hm) y hy
  refine ⟨?_, i2.2⟩
  cases hm with
  | head => rw [hn] at hy; cases hy; exact Nat.le_refl _
  | tail _ hm => exact ((List.pairwise_cons.1 h3).1 m hm (hp n (by simp)) (hp m (List.mem_cons_of_mem _ hm)) x y hn hy).1

/-- The range of the last node. -/
theorem lst_in {a b : Nat} {l : List Node} {x : NodeRange} (h : c.NdLR a b l) (hp : ∀ n ∈ l, Placed n)
    (hx : Node.rangeLast l = some x) : a ≤ c.lo x ∧ c.lo x ≤ c.hi x ∧ c.hi x ≤ b ∧
    ∀ n ∈ l, ∀ y, n.range = some y → a ≤ c.lo y ∧ c.lo y ≤ c.hi y ∧ c.hi y ≤ c.hi x := by
  obtain ⟨t, n, rfl, hn⟩ := range_lst hx
  obtain ⟨h1, h2, h3⟩ := h
  have i1 := (h2 n (by simp)).2.2.1 (hp n (by simp)) x hn
  refine ⟨i1.1, i1.2.1, i1.2.2, fun m hm y hy => ?_⟩
  have i2 := (h2 m hm).2.2.1 (hp m hm) y hy
  refine ⟨i2.1, i2.2.1, ?_⟩
  rcases List.mem_append.1 hm with hm' | hm'
  · exact ((List.pairwise_append.1 h3).2.2 m hm' n (by simp) (hp m hm) (hp n (by simp)) y x hy hn).2
  · cases List.mem_singleton.1 hm'
    rw [hn] at hy; cases hy; exact Nat.le_refl _

/-- The end of the last node. -/
theorem over_in {a b : Nat} {l : List Node} {x : NodeRange} (h : c.OverR a b l) (hp : ∀ n ∈ l, Placed n)
    (hx : Node.rangeLast l = some x) : a ≤ c.lo x ∧ c.lo x ≤ c.hi x ∧ c.hi x ≤ b ∧
    ∀ n ∈ l, ∀ y, n.range = some y → a ≤ c.lo y ∧ c.lo y ≤ c.hi y ∧ c.hi y ≤ c.hi x := by
  obtain ⟨t, n, rfl, hn⟩ := range_lst hx
  obtain ⟨h1, h2, h3⟩ := h
  have i1 := (h2 n (by simp)).2.2.1 (hp n (by simp)) x hn
  refine ⟨i1.1, i1.2.1, i1.2.2, fun m hm y hy => ?_⟩
  have i2 := (h2 m hm).2.2.1 (hp m hm) y hy
  refine ⟨i2.1, i2.2.1, ?_⟩
  rcases List.mem_append.1 hm with hm' | hm'
  · exact (List.pairwise_append.1 h3).2.2 m hm' n (by simp) (hp m hm) (hp n (by simp)) y x hy hn
  · cases List.mem_singleton.1 hm'
    rw [hn] at hy; cases hy; exact Nat.le_refl _

theorem OverR.le {a b : Nat} {l : List Node} (h : c.OverR a b l) : a ≤ b := h.1
theorem OverR.cov {a b : Nat} {l : List Node} (h : c.OverR a b l) : ∀ n ∈ l, Cov c.le n := fun n hn => (h.2.1 n hn).2.1

grind_pattern over_in => c.OverR a b l, Node.rangeLast l, c.lo x
grind_pattern over_in => c.OverR a b l, Node.rangeLast l, c.hi x
grind_pattern OverR.le => c.OverR a b l
grind_pattern OverR.cov => c.OverR a b l, n ∈ l

theorem nodeR_intro {p q : Nat} {n : Node} (hpq : p ≤ q) (hk : ∀ d ∈ n.children, Cov c.le d) (hin : Placed n → c.In p q n)
    (ho : Fenced n → c.In p q n)
    (hc : ∀ d ∈ n.children, ¬ Gap c.le n d → Placed d → (Fenced n ∨ ∀ d ∈ n.children, Placed d) →
      ∀ r r', n.range = some r → d.range = some r' → c.lo r ≤ c.lo r' ∧ c.hi r' ≤ c.hi r)
    (hn : ∀ k ∈ nameOf n, Firm n → DocInFront c.le n → HasName c.le n k) (hs : FirmBody n → c.In p q n) : c.NdR p q n := by
  refine ⟨hpq, fun m hb => ?_, hin, ho, hs⟩
  cases hb with
  | here =>
    refine ⟨fun hp _ r hr => ?_, hc, hn⟩
    rcases hp with hp | hp
    · exact (hin hp r hr).2.1
    · exact (ho hp r hr).2.1
  | down hd' hb => exact hk _ hd' m hb

def Placeds (l : List Node) : Prop := ∀ n ∈ l, Placed n

theorem nodeR_open {p q : Nat} {n : Node} (hpq : p ≤ q) (hk : ∀ d ∈ n.children, Cov c.le d) (hf : ¬ Fenced n)
    (hc : (∀ d ∈ n.children, Placed d) → ∀ r, n.range = some r → (¬ Odd n → p ≤ c.lo r ∧ c.lo r ≤ c.hi r ∧ c.hi r ≤ q) ∧
      ∀ d ∈ n.children, ¬ Gap c.le n d → ∀ r', d.range = some r' → c.lo r ≤ c.lo r' ∧ c.hi r' ≤ c.hi r)
    (hn : ∀ k ∈ nameOf n, Firm n → DocInFront c.le n → HasName c.le n k := by exact fun _ h => nomatch h)
    (hs : FirmBody n → c.In p q n := by exact fun h => h.elim) : c.NdR p q n :=
  nodeR_intro hpq hk (fun hp r hr => (hc (fun d hd => hp.child hd) r hr).1 hp.odd) (fun h => absurd h hf)
    (fun d hd hg hpd hx r r' hr hr' => (hc (hx.resolve_left hf) r hr).2 d hd hg r' hr') hn hs

theorem nodeR_fenced {p q : Nat} {n : Node} (hpq : p ≤ q) (hk : ∀ d ∈ n.children, Cov c.le d)
    (hc : ∀ r, n.range = some r → (p ≤ c.lo r ∧ c.lo r ≤ c.hi r ∧ c.hi r ≤ q) ∧
      ∀ d ∈ n.children, ¬ Gap c.le n d → Placed d → ∀ r', d.range = some r' → c.lo r ≤ c.lo r' ∧ c.hi r' ≤ c.hi r)
    (hn : ∀ k ∈ nameOf n, Firm n → DocInFront c.le n → HasName c.le n k := by exact fun _ h => nomatch h)
    (hs : FirmBody n → c.In p q n := by exact fun h => h.elim) : c.NdR p q n :=
  nodeR_intro hpq hk (fun hp r hr => (hc r hr).1) (fun _ r hr => (hc r hr).1)
    (fun d hd hg hpd hx r r' hr hr' => (hc r hr).2 d hd hg hpd r' hr') hn hs


theorem NdLR.le {a b : Nat} {l : List Node} (h : c.NdLR a b l) : a ≤ b := h.1
theorem NdLR.cov {a b : Nat} {l : List Node} (h : c.NdLR a b l) : ∀ n ∈ l, Cov c.le n := fun n hn => (h.2.1 n hn).2.1
theorem NdLR.mem {a b : Nat} {l : List Node} {n : Node} {r : NodeRange} (h : c.NdLR a b l) (hn : n ∈ l) (hp : Placed n)
    (hr : n.range = some r) : a ≤ c.lo r ∧ c.lo r ≤ c.hi r ∧ c.hi r ≤ b := (h.2.1 n hn).2.2.1 hp r hr

theorem mem_getD_nil {d : Node} {o : Option (List Node)} : d ∈ o.getD [] ↔ ∃ l, o = some l ∧ d ∈ l := by
  cases o <;> simp

theorem lo_from (a b : NodeRange) : c.lo (a.fromRange b) = c.lo a := rfl
theorem hi_from (a b : NodeRange) : c.hi (a.fromRange b) = c.hi b := rfl
grind_pattern lo_from => c.lo (a.fromRange b)
grind_pattern hi_from => c.hi (a.fromRange b)

theorem fst_lst {a b : Nat} {l : List Node} {x y : NodeRange} (h : c.NdLR a b l) (hp : ∀ n ∈ l, Placed n)
    (hx : Node.rangeFirst l = some x) (hy : Node.rangeLast l = some y) : c.lo x ≤ c.hi y := by
  have h1 := fst_in h hp hx
  obtain ⟨t, n, e, hn⟩ := range_lst hy
  have h2 := h1.2.2.2 n (by rw [e]; simp) y hn
  omega

grind_pattern fst_lst => c.NdLR a b l, Node.rangeFirst l, Node.rangeLast l, c.lo x, c.hi y

theorem orTok_or (a : Option Token) (b : Token) : (∃ k, a = some k ∧ orTok a b = k) ∨ (a = none ∧ orTok a b = b) := by
  cases a <;> simp [orTok]

grind_pattern orTok_or => orTok a b
grind_pattern range_tok => k.range, c.lo x
grind_pattern range_tok => k.range, c.hi x
grind_pattern range_TT => rangeTT a b, c.lo x
grind_pattern range_TT => rangeTT a b, c.hi x
grind_pattern range_TN => rangeTN a b, c.lo x
grind_pattern range_TN => rangeTN a b, c.hi x
grind_pattern range_NN => rangeNN a b, c.lo x
grind_pattern range_NN => rangeNN a b, c.hi x
grind_pattern range_NT => rangeNT a b, c.lo x
grind_pattern range_NT => rangeNT a b, c.hi x
grind_pattern fst_in => c.NdLR a b l, Node.rangeFirst l, c.lo x
grind_pattern fst_in => c.NdLR a b l, Node.rangeFirst l, c.hi x
grind_pattern lst_in => c.NdLR a b l, Node.rangeLast l, c.lo x
grind_pattern lst_in => c.NdLR a b l, Node.rangeLast l, c.hi x
grind_pattern NdLR.le => c.NdLR a b l
grind_pattern NdLR.cov => c.NdLR a b l, n ∈ l
grind_pattern NdLR.mem => c.NdLR a b l, n ∈ l, n.range, c.lo r
grind_pattern NdLR.mem => c.NdLR a b l, n ∈ l, n.range, c.hi r

macro "cov_pre" h:ident : tactic => `(tactic| (
  simp only [SeqR, OkR, NdR, TkR, In, PathR] at $h:ident))

macro "cov_open" h:ident : tactic => `(tactic| (
  cov_pre $h
  refine nodeR_open (by grind) (by simp only [Node.children, Node.childrenO, List.forall_mem_append, List.forall_mem_cons, List.not_mem_nil, Option.mem_toList, Option.mem_def, mem_getD_nil]; grind) (by simp [Fenced]) ?_
  simp only [Node.children, Node.childrenO, Node.range, Option.bind_eq_bind, Option.pure_def, Option.bind_eq_some_iff, Node.rangeO, Odd, Gap, InFront, List.forall_mem_append, List.forall_mem_cons, List.not_mem_nil, Option.mem_toList, Option.mem_def, mem_getD_nil, List.mem_cons, List.mem_append]
  intro hpl r hr
  grind))

theorem hasName {n : Node} {k : Token} (h : ∀ r, n.range = some r → c.lo r ≤ c.st k ∧ c.en k ≤ c.hi r) : HasName c.le n k :=
  fun r r' hr hr' => by
    obtain ⟨h1, h2⟩ := range_tok (c := c) hr'
    show c.lo r ≤ c.lo r' ∧ c.hi r' ≤ c.hi r
    rw [h1, h2]
    exact h r hr

macro "cov_name" : tactic => `(tactic| (
  intro k hk hf hd
  simp only [nameOf, Option.mem_def, Option.some.injEq] at hk
  subst hk
  refine hasName fun r hr => ?_
  simp only [Node.range, Node.rangeO, Option.bind_eq_bind, Option.pure_def, Option.bind_eq_some_iff] at hr
  simp only [Firm, Option.mem_def] at hf
  grind))

macro "cov_named" h:ident : tactic => `(tactic| (
  cov_pre $h
  refine nodeR_open (by grind) (by simp only [Node.children, Node.childrenO, List.forall_mem_append, List.forall_mem_cons, List.not_mem_nil, Option.mem_toList, Option.mem_def, mem_getD_nil]; grind) (by simp [Fenced]) ?_ ?_
  · simp only [Node.children, Node.childrenO, Node.range, Option.bind_eq_bind, Option.pure_def, Option.bind_eq_some_iff, Node.rangeO, Odd, Gap, InFront, List.forall_mem_append, List.forall_mem_cons, List.not_mem_nil, Option.mem_toList, Option.mem_def, mem_getD_nil, List.mem_cons, List.mem_append]
    intro hpl r hr
    grind
  · cov_name))

macro "cov_fenced" h:ident : tactic => `(tactic| (
  cov_pre $h
  refine nodeR_fenced (by grind) (by simp only [Node.children, Node.childrenO, List.forall_mem_append, List.forall_mem_cons, List.not_mem_nil, Option.mem_toList, Option.mem_def, mem_getD_nil]; grind) ?_
  simp only [Node.children, Node.childrenO, Node.range, Option.bind_eq_bind, Option.pure_def, Option.bind_eq_some_iff, Odd, Gap, InFront, List.forall_mem_append, List.forall_mem_cons, List.not_mem_nil, Option.mem_toList, Option.mem_def, mem_getD_nil, List.mem_cons, List.mem_append]
  intro r hr
  grind))

theorem part_unary {P Q : Nat} {e k} (h : c.SeqR P Q [.tok k, .node e]) :
    c.NdR P Q (.unary e k) := by
  cov_open h

theorem part_postUnary {P Q : Nat} {e k} (h : c.SeqR P Q [.node e, .tok k]) :
    c.NdR P Q (.postUnary e k) := by
  cov_open h

theorem part_const {P Q : Nat} {n t v} (h : c.SeqR P Q [.tok n, .tok t, .node v]) :
    c.NdR P Q (.const n t v) := by
  cov_open h

theorem part_binary {P Q : Nat} {l k r} (h : c.SeqR P Q [.node l, .tok k, .node r]) :
    c.NdR P Q (.binary l k r) := by
  cov_open h

theorem part_ternary {P Q : Nat} {cd q t co f} (h : c.SeqR P Q [.node cd, .tok q, .onode t, .tok co, .node f]) :
    c.NdR P Q (.ternary cd q t co f) := by
  cov_open h

theorem part_literal {P Q : Nat} {k} (h : c.SeqR P Q [.tok k]) :
    c.NdR P Q (.literal k) := by
  cov_open h

theorem part_variable {P Q : Nat} {k} (h : c.SeqR P Q [.tok k]) :
    c.NdR P Q (.variable k) := by
  cov_open h

theorem part_missing {P Q : Nat} {k} (h : c.SeqR P Q [.tok k]) :
    c.NdR P Q (.missing k) := by
  cov_open h

theorem part_lexicalVariable {P Q : Nat} {r v} (h : c.SeqR P Q [.otok r, .tok v]) :
    c.NdR P Q (.lexicalVariable r v) := by
  cov_open h

theorem part_aliasedVariable {P Q : Nat} {v e} (h : c.SeqR P Q [.tok v, .node e]) :
    c.NdR P Q (.aliasedVariable v e) := by
  cov_open h

theorem part_dynamicVariable {P Q : Nat} {v oc e cc} (h : c.SeqR P Q [.tok v, .tok oc, .node e, .tok cc]) :
    c.NdR P Q (.dynamicVariable v oc e cc) := by
  cov_open h

theorem part_staticVariable {P Q : Nat} {v a e} (h : c.SeqR P Q [.tok v, .otok a, .onode e]) :
    c.NdR P Q (.staticVariable v a e) := by
  rcases e with _ | e
  all_goals (cov_open h)

theorem part_grouping {P Q : Nat} {e} (h : c.SeqR P Q [.node e]) :
    c.NdR P Q (.grouping e) := by
  cov_open h

theorem part_array {P Q : Nat} {ob l cb} (h : c.SeqR P Q [.tok ob, .list l, .tok cb]) :
    c.NdR P Q (.array ob l cb) := by
  cov_fenced h

theorem part_oldArray {P Q : Nat} {t op l cp} (h : c.SeqR P Q [.tok t, .tok op, .list l, .tok cp]) :
    c.NdR P Q (.oldArray t op l cp) := by
  cov_fenced h

theorem part_list {P Q : Nat} {t op l cp} (h : c.SeqR P Q [.tok t, .tok op, .list l, .tok cp]) :
    c.NdR P Q (.list t op l cp) := by
  cov_fenced h

theorem part_arrayElement {P Q : Nat} {k a v} (h : c.SeqR P Q [.onode k, .otok a, .node v]) :
    c.NdR P Q (.arrayElement k a v) := by
  rcases k with _ | k
  all_goals (cov_open h)

theorem part_call {P Q : Nat} {cd op ps cp} (h : c.SeqR P Q [.node cd, .tok op, .list ps, .tok cp]) :
    c.NdR P Q (.call cd op ps cp) := by
  cov_open h

theorem part_isset {P Q : Nat} {t op ps cp} (h : c.SeqR P Q [.tok t, .tok op, .list ps, .tok cp]) :
    c.NdR P Q (.isset t op ps cp) := by
  cov_fenced h

theorem part_emptyExpr {P Q : Nat} {t op ps cp} (h : c.SeqR P Q [.tok t, .tok op, .list ps, .tok cp]) :
    c.NdR P Q (.emptyExpr t op ps cp) := by
  cov_fenced h

theorem part_exitExpr0 {P Q : Nat} {t} (h : c.SeqR P Q [.tok t]) :
    c.NdR P Q (.exitExpr t none none none) := by
  cov_open h

theorem part_exitExpr {P Q : Nat} {t op ps cp} (h : c.SeqR P Q [.tok t, .tok op, .list ps, .tok cp]) :
    c.NdR P Q (.exitExpr t (some op) (some ps) (some cp)) := by
  cov_open h

theorem part_newExpr {P Q : Nat} {t cd} (h : c.SeqR P Q [.tok t, .node cd]) :
    c.NdR P Q (.newExpr t cd) := by
  cov_open h

theorem part_member {P Q : Nat} {o a oc m cc} (h : c.SeqR P Q [.node o, .tok a, .otok oc, .node m, .otok cc]) :
    c.NdR P Q (.member o a oc m cc) := by
  cov_open h

theorem part_staticMember {P Q : Nat} {o a oc m cc} (h : c.SeqR P Q [.node o, .tok a, .otok oc, .node m, .otok cc]) :
    c.NdR P Q (.staticMember o a oc m cc) := by
  rcases cc with _ | cc
  all_goals (cov_open h)

theorem part_field {P Q : Nat} {a ob i cb} (h : c.SeqR P Q [.node a, .tok ob, .onode i, .tok cb]) :
    c.NdR P Q (.field a ob i cb) := by
  cov_open h

theorem part_matchExpr {P Q : Nat} {m oc op cd cp b cc} (h : c.SeqR P Q [.tok m, .tok op, .node cd, .tok cp, .tok oc, .list b, .tok cc]) :
    c.NdR P Q (.matchExpr m oc op cd cp b cc) := by
  cov_fenced h

theorem part_matchArm {P Q : Nat} {ps a e} (h : c.SeqR P Q [.olist ps, .tok a, .node e]) :
    c.NdR P Q (.matchArm ps a e) := by
  rcases ps with _ | ps
  all_goals (cov_open h)

theorem part_closure {P Q : Nat} {st br t op as cp us rt b u1} (h : c.SeqR P Q [.otok st, .tok t, .otok br, .tok op, .olist as, .tok cp, .olist us, .onode rt, .node b]) :
    c.NdR P Q (.closure st br t op as cp us rt b u1) := by
  cov_open h

theorem part_arrowFunction {P Q : Nat} {st br t op as cp arrow rt b u1} (h : c.SeqR P Q [.otok st, .tok t, .otok br, .tok op, .olist as, .tok cp, .onode rt, .tok arrow, .node b]) :
    c.NdR P Q (.arrowFunction st br t op as cp arrow rt b u1) := by
  cov_named h

theorem part_namedParameter {P Q : Nat} {n co e} (h : c.SeqR P Q [.tok n, .tok co, .node e]) :
    c.NdR P Q (.namedParameter n co e) := by
  cov_open h

theorem part_functionArgument {P Q : Nat} {ty n a d sp rf u1 u2} (h : c.SeqR P Q [.onode ty, .otok rf, .otok sp, .tok n, .otok a, .onode d]) :
    c.NdR P Q (.functionArgument ty n a d sp rf u1 u2) := by
  rcases ty with _ | ty <;> rcases d with _ | d <;> rcases rf with _ | rf
  all_goals (cov_named h)

theorem part_returnType {P Q : Nat} {co d} (h : c.SeqR P Q [.tok co, .plain d]) :
    c.NdR P Q (.returnType co d) := by
  cov_open h

theorem part_anonClass {P Q : Nat} {t as e i b u1} (h : c.SeqR P Q [.tok t, .olist as, .onode e, .olist i, .node b]) :
    c.NdR P Q (.anonClass t as e i b u1) := by
  cov_open h

theorem part_yieldExpr {P Q : Nat} {t e} (h : c.SeqR P Q [.tok t, .onode e]) :
    c.NdR P Q (.yieldExpr t e) := by
  rcases e with _ | e
  all_goals (cov_open h)

theorem part_yieldFrom {P Q : Nat} {t e} (h : c.SeqR P Q [.tok t, .node e]) :
    c.NdR P Q (.yieldFrom t e) := by
  cov_open h

theorem part_fileInclude {P Q : Nat} {t e} (h : c.SeqR P Q [.tok t, .node e]) :
    c.NdR P Q (.fileInclude t e) := by
  cov_open h

theorem part_useDeclaration {P Q : Nat} {t d al a} (h : c.SeqR P Q [.otok t, .plain d, .otok al, .otok a]) :
    c.NdR P Q (.useDeclaration t d al a) := by
  rcases t with _ | t <;> rcases a with _ | a
  all_goals (cov_open h)

theorem part_useConst {P Q : Nat} {t d al a} (h : c.SeqR P Q [.otok t, .plain d, .otok al, .otok a]) :
    c.NdR P Q (.useConst t d al a) := by
  rcases t with _ | t <;> rcases a with _ | a
  all_goals (cov_open h)

theorem part_useFunction {P Q : Nat} {t d al a} (h : c.SeqR P Q [.otok t, .plain d, .otok al, .otok a]) :
    c.NdR P Q (.useFunction t d al a) := by
  rcases t with _ | t <;> rcases a with _ | a
  all_goals (cov_open h)

theorem part_groupedUse {P Q : Nat} {t p oc u1 cc} (h : c.SeqR P Q [.tok t, .plain p, .tok oc, .tok cc]) :
    c.NdR P Q (.groupedUse t p oc u1 cc) := by
  cov_open h

theorem part_expressionStatement {P Q : Nat} {e} (h : c.SeqR P Q [.node e]) :
    c.NdR P Q (.expressionStatement e) := by
  cov_open h

theorem part_echoStatement {P Q : Nat} {t l} (h : c.SeqR P Q [.tok t, .list l]) :
    c.NdR P Q (.echoStatement t l) := by
  cov_open h

theorem part_constStatement {P Q : Nat} {t l} (h : c.SeqR P Q [.tok t, .list l]) :
    c.NdR P Q (.constStatement t l) := by
  cov_open h

theorem part_printStatement {P Q : Nat} {t l} (h : c.SeqR P Q [.tok t, .list l]) :
    c.NdR P Q (.printStatement t l) := by
  cov_open h

theorem part_gotoStatement {P Q : Nat} {t l} (h : c.SeqR P Q [.tok t, .tok l]) :
    c.NdR P Q (.gotoStatement t l) := by
  cov_open h

theorem part_labelStatement {P Q : Nat} {l co} (h : c.SeqR P Q [.tok l, .tok co]) :
    c.NdR P Q (.labelStatement l co) := by
  cov_open h

theorem part_throwStatement {P Q : Nat} {t e} (h : c.SeqR P Q [.tok t, .node e]) :
    c.NdR P Q (.throwStatement t e) := by
  cov_open h

theorem part_declareStatement {P Q : Nat} {u1 u2 u3 u4 cp t} (h : c.SeqR P Q [.tok t, .tok cp]) :
    c.NdR P Q (.declareStatement u1 u2 u3 u4 cp t) := by
  cov_open h

theorem placed_literal (k : Token) : Placed (.literal k) := by
  intro m hm
  cases hm with
  | here => exact id
  | down hc _ => cases hc

theorem part_defineStatement {P Q : Nat} {n u2 u3 cp t u4} (h : c.SeqR P Q [.tok t, .node n, .tok cp]) :
    c.NdR P Q (.defineStatement n u2 u3 cp t u4) := by
  cov_pre h
  refine nodeR_open (by grind) (by simp only [Node.children, Node.childrenO, List.forall_mem_append, List.forall_mem_cons, List.not_mem_nil, Option.mem_toList, Option.mem_def, mem_getD_nil]; grind) (by simp [Fenced]) ?_ ?_
  · simp only [Node.children, Node.childrenO, Node.range, Option.bind_eq_bind, Option.pure_def, Option.bind_eq_some_iff, Node.rangeO, Odd, Gap, InFront, List.forall_mem_append, List.forall_mem_cons, List.not_mem_nil, Option.mem_toList, Option.mem_def, mem_getD_nil, List.mem_cons, List.mem_append]
    intro hpl r hr
    grind
  · intro k hk hf hd
    cases n with
    | literal k' =>
      cases hk
      intro r r' hr hr'
      have hr : rangeTT t cp = some r := hr
      have hr' : (Node.literal k).range = some r' := hr'
      have := placed_literal k
      show c.lo r ≤ c.lo r' ∧ c.hi r' ≤ c.hi r
      grind
    | _ => cases hk

theorem part_unsetStatement {P Q : Nat} {t op l cp} (h : c.SeqR P Q [.tok t, .tok op, .list l, .tok cp]) :
    c.NdR P Q (.unsetStatement t op l cp) := by
  cov_fenced h

theorem part_returnStatement {P Q : Nat} {t e} (h : c.SeqR P Q [.tok t, .onode e]) :
    c.NdR P Q (.returnStatement t e) := by
  rcases e with _ | e
  all_goals (cov_open h)

theorem part_namespaceStatement {P Q : Nat} {t n} (h : c.SeqR P Q [.tok t, .node n]) :
    c.NdR P Q (.namespaceStatement t n) := by
  cov_open h

theorem part_namespaceBlock {P Q : Nat} {t ty b} (h : c.SeqR P Q [.tok t, .onode ty, .node b]) :
    c.NdR P Q (.namespaceBlock t ty b) := by
  cov_open h

theorem part_useStatement {P Q : Nat} {t l} (h : c.SeqR P Q [.over t l]) :
    c.NdR P Q (.useStatement t l) := by
  cov_open h

theorem part_useFunctionStatement {P Q : Nat} {t l} (h : c.SeqR P Q [.over t l]) :
    c.NdR P Q (.useFunctionStatement t l) := by
  cov_open h

theorem part_useConstStatement {P Q : Nat} {t l} (h : c.SeqR P Q [.over t l]) :
    c.NdR P Q (.useConstStatement t l) := by
  cov_open h

theorem part_useTraitStatement {P Q : Nat} {t l} (h : c.SeqR P Q [.tok t, .list l]) :
    c.NdR P Q (.useTraitStatement t l) := by
  cov_open h

theorem part_useTrait {P Q : Nat} {n} (h : c.SeqR P Q [.plain n]) :
    c.NdR P Q (.useTrait n) := by
  cov_open h

theorem part_useTraitAlterationBlock {P Q : Nat} {u1 oc u2 cc} (h : c.SeqR P Q [.tok oc, .tok cc]) :
    c.NdR P Q (.useTraitAlterationBlock u1 oc u2 cc) := by
  cov_open h

theorem part_useTraitInsteadOf {P Q : Nat} {l p m k is} (h : c.SeqR P Q [.oplain l, .otok p, .plain m, .tok k, .plains is]) :
    c.NdR P Q (.useTraitInsteadOf l p m k is) := by
  rcases l with _ | l
  all_goals (cov_open h)

theorem part_useTraitAs {P Q : Nat} {l p m k v a} (h : c.SeqR P Q [.oplain l, .otok p, .plain m, .tok k, .otok v, .otok a]) :
    c.NdR P Q (.useTraitAs l p m k v a) := by
  rcases l with _ | l <;> rcases v with _ | v <;> rcases a with _ | a
  all_goals (cov_open h)

theorem part_traitStatement {P Q : Nat} {t n b u1} (h : c.SeqR P Q [.tok t, .tok n, .node b]) :
    c.NdR P Q (.traitStatement t n b u1) := by
  cov_named h

theorem part_interface {P Q : Nat} {t n e b u1} (h : c.SeqR P Q [.tok t, .tok n, .olist e, .node b]) :
    c.NdR P Q (.interface t n e b u1) := by
  cov_named h

theorem part_classConstant {P Q : Nat} {u1 n e} (h : c.SeqR P Q [.tok n, .node e]) :
    c.NdR P Q (.classConstant u1 n e) := by
  cov_open h

theorem part_property {P Q : Nat} {n v} (h : c.SeqR P Q [.tok n, .onode v]) :
    c.NdR P Q (.property n v) := by
  rcases v with _ | v
  all_goals (cov_open h)

theorem part_methodDefinitionStatement {P Q : Nat} {t fi br n vi ab f u1 u2 u3} (h : c.SeqR P Q [.otok ab, .otok fi, .otok vi, .tok t, .otok br, .tok n, .node f]) (hl : ∀ d ∈ (.methodDefinitionStatement t fi br n vi ab f u1 u2 u3 : Node).loose, Cov c.le d) :
    c.NdR P Q (.methodDefinitionStatement t fi br n vi ab f u1 u2 u3) := by
  simp only [Node.loose] at hl
  cov_named h

theorem part_functionDefinitionStatement {P Q : Nat} {op as cp rt b u1} (h : c.SeqR P Q [.tok op, .olist as, .tok cp, .onode rt, .onode b]) :
    c.NdR P Q (.functionDefinitionStatement op as cp rt b u1) := by
  rcases rt with _ | rt <;> rcases b with _ | b
  all_goals (
    cov_pre h
    refine nodeR_open (by grind) (by simp only [Node.children, Node.childrenO, List.forall_mem_append, List.forall_mem_cons, List.not_mem_nil, Option.mem_toList, Option.mem_def, mem_getD_nil]; grind) (by simp [Fenced]) ?_ (fun _ h => nomatch h) ?_
    · simp only [Node.children, Node.childrenO, Node.range, Option.bind_eq_bind, Option.pure_def, Option.bind_eq_some_iff, Node.rangeO, Odd, Gap, InFront, List.forall_mem_append, List.forall_mem_cons, List.not_mem_nil, Option.mem_toList, Option.mem_def, mem_getD_nil, List.mem_cons, List.mem_append]
      intro hpl r hr
      grind
    · simp only [FirmBody, In, Node.range]
      intro hf r hr
      grind)

theorem part_namedFunctionDefinitionStatement {P Q : Nat} {t br n f u1} (h : c.SeqR P Q [.tok t, .otok br, .tok n, .node f]) (hl : ∀ d ∈ (.namedFunctionDefinitionStatement t br n f u1 : Node).loose, Cov c.le d) :
    c.NdR P Q (.namedFunctionDefinitionStatement t br n f u1) := by
  simp only [Node.loose] at hl
  cov_named h

theorem part_whileStatement {P Q : Nat} {t op e cp b} (h : c.SeqR P Q [.tok t, .tok op, .node e, .tok cp, .node b]) :
    c.NdR P Q (.whileStatement t op e cp b) := by
  cov_open h

theorem part_doWhileStatement {P Q : Nat} {t op cp wt e b} (h : c.SeqR P Q [.tok t, .node b, .tok wt, .tok op, .node e, .tok cp]) :
    c.NdR P Q (.doWhileStatement t op cp wt e b) := by
  cov_fenced h

theorem part_forStatement {P Q : Nat} {t i e s b} (h : c.SeqR P Q [.tok t, .list i, .list e, .list s, .node b]) :
    c.NdR P Q (.forStatement t i e s b) := by
  cov_open h

theorem part_forEachStatement {P Q : Nat} {t op e as kv cp b} (h : c.SeqR P Q [.tok t, .tok op, .node e, .tok as, .node kv, .tok cp, .node b]) :
    c.NdR P Q (.forEachStatement t op e as kv cp b) := by
  cov_open h

theorem part_block {P Q : Nat} {oc l cc} (h : c.SeqR P Q [.tok oc, .list l, .tok cc]) :
    c.NdR P Q (.block oc l cc) := by
  cov_fenced h

theorem part_alternativeBlock {P Q : Nat} {co l t} (h : c.SeqR P Q [.tok co, .list l, .tok t]) :
    c.NdR P Q (.alternativeBlock co l t) := by
  cov_fenced h

theorem part_ifBranch {P Q : Nat} {t op e cp b} (h : c.SeqR P Q [.tok t, .tok op, .node e, .tok cp, .node b]) :
    c.NdR P Q (.ifBranch t op e cp b) := by
  cov_open h

theorem part_elseBranch {P Q : Nat} {t b} (h : c.SeqR P Q [.tok t, .node b]) :
    c.NdR P Q (.elseBranch t b) := by
  cov_open h

theorem part_switchCase {P Q : Nat} {t op e cp b} (h : c.SeqR P Q [.tok t, .tok op, .node e, .tok cp, .node b]) :
    c.NdR P Q (.switchCase t op e cp b) := by
  cov_open h

theorem part_switchBody {P Q : Nat} {s bs e} (h : c.SeqR P Q [.tok s, .list bs, .tok e]) :
    c.NdR P Q (.switchBody s bs e) := by
  cov_fenced h

theorem part_tokenStatement {P Q : Nat} {t e} (h : c.SeqR P Q [.tok t, .onode e]) :
    c.NdR P Q (.tokenStatement t e) := by
  rcases e with _ | e
  all_goals (cov_open h)

theorem part_catchBlock {P Q : Nat} {t op ts v cp b} (h : c.SeqR P Q [.tok t, .tok op, .tok v, .tok cp, .node b]) :
    c.NdR P Q (.catchBlock t op ts v cp b) := by
  cov_open h

theorem part_finallyBlock {P Q : Nat} {t b} (h : c.SeqR P Q [.tok t, .node b]) :
    c.NdR P Q (.finallyBlock t b) := by
  cov_open h

theorem part_staticVariablesStatement {P Q : Nat} {t l} (h : c.SeqR P Q [.tok t, .list l]) :
    c.NdR P Q (.staticVariablesStatement t l) := by
  cov_open h

theorem part_globalVariablesStatement {P Q : Nat} {t l} (h : c.SeqR P Q [.tok t, .list l]) :
    c.NdR P Q (.globalVariablesStatement t l) := by
  cov_open h

theorem part_inlineHtml {P Q : Nat} {u1 u2} (h : c.SeqR P Q []) :
    c.NdR P Q (.inlineHtml u1 u2) := by
  cov_open h

theorem part_attr {P Q : Nat} {a l cb} (h : c.SeqR P Q [.tok a, .list l, .tok cb]) :
    c.NdR P Q (.attr a l cb) := by
  cov_open h

theorem part_emptyScript {P Q : Nat} (h : c.SeqR P Q []) :
    c.NdR P Q (.emptyScript) := by
  cov_open h

theorem part_docCommentVar {P Q : Nat} {u1 u2 u3} (h : c.SeqR P Q []) :
    c.NdR P Q (.docCommentVar u1 u2 u3) := by
  cov_open h

theorem span_in {a b : Nat} {l : List Node} {r : NodeRange} (h : c.NdLR a b l) (hp : ∀ n ∈ l, Placed n)
    (hr : rangeNN (Node.rangeFirst l) (Node.rangeLast l) = some r) : a ≤ c.lo r ∧ c.lo r ≤ c.hi r ∧ c.hi r ≤ b ∧
    ∀ n ∈ l, ∀ y, n.range = some y → c.lo r ≤ c.lo y ∧ c.hi y ≤ c.hi r := by
  obtain ⟨x, y, h1, h2, e1, e2⟩ := range_NN (c := c) hr
  have f := fst_in h hp h1
  have g := lst_in h hp h2
  have k := fst_lst h hp h1 h2
  refine ⟨by omega, by omega, by omega, fun n hn z hz => ?_⟩
  have := f.2.2.2 n hn z hz
  have := g.2.2.2 n hn z hz
  omega

theorem Cov.child {le : ColLine → ColLine → Prop} {n d : Node} (h : Cov le n) (hd : d ∈ n.children) : Cov le d :=
  fun m hm => h m (.down hd hm)

theorem path_in {a b : Nat} {t : TypeRef} {r : NodeRange} (h : c.PathR a b t.kind) (hr : t.range = some r) :
    a ≤ c.lo r ∧ c.lo r ≤ c.hi r ∧ c.hi r ≤ b := by
  unfold TypeRef.range at hr
  simp only [Option.bind_eq_bind, Option.pure_def, Option.bind_eq_some_iff, Option.some.injEq] at hr
  obtain ⟨k, hk, k', hk', x, hx, y, hy, rfl⟩ := hr
  have ex := range_tok (c := c) hx
  have ey := range_tok (c := c) hy
  obtain ⟨_, h2, h3⟩ := h
  have i := h2 k (List.mem_of_mem_head? hk)
  have i' := h2 k' (List.mem_of_getLast? hk')
  unfold TkR at i i'
  rw [lo_from, hi_from]
  suffices c.st k ≤ c.en k' by omega
  cases ht : t.kind with
  | nil => rw [ht] at hk; cases hk
  | cons u v =>
    rw [ht] at hk hk' h3
    cases hk
    cases v with
    | nil => cases hk'; exact i.2.1
    | cons w v =>
      have hm : k' ∈ w :: v := by
        rw [List.getLast?_cons_cons] at hk'
        exact List.mem_of_getLast? hk'
      have : c.en k ≤ c.st k' := (List.pairwise_cons.1 h3).1 k' hm
      omega

theorem NdR.widen {a b p q : Nat} {n : Node} (h : c.NdR a b n) (h1 : p ≤ a) (h2 : b ≤ q) : c.NdR p q n := by
  have := h.1
  refine ⟨by omega, h.2.1, fun hp r hr => ?_, fun hp r hr => ?_, fun hp r hr => ?_⟩
  · have := h.2.2.1 hp r hr
    omega
  · have := h.2.2.2.1 hp r hr
    omega
  · have := h.2.2.2.2 hp r hr
    omega

theorem before_of {a b a' b' : Nat} {n m : Node} (h : c.NdR a b n) (h' : c.NdR a' b' m) (hb : b ≤ a') : c.Before n m := by
  intro hn hm r r' hr hr'
  have := h.2.2.1 hn r hr
  have := h'.2.2.1 hm r' hr'
  omega

theorem part_dataType {P Q : Nat} {q ts} (h : c.SeqR P Q [.otok q, .list ts]) :
    c.NdR P Q (.dataType q ts) := by
  rcases q with _ | q
  · simp only [SeqR, OkR] at h
    obtain ⟨a, b, h1, h2, a', b', h3, h4, h5⟩ := h
    have hab := h4.le
    have hq := h2.1
    refine nodeR_open (by omega) (by simpa only [Node.children] using h4.cov) (by simp [Fenced]) ?_
    simp only [Node.children, Node.range, Odd, Gap]
    intro hpl r hr
    obtain ⟨i1, i2, i3, i4⟩ := span_in h4 hpl hr
    exact ⟨fun _ => ⟨by omega, i2, by omega⟩, fun d hd _ => i4 d hd⟩
  · cov_open h

theorem part_typeRef {P Q : Nat} {t} (h : c.SeqR P Q [.path t.kind]) :
    c.NdR P Q (.typeRef t) := by
  simp only [SeqR, OkR] at h
  obtain ⟨a, b, h1, h2, h3⟩ := h
  have hab := h2.1
  refine nodeR_open (by omega) (by simp [Node.children]) (by simp [Fenced]) ?_
  simp only [Node.children, Node.range, Odd, Gap]
  intro hpl r hr
  obtain ⟨i1, i2, i3⟩ := path_in h2 hr
  exact ⟨fun _ => ⟨by omega, i2, by omega⟩, fun d hd => nomatch hd⟩

theorem part_dieStatement {P Q : Nat} {t op e cp} (h : c.SeqR P Q [.tok t, .tok op, .onode e, .tok cp]) :
    c.NdR P Q (.dieStatement t op e cp) := by
  cov_pre h
  refine nodeR_open (by grind) ?_ (by simp [Fenced]) ?_
  · intro d hd
    rcases e with _ | e
    · cases hd
    · exact Cov.child (by grind) (show d ∈ e.children from hd)
  · intro hpl r hr
    have hr : rangeTT t cp = some r := hr
    refine ⟨fun _ => by grind, fun d hd hg => absurd trivial hg⟩

theorem part_classStatement {P Q : Nat} {t n ab fi im ex b u1 u2}
    (h : c.SeqR P Q [.otok ab, .otok fi, .tok t, .tok n, .onode ex, .olist im, .node b])
    (hl : ∀ d ∈ (.classStatement t n ab fi im ex b u1 u2 : Node).loose, Cov c.le d) :
    c.NdR P Q (.classStatement t n ab fi im ex b u1 u2) := by
  rcases u1 with _ | d
  all_goals simp only [Node.loose] at hl
  · cov_named h
  · cov_pre h
    refine nodeR_open (by grind) ?_ (by simp [Fenced]) ?_ ?_
    · simp only [Node.children, List.forall_mem_append, List.forall_mem_cons, List.not_mem_nil, Option.mem_toList,
        Option.mem_def, mem_getD_nil] at hl ⊢
      grind
    · simp only [Node.children, Node.range, Odd, Gap, List.forall_mem_append, List.forall_mem_cons, List.not_mem_nil,
        List.mem_cons, List.mem_append, Option.mem_toList, Option.mem_def, mem_getD_nil, Classical.not_not]
      intro hpl r hr
      refine ⟨fun hx => absurd trivial hx, ?_⟩
      intro d' hd' ⟨x, hx, hx1, hx2⟩
      have hx1 : c.lo x ≤ c.hi x := hx1
      have hx2 : c.hi x ≤ c.st t := hx2
      grind
    · intro k hk hf ⟨x, hx, hx1, hx2⟩
      have hx1 : c.lo x ≤ c.hi x := hx1
      have hx2 : c.hi x ≤ c.st t := hx2
      simp only [nameOf, Option.mem_def, Option.some.injEq] at hk
      subst hk
      refine hasName fun r hr => ?_
      simp only [Node.range] at hr
      simp only [Firm] at hf
      grind

theorem part_classConstantDefinitionStatement {P Q : Nat} {t cs u1 u2 u3} (h : c.SeqR P Q [.tok t, .list cs])
    (hl : ∀ d ∈ (.classConstantDefinitionStatement t cs u1 u2 u3 : Node).loose, Cov c.le d) :
    c.NdR P Q (.classConstantDefinitionStatement t cs u1 u2 u3) := by
  simp only [Node.loose] at hl
  simp only [SeqR, OkR, TkR] at h
  obtain ⟨a, b, h1, h2, a', b', h3, h4, h5⟩ := h
  have hab := h4.le
  refine nodeR_open (by omega) (by simpa only [Node.children, List.forall_mem_append] using ⟨h4.cov, hl⟩) (by simp [Fenced]) ?_
  simp only [Node.children, Node.range, Odd, Gap, List.forall_mem_append]
  intro hpl r hr
  obtain ⟨i1, i2, i3, i4⟩ := span_in h4 hpl.1 hr
  exact ⟨fun _ => ⟨by omega, i2, by omega⟩, fun d hd _ => i4 d hd, fun d hd hn => absurd hd hn⟩

theorem part_propertyDefinitionStatement {P Q : Nat} {ps u1 u2 ty u3 u4 u5} (h : c.SeqR P Q [.onode ty, .list ps])
    (hl : ∀ d ∈ (.propertyDefinitionStatement ps u1 u2 ty u3 u4 u5 : Node).loose, Cov c.le d) :
    c.NdR P Q (.propertyDefinitionStatement ps u1 u2 ty u3 u4 u5) := by
  simp only [Node.loose] at hl
  rcases ty with _ | ty
  · simp only [SeqR, OkR] at h
    obtain ⟨a, b, h1, h2, a', b', h3, h4, h5⟩ := h
    have hab := h4.le
    have hx := h2.1
    refine nodeR_open (by omega) (by simpa only [Node.children, List.forall_mem_append, Option.toList, List.nil_append] using ⟨h4.cov, hl⟩)
      (by simp [Fenced]) ?_
    simp only [Node.children, Node.range, Odd, Gap, List.forall_mem_append, Option.toList, List.nil_append]
    intro hpl r hr
    obtain ⟨i1, i2, i3, i4⟩ := span_in h4 hpl.1 hr
    exact ⟨fun _ => ⟨by omega, i2, by omega⟩, fun d hd _ => i4 d hd, fun d hd hn => absurd hd hn⟩
  · cov_open h

/-- An `if` whose branches are in order. -/
theorem if_of_list {P Q : Nat} {i es e} (h : c.NdLR P Q (i :: (es ++ Option.toList e))) : c.NdR P Q (.ifStatement i es e) := by
  have hr : ∀ r, (Node.ifStatement i es e).range = some r → rangeNN (Node.rangeFirst (i :: (es ++ e.toList)))
      (Node.rangeLast (i :: (es ++ e.toList))) = some r := by
    intro r hr
    have key : ∀ (l : List Node) (x : Node), Node.rangeLast (l ++ [x]) = x.range := by
      intro l x
      induction l with
      | nil => rfl
      | cons y l ih =>
        rw [List.cons_append, Node.rangeLast, ih]
        cases x.range <;> simp
    have key' : ∀ (l : List Node) (x y : Node), Node.rangeLast (y :: x :: l) = Node.rangeLast (x :: l) := by
      intro l x y
      rw [Node.rangeLast]
      cases Node.rangeLast (x :: l) <;> simp
    rcases e with _ | e
    · rcases es with _ | ⟨e0, es⟩
      · have hr : i.range = some r := hr
        show rangeNN i.range (Node.rangeLast [i]) = some r
        rw [show Node.rangeLast [i] = i.range from key [] i, hr]
        rfl
      · have hr : rangeNN i.range (Node.rangeLast (e0 :: es)) = some r := hr
        show rangeNN i.range (Node.rangeLast (i :: (e0 :: es ++ []))) = some r
        rw [List.append_nil, key', hr]
    · have hr : rangeNN i.range e.range = some r := hr
      show rangeNN i.range (Node.rangeLast ((i :: es) ++ [e])) = some r
      rw [key, hr]
  refine nodeR_open h.le (by simpa only [Node.children] using h.cov) (by simp [Fenced]) ?_
  intro hpl r hx
  obtain ⟨i1, i2, i3, i4⟩ := span_in h hpl (hr r hx)
  exact ⟨fun _ => ⟨i1, i2, i3⟩, fun d hd _ => i4 d hd⟩

theorem part_ifStatement {P Q : Nat} {i es e} (h : c.SeqR P Q [.node i, .list es, .onode e]) :
    c.NdR P Q (.ifStatement i es e) := by
  simp only [SeqR, OkR] at h
  obtain ⟨a, b, h1, h2, a', b', h5, h6, a'', b'', h7, h8, h9⟩ := h
  have g2 := h2.1
  have g6 := h6.1
  have g8 := h8.1
  refine if_of_list ⟨by omega, ?_, ?_⟩
  · intro n hn
    rcases List.mem_cons.1 hn with rfl | hn
    · exact h2.widen (by omega) (by omega)
    · rcases List.mem_append.1 hn with hn | hn
      · exact (h6.2.1 n hn).widen (by omega) (by omega)
      · exact (h8.2 n (by simpa using hn)).widen (by omega) (by omega)
  · refine List.pairwise_cons.2 ⟨fun n hn => ?_, List.pairwise_append.2 ⟨h6.2.2, ?_, fun n hn m hm => ?_⟩⟩
    · rcases List.mem_append.1 hn with hn | hn
      · exact before_of h2 (h6.2.1 n hn) (by omega)
      · exact before_of h2 (h8.2 n (by simpa using hn)) (by omega)
    · cases e <;> simp
    · exact before_of (h6.2.1 n hn) (h8.2 m (by simpa using hm)) (by omega)

theorem part_switchBranch {P Q : Nat} {cs b} (h : c.SeqR P Q [.vals cs, .list b]) :
    c.NdR P Q (.switchBranch cs b) := by
  simp only [SeqR, OkR] at h
  obtain ⟨x, y, h1, h2, a', b', h3, h4, h5⟩ := h
  have hab := h4.le
  have hx := h2.1
  refine nodeR_open (by omega) ?_ (by simp [Fenced]) ?_
  · simp only [Node.children, List.forall_mem_append]
    refine ⟨fun d hd => ?_, h4.cov⟩
    obtain ⟨o, ho, e⟩ := List.mem_filterMap.1 hd
    cases (id_eq (some d)).symm.trans e.symm
    exact (h2.2 d ho).2.1
  · simp only [Node.children, Node.range, Odd, Gap, List.forall_mem_append]
    intro hpl r hr
    obtain ⟨i1, i2, i3, i4⟩ := span_in h4 hpl.2 hr
    refine ⟨fun _ => ⟨by omega, i2, by omega⟩, fun d hd hn => ?_, fun d hd hn => i4 d hd⟩
    obtain ⟨o, ho, e⟩ := List.mem_filterMap.1 hd
    cases (id_eq (some d)).symm.trans e.symm
    exact absurd ho hn

theorem part_tryCatch {P Q : Nat} {t b cs f} (h : c.SeqR P Q [.tok t, .node b, .list cs, .onode f]) :
    c.NdR P Q (.tryCatch t b cs f) := by
  rcases f with _ | f
  · have hes : (Node.tryCatch t b cs none).range = if cs = [] then rangeTN t b.range else rangeTN t (Node.rangeLast cs) := by
      cases cs <;> rfl
    cov_pre h
    refine nodeR_open (by grind) (by simp only [Node.children, List.forall_mem_append, List.forall_mem_cons, Option.toList, List.not_mem_nil]; grind) (by simp [Fenced]) ?_
    rw [hes]
    simp only [Node.children, Odd, Gap, List.forall_mem_append, List.forall_mem_cons, Option.toList, List.not_mem_nil]
    intro hpl r hr
    split at hr <;> grind
  · cov_open h

/-- The range of a node whose parts follow one another lies between the first and the last part, and covers the children. -/
theorem nodeR_of_seq {P Q : Nat} {n : Node} (h : c.SeqR P Q n.parts) (hl : ∀ d ∈ n.loose, Cov c.le d) : c.NdR P Q n := by
  cases n
  case unary => exact part_unary h
  case postUnary => exact part_postUnary h
  case const => exact part_const h
  case binary => exact part_binary h
  case ternary => exact part_ternary h
  case literal => exact part_literal h
  case «variable» => exact part_variable h
  case missing => exact part_missing h
  case lexicalVariable => exact part_lexicalVariable h
  case aliasedVariable => exact part_aliasedVariable h
  case dynamicVariable => exact part_dynamicVariable h
  case staticVariable => exact part_staticVariable h
  case grouping => exact part_grouping h
  case array => exact part_array h
  case oldArray => exact part_oldArray h
  case list => exact part_list h
  case arrayElement => exact part_arrayElement h
  case call => exact part_call h
  case isset => exact part_isset h
  case emptyExpr => exact part_emptyExpr h
  case newExpr => exact part_newExpr h
  case member => exact part_member h
  case staticMember => exact part_staticMember h
  case field => exact part_field h
  case matchExpr => exact part_matchExpr h
  case matchArm => exact part_matchArm h
  case closure => exact part_closure h
  case arrowFunction => exact part_arrowFunction h
  case namedParameter => exact part_namedParameter h
  case functionArgument => exact part_functionArgument h
  case dataType => exact part_dataType h
  case returnType => exact part_returnType h
  case typeRef => exact part_typeRef h
  case anonClass => exact part_anonClass h
  case yieldExpr => exact part_yieldExpr h
  case yieldFrom => exact part_yieldFrom h
  case fileInclude => exact part_fileInclude h
  case useDeclaration => exact part_useDeclaration h
  case useConst => exact part_useConst h
  case useFunction => exact part_useFunction h
  case groupedUse => exact part_groupedUse h
  case expressionStatement => exact part_expressionStatement h
  case echoStatement => exact part_echoStatement h
  case constStatement => exact part_constStatement h
  case printStatement => exact part_printStatement h
  case gotoStatement => exact part_gotoStatement h
  case labelStatement => exact part_labelStatement h
  case throwStatement => exact part_throwStatement h
  case declareStatement => exact part_declareStatement h
  case defineStatement => exact part_defineStatement h
  case unsetStatement => exact part_unsetStatement h
  case dieStatement => exact part_dieStatement h
  case returnStatement => exact part_returnStatement h
  case namespaceStatement => exact part_namespaceStatement h
  case namespaceBlock => exact part_namespaceBlock h
  case useStatement => exact part_useStatement h
  case useFunctionStatement => exact part_useFunctionStatement h
  case useConstStatement => exact part_useConstStatement h
  case useTraitStatement => exact part_useTraitStatement h
  case useTrait => exact part_useTrait h
  case useTraitAlterationBlock => exact part_useTraitAlterationBlock h
  case useTraitInsteadOf => exact part_useTraitInsteadOf h
  case useTraitAs => exact part_useTraitAs h
  case classStatement => exact part_classStatement h hl
  case traitStatement => exact part_traitStatement h
  case interface => exact part_interface h
  case classConstantDefinitionStatement => exact part_classConstantDefinitionStatement h hl
  case classConstant => exact part_classConstant h
  case property => exact part_property h
  case propertyDefinitionStatement => exact part_propertyDefinitionStatement h hl
  case methodDefinitionStatement => exact part_methodDefinitionStatement h hl
  case functionDefinitionStatement => exact part_functionDefinitionStatement h
  case namedFunctionDefinitionStatement => exact part_namedFunctionDefinitionStatement h hl
  case whileStatement => exact part_whileStatement h
  case doWhileStatement => exact part_doWhileStatement h
  case forStatement => exact part_forStatement h
  case forEachStatement => exact part_forEachStatement h
  case block => exact part_block h
  case alternativeBlock => exact part_alternativeBlock h
  case ifBranch => exact part_ifBranch h
  case elseBranch => exact part_elseBranch h
  case ifStatement => exact part_ifStatement h
  case switchBranch => exact part_switchBranch h
  case switchCase => exact part_switchCase h
  case switchBody => exact part_switchBody h
  case tokenStatement => exact part_tokenStatement h
  case catchBlock => exact part_catchBlock h
  case finallyBlock => exact part_finallyBlock h
  case tryCatch => exact part_tryCatch h
  case staticVariablesStatement => exact part_staticVariablesStatement h
  case globalVariablesStatement => exact part_globalVariablesStatement h
  case inlineHtml => exact part_inlineHtml h
  case attr => exact part_attr h
  case emptyScript => exact part_emptyScript h
  case docCommentVar => exact part_docCommentVar h
  case exitExpr t a b d =>
    rcases a with _ | a <;> rcases b with _ | b <;> rcases d with _ | d
    all_goals first
      | exact part_exitExpr0 h
      | exact part_exitExpr h
      | (obtain ⟨_, _, _, hx, _⟩ := h; exact absurd hx id)
  all_goals (obtain ⟨_, _, _, hx, _⟩ := h; exact absurd hx id)

end Sc
end PhpLs.Parser
