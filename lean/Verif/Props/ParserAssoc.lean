import Verif.Props.ParserExpr

/-!
# C19, C55: how operators associate and bind, compared with PHP

The specification is the operator table of the PHP manual (language.operators.precedence), restricted to the operators the
parser treats as operators.
-/

namespace PhpLs.Parser

open PhpLs Ex

/-! ## Specification -/

/-- The associativity of an operator according to the PHP manual; `none` for comparison operators, which do not associate,
and for everything that is no binary operator of PHP. -/
def phpAssoc : TT → Option Assoc
  | .power | .coalesce | .assignment | .binaryAndAssignment | .binaryOrAssignment | .moduloAssignment
  | .concatAssignment | .xorAssignment | .rightShiftAssignment | .leftShiftAssignment | .coalesceAssignment
  | .powerAssignment | .plusAssign | .minusAssign | .mulAssign | .divAssign => some .right
  | .instanceOf | .modulo | .multiplication | .division | .plus | .minus | .concat | .rightShift | .leftShift
  | .binaryAnd | .binaryXor | .binaryOr | .logicAnd | .logicOr | .logicXor => some .left
  | _ => none

/-- A chain of operands with operators between them. -/
abbrev Chain := List (Token × Ex)

/-- The tokens of a chain. -/
def Chain.yield : Chain → List Token
  | [] => []
  | (k, e) :: r => k :: (e.yield ++ Chain.yield r)

/-- The chain nested to the left: `((x ∘ y) ∘ z)`. -/
def leftNest (x : Ex) : Chain → Ex
  | [] => x
  | (k, y) :: r => leftNest (.bin x k y) r

/-- The chain nested to the right: `(x ∘ (y ∘ z))`. -/
def rightNest (x : Ex) : Chain → Ex
  | [] => x
  | (k, y) :: r => .bin x k (rightNest y r)

/-- The way an associativity nests a chain. -/
def nest : Assoc → Ex → Chain → Ex
  | .left => leftNest
  | .right => rightNest

/-- The other associativity. -/
def Assoc.flip : Assoc → Assoc
  | .left => .right
  | .right => .left

/-- A chain of operands without operators, with operators of type `t` between them. -/
def ChainOf (t : TT) (x : Ex) (c : Chain) : Prop :=
  (x.Valid ∧ x.IsCall) ∧ ∀ p ∈ c, (Plain p.1 ∧ p.1.t = t) ∧ p.2.Valid ∧ p.2.IsCall

/-! ## What the parser does -/

theorem leftNest_yield (c : Chain) : ∀ x, (leftNest x c).yield = x.yield ++ Chain.yield c := by
  induction c with
  | nil => intro x; simp [leftNest, Chain.yield]
  | cons p r ih => intro x; rw [leftNest, ih]; simp [Ex.yield, Chain.yield]

theorem rightNest_yield (c : Chain) : ∀ x, (rightNest x c).yield = x.yield ++ Chain.yield c := by
  induction c with
  | nil => intro x; simp [rightNest, Chain.yield]
  | cons p r ih => intro x; simp [rightNest, Ex.yield, Chain.yield, ih]

theorem nest_yield (a : Assoc) (x : Ex) (c : Chain) : (nest a x c).yield = x.yield ++ Chain.yield c := by
  cases a
  · exact leftNest_yield c x
  · exact rightNest_yield c x

theorem call_rights {e : Ex} (h : e.IsCall) : e.rights = [] := by
  cases e <;> first | rfl | exact h.elim

theorem call_lefts {e : Ex} (h : e.IsCall) : e.lefts = [] := by
  cases e <;> first | rfl | exact h.elim

theorem leftOf_call {e : Ex} (h : e.IsCall) (t : TT) : LeftOf e t := fun o ho => by
  rw [call_rights h] at ho
  cases ho

theorem opLevel_infix {t : TT} {l : Level} (h : infixLevel t = some l) : opLevel t = some l := by
  unfold opLevel
  rw [infix_no_postfix (by rw [h]; rfl), h]

theorem admits_self {t : TT} {l : Level} (h : infixLevel t = some l) :
    (Edge.inf t).Admits t ↔ assoc l = .right := by
  constructor
  · rintro ⟨l1, l2, h1, h2, h3⟩
    rw [opLevel_infix h] at h2
    rw [h] at h1
    injection h1 with h1
    injection h2 with h2
    subst h1 h2
    rcases h3 with h3 | h3
    · exact absurd h3 (Nat.lt_irrefl _)
    · exact h3.2
  · intro ha
    exact ⟨l, l, h, opLevel_infix h, .inr ⟨rfl, ha⟩⟩

theorem leftNest_valid {t : TT} {l : Level} (hl : infixLevel t = some l) (ht : t ≠ .questionMark)
    (ha : assoc l = .left) (c : Chain) (hc : ∀ p ∈ c, (Plain p.1 ∧ p.1.t = t) ∧ p.2.Valid ∧ p.2.IsCall) :
    ∀ x : Ex, x.Valid → LeftOf x t → (leftNest x c).Valid := by
  induction c with
  | nil => exact fun x hx _ => hx
  | cons p r ih =>
    intro x hx hxl
    obtain ⟨⟨h1, h2⟩, h3, h4⟩ := hc p (List.mem_cons_self ..)
    refine ih (fun q hq => hc q (List.mem_cons_of_mem _ hq)) _ ⟨hx, ⟨h1, ?_, ?_⟩, h3, ?_, ?_⟩ ?_
    · rw [h2, hl]; rfl
    · rwa [h2]
    · rwa [h2]
    · exact rightOf_nil (call_lefts h4)
    · intro o ho
      simp only [rights, call_rights h4, List.mem_singleton] at ho
      subst ho
      rw [h2, admits_self hl, ha]
      decide

theorem rightNest_lefts {t : TT} (c : Chain) (x : Ex) (hx : x.IsCall)
    (hc : ∀ p ∈ c, (Plain p.1 ∧ p.1.t = t) ∧ p.2.Valid ∧ p.2.IsCall) : ∀ u ∈ (rightNest x c).lefts, u = t := by
  intro u hu
  cases c with
  | nil => rw [rightNest, call_lefts hx] at hu; cases hu
  | cons p r =>
    simp only [rightNest, lefts, call_lefts hx, List.mem_singleton] at hu
    rw [hu, (hc p (List.mem_cons_self ..)).1.2]

theorem rightNest_valid {t : TT} {l : Level} (hl : infixLevel t = some l) (ht : t ≠ .questionMark)
    (ha : assoc l = .right) (c : Chain) :
    ∀ x : Ex, x.Valid → x.IsCall → (∀ p ∈ c, (Plain p.1 ∧ p.1.t = t) ∧ p.2.Valid ∧ p.2.IsCall) →
      (rightNest x c).Valid := by
  induction c with
  | nil => exact fun x hx _ _ => hx
  | cons p r ih =>
    intro x hx hxc hc
    obtain ⟨⟨h1, h2⟩, h3, h4⟩ := hc p (List.mem_cons_self ..)
    have hr := fun q hq => hc q (List.mem_cons_of_mem p hq)
    refine ⟨hx, ⟨h1, ?_, ?_⟩, ih _ h3 h4 hr, leftOf_call hxc _, ?_⟩
    · rw [h2, hl]; rfl
    · rwa [h2]
    · intro u hu
      rw [rightNest_lefts r p.2 h4 hr u hu, h2]
      exact (admits_self hl).2 ha

theorem nest_valid {t : TT} {l : Level} (hl : infixLevel t = some l) (ht : t ≠ .questionMark) {x : Ex} {c : Chain}
    (h : ChainOf t x c) : (nest (assoc l) x c).Valid := by
  cases ha : assoc l with
  | left => exact leftNest_valid hl ht ha c h.2 x h.1.1 (leftOf_call h.1.2 t)
  | right => exact rightNest_valid hl ht ha c x h.1.1 h.1.2 h.2

/-- What the parser does with a chain of one operator, for every operator and every length: it nests to the side the level of
the operator says. -/
theorem C19_chain {doc : Token → Option Node} {t : TT} {l : Level} (hl : infixLevel t = some l)
    (ht : t ≠ .questionMark) {x : Ex} {c : Chain} (h : ChainOf t x c) {k : Token} {rest : List Token} (hk : Ends k) :
    Reads doc (fun r => r.expression 0) (x.yield ++ Chain.yield c) (k :: rest) (nest (assoc l) x c).toNode := by
  rw [← nest_yield (assoc l)]
  exact C17_reads_exactly (nest_valid hl ht h) hk

/-- The table of the code has every operator of PHP associate to the wrong side. -/
theorem assoc_flipped {t : TT} {a : Assoc} (h : phpAssoc t = some a) :
    ∃ l, infixLevel t = some l ∧ t ≠ .questionMark ∧ assoc l = a.flip := by
  revert h
  cases t <;> intro h <;> first
    | (cases h; done)
    | (injection h with h; subst h; exact ⟨_, rfl, by decide, by decide⟩)

theorem leftNest_bin (c : Chain) : ∀ x y k, ∃ l k' r, (leftNest (.bin x k y) c) = .bin l k' r ∧
    (c ≠ [] → ∃ a b d, l = .bin a b d) := by
  induction c with
  | nil => exact fun x y k => ⟨x, k, y, rfl, fun h => absurd rfl h⟩
  | cons p r ih =>
    intro x y k
    obtain ⟨l, k', r', h1, h2⟩ := ih (.bin x k y) p.2 p.1
    refine ⟨l, k', r', h1, fun _ => ?_⟩
    cases r with
    | nil => injection h1 with h1; exact ⟨_, _, _, h1.symm⟩
    | cons q r => exact h2 (by simp)

theorem call_not_binary {e : Ex} (h : e.IsCall) {a b : Node} {k : Token} : e.toNode ≠ .binary a k b := by
  cases e <;> first | exact h.elim | (intro he; cases he)

theorem nests_differ {t : TT} {x : Ex} {c : Chain} (h : ChainOf t x c) (hc : 2 ≤ c.length) :
    (leftNest x c).toNode ≠ (rightNest x c).toNode := by
  match c, hc with
  | p :: q :: r, _ =>
    obtain ⟨l, k', r', h1, h2⟩ := leftNest_bin (q :: r) x p.2 p.1
    obtain ⟨a, b, d, rfl⟩ := h2 (by simp)
    rw [leftNest, h1, rightNest]
    intro he
    injection he with he
    exact call_not_binary h.1.2 he.symm

/-- C19 is violated by every operator that associates in PHP: any chain of two or more of them is nested to the wrong side. -/
theorem C19_fails_for_every_operator {doc : Token → Option Node} {t : TT} {a : Assoc} (h : phpAssoc t = some a)
    {x : Ex} {c : Chain} (hc : ChainOf t x c) {k : Token} {rest : List Token} (hk : Ends k) :
    Reads doc (fun r => r.expression 0) (x.yield ++ Chain.yield c) (k :: rest) (nest a.flip x c).toNode ∧
      (2 ≤ c.length → (nest a.flip x c).toNode ≠ (nest a x c).toNode) := by
  obtain ⟨l, h1, h2, h3⟩ := assoc_flipped h
  refine ⟨h3 ▸ C19_chain h1 h2 hc hk, fun hlen => ?_⟩
  cases a
  · exact (nests_differ hc hlen).symm
  · exact nests_differ hc hlen

/-- C19 holds for a single operator, where there is only one way to nest. -/
theorem C19_single_partial {doc : Token → Option Node} {t : TT} {a : Assoc} (h : phpAssoc t = some a)
    {x : Ex} {c : Chain} (hc : ChainOf t x c) (hlen : c.length ≤ 1) {k : Token} {rest : List Token} (hk : Ends k) :
    Reads doc (fun r => r.expression 0) (x.yield ++ Chain.yield c) (k :: rest) (nest a x c).toNode := by
  have := (C19_fails_for_every_operator (doc := doc) h hc (rest := rest) hk).1
  have e : nest a.flip x c = nest a x c := by
    match c, hlen with
    | [], _ => cases a <;> rfl
    | [p], _ => cases a <;> rfl
  rwa [e] at this

/-- `$a - $b - $c`. -/
def minusChain : Chain := [(tok .minus 3, .var (tok .variable 5 (some ['b']))),
  (tok .minus 8, .var (tok .variable 10 (some ['c'])))]

theorem minusChain_ok : ChainOf .minus (.var (tok .variable 0 (some ['a']))) minusChain := by
  refine ⟨⟨⟨⟨rfl, by decide, ⟨_, rfl⟩⟩, rfl, rfl⟩, trivial⟩, fun p h => ?_⟩
  simp only [minusChain, List.mem_cons, List.not_mem_nil, or_false] at h
  rcases h with rfl | rfl
  · exact ⟨⟨⟨rfl, by decide, ⟨_, rfl⟩⟩, rfl⟩, ⟨⟨rfl, by decide, ⟨_, rfl⟩⟩, rfl, rfl⟩, trivial⟩
  · exact ⟨⟨⟨rfl, by decide, ⟨_, rfl⟩⟩, rfl⟩, ⟨⟨rfl, by decide, ⟨_, rfl⟩⟩, rfl, rfl⟩, trivial⟩

/-- `$a - $b - $c` is read as `$a - ($b - $c)`. -/
example (doc : Token → Option Node) : Reads doc (fun r => r.expression 0)
    ((Ex.var (tok .variable 0 (some ['a']))).yield ++ Chain.yield minusChain) [tok .semicolon 12]
    (.binary (.variable (tok .variable 0 (some ['a']))) (tok .minus 3)
      (.binary (.variable (tok .variable 5 (some ['b']))) (tok .minus 8) (.variable (tok .variable 10 (some ['c']))))) :=
  (C19_fails_for_every_operator (t := .minus) rfl minusChain_ok ⟨⟨rfl, by decide, ⟨_, rfl⟩⟩, rfl, by decide⟩).1

/-! ## C55: precedence -/

/-- Whether in PHP a prefix operator of type `p` takes a following infix or postfix operator of type `t` into its operand:
`!` is below `instanceof`, `**` and `++`; signs, casts, `~` and `@` are below `**` and `++`; `clone` and `new` are above
everything. -/
def phpPrefixTakes : TT → TT → Option Bool
  | .negation, t => some (t == .instanceOf || t == .power || t == .increment || t == .decrement)
  | .plus, t | .minus, t | .bitwiseNegation, t | .silencer, t | .boolCast, t | .intCast, t | .stringCast, t
  | .arrayCast, t | .objectCast, t | .doubleCast, t => some (t == .power || t == .increment || t == .decrement)
  | _, _ => none

/-- The infix operators of PHP from the loosest to the tightest; those of the same number bind equally tight. -/
def phpLevel : TT → Option Nat
  | .logicXor => some 0
  | .assignment | .binaryAndAssignment | .binaryOrAssignment | .moduloAssignment | .concatAssignment
  | .xorAssignment | .rightShiftAssignment | .leftShiftAssignment | .coalesceAssignment | .powerAssignment
  | .plusAssign | .minusAssign | .mulAssign | .divAssign => some 1
  | .questionMark => some 2
  | .coalesce => some 3
  | .logicOr => some 4
  | .logicAnd => some 5
  | .binaryOr => some 6
  | .binaryXor => some 7
  | .binaryAnd => some 8
  | .isNotIdentical | .isIdentical | .spaceShip | .isEqual | .isNotEqual | .isNotEqualAlt => some 9
  | .greater | .smaller | .greaterOrEqual | .smallerOrEqual => some 10
  | .concat => some 11
  | .rightShift | .leftShift => some 12
  | .plus | .minus => some 13
  | .modulo | .multiplication | .division => some 14
  | .instanceOf => some 16
  | .power => some 18
  | _ => none

/-- The tree of `x a y b z` for two infix operators and three operands without operators. -/
theorem C55_two_operators {doc : Token → Option Node} {x y z : Ex} {a b : Token} (hx : x.Valid ∧ x.IsCall)
    (hy : y.Valid ∧ y.IsCall) (hz : z.Valid ∧ z.IsCall)
    (ha : Plain a ∧ (infixLevel a.t).isSome = true ∧ a.t ≠ .questionMark)
    (hb : Plain b ∧ (infixLevel b.t).isSome = true ∧ b.t ≠ .questionMark) {k : Token} {rest : List Token}
    (hk : Ends k) :
    ((Edge.inf a.t).Admits b.t → Reads doc (fun r => r.expression 0)
      (x.yield ++ a :: (y.yield ++ b :: z.yield)) (k :: rest) (.binary x.toNode a (.binary y.toNode b z.toNode))) ∧
    (¬ (Edge.inf a.t).Admits b.t → Reads doc (fun r => r.expression 0)
      (x.yield ++ a :: (y.yield ++ b :: z.yield)) (k :: rest) (.binary (.binary x.toNode a y.toNode) b z.toNode)) := by
  constructor
  · intro h
    have hv : (Ex.bin x a (.bin y b z)).Valid := by
      refine ⟨hx.1, ha, ⟨hy.1, hb, hz.1, leftOf_call hy.2 _, rightOf_nil (call_lefts hz.2)⟩, leftOf_call hx.2 _, ?_⟩
      intro t ht
      simp only [lefts, call_lefts hy.2, List.mem_singleton] at ht
      rwa [ht]
    exact C17_reads_exactly hv hk
  · intro h
    have hv : (Ex.bin (.bin x a y) b z).Valid := by
      refine ⟨⟨hx.1, ha, hy.1, leftOf_call hx.2 _, rightOf_nil (call_lefts hy.2)⟩, hb, hz.1, ?_,
        rightOf_nil (call_lefts hz.2)⟩
      intro o ho
      simp only [rights, call_rights hy.2, List.mem_singleton] at ho
      rwa [ho]
    have := C17_reads_exactly (doc := doc) (rest := rest) hv hk
    rw [show (Ex.bin (.bin x a y) b z).yield = x.yield ++ a :: (y.yield ++ b :: z.yield) by simp [Ex.yield]] at this
    exact this

/-- The tree of `p x b z` for a prefix operator, an infix operator and two operands without operators. -/
theorem C55_prefix_and_infix {doc : Token → Option Node} {x z : Ex} {p b : Token} (hx : x.Valid ∧ x.IsCall)
    (hz : z.Valid ∧ z.IsCall) (hp : Plain p ∧ (prefixLevel p.t).isSome = true)
    (hb : Plain b ∧ (infixLevel b.t).isSome = true ∧ b.t ≠ .questionMark) {k : Token} {rest : List Token}
    (hk : Ends k) :
    ((Edge.pre p.t).Admits b.t → Reads doc (fun r => r.expression 0) (p :: (x.yield ++ b :: z.yield)) (k :: rest)
      (.unary (.binary x.toNode b z.toNode) p)) ∧
    (¬ (Edge.pre p.t).Admits b.t → Reads doc (fun r => r.expression 0) (p :: (x.yield ++ b :: z.yield)) (k :: rest)
      (.binary (.unary x.toNode p) b z.toNode)) := by
  constructor
  · intro h
    have hv : (Ex.un p (.bin x b z)).Valid := by
      refine ⟨hp, ⟨hx.1, hb, hz.1, leftOf_call hx.2 _, rightOf_nil (call_lefts hz.2)⟩, ?_⟩
      intro t ht
      simp only [lefts, call_lefts hx.2, List.mem_singleton] at ht
      rwa [ht]
    exact C17_reads_exactly hv hk
  · intro h
    have hv : (Ex.bin (.un p x) b z).Valid := by
      refine ⟨⟨hp, hx.1, rightOf_nil (call_lefts hx.2)⟩, hb, hz.1, ?_, rightOf_nil (call_lefts hz.2)⟩
      intro o ho
      simp only [rights, call_rights hx.2, List.mem_singleton] at ho
      rwa [ho]
    exact C17_reads_exactly hv hk

/-- The tree of `p x q` for a prefix operator, an operand without operators and a postfix operator. -/
theorem C55_prefix_and_postfix {doc : Token → Option Node} {x : Ex} {p q : Token} (hx : x.Valid ∧ x.IsCall)
    (hp : Plain p ∧ (prefixLevel p.t).isSome = true) (hq : Plain q ∧ (postfixLevel q.t).isSome = true) {k : Token}
    {rest : List Token} (hk : Ends k) :
    ((Edge.pre p.t).Admits q.t → Reads doc (fun r => r.expression 0) (p :: (x.yield ++ [q])) (k :: rest)
      (.unary (.postUnary x.toNode q) p)) ∧
    (¬ (Edge.pre p.t).Admits q.t → Reads doc (fun r => r.expression 0) (p :: (x.yield ++ [q])) (k :: rest)
      (.postUnary (.unary x.toNode p) q)) := by
  constructor
  · intro h
    have hv : (Ex.un p (.post x q)).Valid := by
      refine ⟨hp, ⟨hx.1, hq, leftOf_call hx.2 _⟩, ?_⟩
      intro t ht
      simp only [lefts, call_lefts hx.2, List.mem_singleton] at ht
      rwa [ht]
    exact C17_reads_exactly hv hk
  · intro h
    have hv : (Ex.post (.un p x) q).Valid := by
      refine ⟨⟨hp, hx.1, rightOf_nil (call_lefts hx.2)⟩, hq, ?_⟩
      intro o ho
      simp only [rights, call_rights hx.2, List.mem_singleton] at ho
      rwa [ho]
    exact C17_reads_exactly hv hk

/-- The level of the code as a function of the level of PHP. -/
def codeLevel : Nat → Level
  | 0 => 1 | 1 => 5 | 2 => 6 | 3 => 7 | 4 => 8 | 5 => 9 | 6 => 10 | 7 => 11 | 8 => 12 | 9 => 13 | 10 => 14
  | 12 => 15 | 13 => 16 | 14 => 17 | 16 => 18 | _ => 20

theorem level_of_php {t : TT} {n : Nat} (h : phpLevel t = some n) (hc : t ≠ .concat) :
    infixLevel t = some (codeLevel n) ∧ n ∈ [0, 1, 2, 3, 4, 5, 6, 7, 8, 9, 10, 12, 13, 14, 16, 18] := by
  revert h hc
  cases t <;> intro h hc <;> first
    | (cases h; done)
    | exact absurd rfl hc
    | (injection h with h; subst h; exact ⟨rfl, by decide⟩)

/-- C55 for two infix operators of different precedence, except the string concatenation: the first operator takes the second
one into its operand iff the second one binds tighter in PHP. -/
theorem C55_infix_partial {a b : TT} {m n : Nat} (ha : phpLevel a = some m) (hb : phpLevel b = some n)
    (hac : a ≠ .concat) (hbc : b ≠ .concat) (hmn : m ≠ n) : (Edge.inf a).Admits b ↔ m < n := by
  obtain ⟨h1, h2⟩ := level_of_php ha hac
  obtain ⟨h3, h4⟩ := level_of_php hb hbc
  have key : ∀ m ∈ [0, 1, 2, 3, 4, 5, 6, 7, 8, 9, 10, 12, 13, 14, 16, 18],
      ∀ n ∈ [0, 1, 2, 3, 4, 5, 6, 7, 8, 9, 10, 12, 13, 14, 16, 18], m ≠ n →
        ((codeLevel m < codeLevel n ∨ (codeLevel m = codeLevel n ∧ assoc (codeLevel m) = .right)) ↔ m < n) := by decide
  rw [← key m h2 n h4 hmn]
  constructor
  · rintro ⟨l1, l2, e1, e2, h⟩
    rw [h1] at e1
    rw [opLevel_infix h3] at e2
    injection e1 with e1
    injection e2 with e2
    subst e1 e2
    exact h
  · exact fun h => ⟨_, _, h1, opLevel_infix h3, h⟩

/-- C55 fails for the string concatenation, which PHP 8 has below `+` and `<<`: `$a . $b + $c` is right by accident, but
`$a + $b . $c` and `$a << $b . $c` are read as `$a + ($b . $c)` and `$a << ($b . $c)`. -/
theorem C55_fails_concat : (Edge.inf .plus).Admits .concat ∧ (Edge.inf .minus).Admits .concat ∧
    (Edge.inf .leftShift).Admits .concat ∧ (Edge.inf .rightShift).Admits .concat :=
  ⟨⟨_, _, rfl, rfl, by decide⟩, ⟨_, _, rfl, rfl, by decide⟩, ⟨_, _, rfl, rfl, by decide⟩,
    ⟨_, _, rfl, rfl, by decide⟩⟩

/-- The pairs of a prefix operator and an operator behind its operand that the code reads differently from PHP. -/
def prefixExceptions (p t : TT) : Bool :=
  if p == .plus || p == .minus then
    t == .plus || t == .minus || t == .concat || t == .modulo || t == .multiplication || t == .division ||
      t == .instanceOf
  else if p == .negation then t == .instanceOf || t == .increment || t == .decrement
  else t == .increment || t == .decrement

/-- The operators behind an operand. -/
def behindOps : List TT := [.logicXor, .assignment, .binaryAndAssignment, .binaryOrAssignment, .moduloAssignment,
  .concatAssignment, .xorAssignment, .rightShiftAssignment, .leftShiftAssignment, .coalesceAssignment,
  .powerAssignment, .plusAssign, .minusAssign, .mulAssign, .divAssign, .questionMark, .coalesce, .logicOr, .logicAnd,
  .binaryOr, .binaryXor, .binaryAnd, .isNotIdentical, .isIdentical, .spaceShip, .isEqual, .isNotEqual,
  .isNotEqualAlt, .greater, .smaller, .greaterOrEqual, .smallerOrEqual, .concat, .rightShift, .leftShift, .plus,
  .minus, .modulo, .multiplication, .division, .instanceOf, .power, .increment, .decrement]

/-- What `Admits` says about a prefix operator, as a test. -/
def preTakes (p t : TT) : Bool :=
  match prefixLevel p, opLevel t with
  | some lp, some l => decide (lp ≤ l)
  | _, _ => false

theorem preTakes_iff (p t : TT) : preTakes p t = true ↔ (Edge.pre p).Admits t := by
  unfold preTakes Edge.Admits
  cases h1 : prefixLevel p with
  | none => simp [h1]
  | some lp =>
    cases h2 : opLevel t with
    | none => simp [h1, h2]
    | some l => simp [h1, h2]

/-- C55 for a prefix operator and an operator behind its operand: the code agrees with PHP except for the pairs of
`prefixExceptions`, and for each of these it does the opposite. -/
theorem C55_prefix_exact {p t : TT} {b : Bool} (hp : phpPrefixTakes p t = some b) (ht : t ∈ behindOps) :
    ((Edge.pre p).Admits t ↔ b = true) ↔ prefixExceptions p t = false := by
  rw [← preTakes_iff]
  have key : ∀ p ∈ [TT.negation, .plus, .minus, .bitwiseNegation, .silencer, .boolCast, .intCast, .stringCast,
      .arrayCast, .objectCast, .doubleCast], ∀ t ∈ behindOps,
      ((preTakes p t = true ↔ phpPrefixTakes p t = some true) ↔ prefixExceptions p t = false) := by decide +kernel
  have hmem : p ∈ [TT.negation, .plus, .minus, .bitwiseNegation, .silencer, .boolCast, .intCast, .stringCast,
      .arrayCast, .objectCast, .doubleCast] := by
    revert hp
    cases p <;> intro hp <;> first
      | decide
      | (cases hp; done)
  have := key p hmem t ht
  rw [hp] at this
  simpa using this

/-- C55 fails: `-$a * 3` is read as `-($a * 3)`, `!$a instanceof B` as `(!$a) instanceof B`, and `!$i++` as `(!$i)++`. -/
theorem C55_fails_prefix : (Edge.pre .minus).Admits .multiplication ∧ ¬ (Edge.pre .negation).Admits .instanceOf ∧
    ¬ (Edge.pre .negation).Admits .increment := by
  rw [← preTakes_iff, ← preTakes_iff, ← preTakes_iff]
  decide

end PhpLs.Parser
