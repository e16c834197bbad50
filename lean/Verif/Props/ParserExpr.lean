import Verif.ExprReads

/-!
# C17, C18, C19: operator expressions

`Ex.WellFormed` says which trees are made of tokens of the right types, with no regard to precedence: its yields are all the
token sequences that are operator expressions.  `Ex.Valid` (`Verif/ExprSpec.lean`) adds the demands of the table of
precedence levels.
-/

namespace PhpLs.Parser

open PhpLs Ex

/-! ## Specification -/

mutual

/-- The tree is made of tokens of the right types. -/
def Ex.WellFormed : Ex → Prop
  | .lit k => Plain k ∧ k.t ∈ literalSet
  | .var k => Plain k ∧ k.t = .variable ∧ k.label.isSome = true
  | .name ns id path => (∀ k ∈ ns, Plain k ∧ k.t = .namespaceSeparator) ∧ (ns = none → id.t = .identifier) ∧
      (Plain id ∧ id.isIdentifier = true) ∧
      ∀ p ∈ path, (Plain p.1 ∧ p.1.t = .namespaceSeparator) ∧ Plain p.2 ∧ p.2.isIdentifier = true
  | .group lp e rp => (Plain lp ∧ lp.t = .openParenthesis) ∧ e.WellFormed ∧ Plain rp ∧ rp.t = .closeParenthesis
  | .member e op m => e.WellFormed ∧ e.IsCall ∧
      (Plain op ∧ (op.t = .objectOperator ∨ op.t = .nullsafeObjectOperator)) ∧ Plain m ∧ m.isIdentifier = true
  | .index e ob i cb => e.WellFormed ∧ e.IsCall ∧ (Plain ob ∧ ob.t = .openBrackets) ∧ i.WellFormed ∧ Plain cb ∧
      cb.t = .closeBrackets
  | .static e pn m => e.WellFormed ∧ e.IsCall ∧ (Plain pn ∧ pn.t = .paamayimNekudayim) ∧ Plain m ∧
      m.isIdentifier = true
  | .call e lp args rp => e.WellFormed ∧ e.IsCall ∧ (Plain lp ∧ lp.t = .openParenthesis) ∧ args.WellFormed ∧
      Plain rp ∧ rp.t = .closeParenthesis
  | .un k e => (Plain k ∧ (prefixLevel k.t).isSome = true) ∧ e.WellFormed
  | .post e k => e.WellFormed ∧ Plain k ∧ (postfixLevel k.t).isSome = true
  | .bin l k r => l.WellFormed ∧ (Plain k ∧ (infixLevel k.t).isSome = true ∧ k.t ≠ .questionMark) ∧ r.WellFormed
  | .tern l q m c r => l.WellFormed ∧ (Plain q ∧ q.t = .questionMark) ∧ m.WellFormed ∧ (Plain c ∧ c.t = .colon) ∧
      r.WellFormed
  | .short l q c r => l.WellFormed ∧ (Plain q ∧ q.t = .questionMark) ∧ (Plain c ∧ c.t = .colon) ∧ r.WellFormed

/-- The arguments are well-formed expressions with commas between them. -/
def Args.WellFormed : Args → Prop
  | .nil => True
  | .last e => e.WellFormed
  | .cons e comma more => e.WellFormed ∧ (Plain comma ∧ comma.t = .comma) ∧ more.WellFormed

end

mutual

/-- The tokens of the tree of an expression, read in the order of the source. -/
def inorder : Node → List Token
  | .literal k => [k]
  | .variable k => [k]
  | .typeRef ⟨ts, _⟩ => ts
  | .grouping e => inorder e
  | .member e op oc m cc => inorder e ++ op :: (oc.toList ++ inorder m ++ cc.toList)
  | .staticMember e op oc m cc => inorder e ++ op :: (oc.toList ++ inorder m ++ cc.toList)
  | .field e ob i cb => inorder e ++ ob :: (inorderO i ++ [cb])
  | .call e lp args rp => inorder e ++ lp :: (inorderL args ++ [rp])
  | .unary e k => k :: inorder e
  | .postUnary e k => inorder e ++ [k]
  | .binary l k r => inorder l ++ k :: inorder r
  | .ternary l q m c r => inorder l ++ q :: (inorderO m ++ c :: inorder r)
  | _ => []

/-- The tokens of a list of trees. -/
def inorderL : List Node → List Token
  | [] => []
  | n :: l => inorder n ++ inorderL l

/-- The tokens of an optional tree. -/
def inorderO : Option Node → List Token
  | none => []
  | some n => inorder n

end

/-- The tokens the tree does not record: the parentheses of a group and the commas of an argument list. -/
def delimiter (k : Token) : Bool := k.t == .openParenthesis || k.t == .closeParenthesis || k.t == .comma

/-! ## C17 -/

/-- C17: a well-formed expression that the table allows is read completely, and not one token more: the parser stops at the
token behind it, reports nothing, and returns the tree. -/
theorem C17_reads_exactly {doc : Token → Option Node} {e : Ex} (h : e.Valid) {k : Token} {rest : List Token}
    (hk : Ends k) : Reads doc (fun r => r.expression 0) e.yield (k :: rest) e.toNode :=
  have h' : ExprCont doc e := (reads_ex e h).2
  h'.delimited h hk.plain hk.noChain hk.noOp

theorem filter_delim {l : List Token} {k : Token} (h : delimiter k = true) :
    (k :: l).filter (fun k => !delimiter k) = l.filter fun k => !delimiter k := by
  simp [h]

mutual

theorem inorder_ex : (e : Ex) → e.WellFormed → (inorder e.toNode).Sublist e.yield ∧
    (inorder e.toNode).filter (fun k => !delimiter k) = e.yield.filter fun k => !delimiter k
  | .lit k, _ => ⟨.refl _, rfl⟩
  | .var k, _ => ⟨.refl _, rfl⟩
  | .name ns id path, _ => ⟨.refl _, rfl⟩
  | .group lp e rp, h => by
    obtain ⟨h1, h2⟩ := inorder_ex e h.2.1
    have hl : delimiter lp = true := by simp [delimiter, h.1.2]
    have hr : delimiter rp = true := by simp [delimiter, h.2.2.2]
    constructor
    · exact (h1.trans (List.sublist_append_left ..)).trans (List.sublist_cons_self ..)
    · show (inorder e.toNode).filter _ = (lp :: (e.yield ++ [rp])).filter _
      rw [filter_delim hl, List.filter_append, filter_delim hr, h2]
      simp
  | .member e op m, h => by
    obtain ⟨h1, h2⟩ := inorder_ex e h.1
    refine ⟨List.Sublist.append h1 (.refl _), ?_⟩
    show (inorder e.toNode ++ [op, m]).filter _ = (e.yield ++ [op, m]).filter _
    rw [List.filter_append, List.filter_append, h2]
  | .static e op m, h => by
    obtain ⟨h1, h2⟩ := inorder_ex e h.1
    refine ⟨List.Sublist.append h1 (.refl _), ?_⟩
    show (inorder e.toNode ++ [op, m]).filter _ = (e.yield ++ [op, m]).filter _
    rw [List.filter_append, List.filter_append, h2]
  | .index e ob i cb, h => by
    obtain ⟨h1, h2⟩ := inorder_ex e h.1
    obtain ⟨h3, h4⟩ := inorder_ex i h.2.2.2.1
    refine ⟨List.Sublist.append h1 (.cons_cons _ (List.Sublist.append h3 (.refl _))), ?_⟩
    show (inorder e.toNode ++ ob :: (inorder i.toNode ++ [cb])).filter _ = (e.yield ++ ob :: (i.yield ++ [cb])).filter _
    simp only [List.filter_append, List.filter_cons, h2, h4]
  | .call e lp args rp, h => by
    obtain ⟨h1, h2⟩ := inorder_ex e h.1
    obtain ⟨h3, h4⟩ := inorder_args args h.2.2.2.1
    refine ⟨List.Sublist.append h1 (.cons_cons _ (List.Sublist.append h3 (.refl _))), ?_⟩
    show (inorder e.toNode ++ lp :: (inorderL args.toNodes ++ [rp])).filter _ =
      (e.yield ++ lp :: (args.yield ++ [rp])).filter _
    simp only [List.filter_append, List.filter_cons, h2, h4]
  | .un k e, h => by
    obtain ⟨h1, h2⟩ := inorder_ex e h.2
    refine ⟨.cons_cons _ h1, ?_⟩
    show (k :: inorder e.toNode).filter _ = (k :: e.yield).filter _
    simp only [List.filter_cons, h2]
  | .post e k, h => by
    obtain ⟨h1, h2⟩ := inorder_ex e h.1
    refine ⟨List.Sublist.append h1 (.refl _), ?_⟩
    show (inorder e.toNode ++ [k]).filter _ = (e.yield ++ [k]).filter _
    rw [List.filter_append, List.filter_append, h2]
  | .bin l k r, h => by
    obtain ⟨h1, h2⟩ := inorder_ex l h.1
    obtain ⟨h3, h4⟩ := inorder_ex r h.2.2
    refine ⟨List.Sublist.append h1 (.cons_cons _ h3), ?_⟩
    show (inorder l.toNode ++ k :: inorder r.toNode).filter _ = (l.yield ++ k :: r.yield).filter _
    simp only [List.filter_append, List.filter_cons, h2, h4]
  | .tern l q m c r, h => by
    obtain ⟨h1, h2⟩ := inorder_ex l h.1
    obtain ⟨h3, h4⟩ := inorder_ex m h.2.2.1
    obtain ⟨h5, h6⟩ := inorder_ex r h.2.2.2.2
    refine ⟨List.Sublist.append h1 (.cons_cons _ (List.Sublist.append h3 (.cons_cons _ h5))), ?_⟩
    show (inorder l.toNode ++ q :: (inorder m.toNode ++ c :: inorder r.toNode)).filter _ =
      (l.yield ++ q :: (m.yield ++ c :: r.yield)).filter _
    simp only [List.filter_append, List.filter_cons, h2, h4, h6]
  | .short l q c r, h => by
    obtain ⟨h1, h2⟩ := inorder_ex l h.1
    obtain ⟨h5, h6⟩ := inorder_ex r h.2.2.2
    refine ⟨List.Sublist.append h1 (.cons_cons _ (.cons_cons _ h5)), ?_⟩
    show (inorder l.toNode ++ q :: c :: inorder r.toNode).filter _ = (l.yield ++ q :: c :: r.yield).filter _
    simp only [List.filter_append, List.filter_cons, h2, h6]

theorem inorder_args : (as : Args) → as.WellFormed → (inorderL as.toNodes).Sublist as.yield ∧
    (inorderL as.toNodes).filter (fun k => !delimiter k) = as.yield.filter fun k => !delimiter k
  | .nil, _ => ⟨.refl _, rfl⟩
  | .last e, h => by
    obtain ⟨h1, h2⟩ := inorder_ex e h
    show (inorder e.toNode ++ []).Sublist e.yield ∧ (inorder e.toNode ++ []).filter _ = e.yield.filter _
    rw [List.append_nil]
    exact ⟨h1, h2⟩
  | .cons e comma more, h => by
    obtain ⟨h1, h2⟩ := inorder_ex e h.1
    obtain ⟨h3, h4⟩ := inorder_args more h.2.2
    have hc : delimiter comma = true := by simp [delimiter, h.2.1.2]
    show (inorder e.toNode ++ inorderL more.toNodes).Sublist (e.yield ++ comma :: more.yield) ∧
      (inorder e.toNode ++ inorderL more.toNodes).filter _ = (e.yield ++ comma :: more.yield).filter _
    refine ⟨List.Sublist.append h1 (h3.trans (List.sublist_cons_self ..)), ?_⟩
    rw [List.filter_append, List.filter_append, filter_delim hc, h2, h4]

end

/-- C17: the tree, read in order, gives back the tokens of the expression in their order, and it leaves out nothing but
parentheses of groups and commas of argument lists. -/
theorem C17_in_order {e : Ex} (h : e.WellFormed) : (inorder e.toNode).Sublist e.yield ∧
    (inorder e.toNode).filter (fun k => !delimiter k) = e.yield.filter fun k => !delimiter k :=
  inorder_ex e h

/-! ## C18 -/

mutual

theorem wellFormed_of_valid : (e : Ex) → e.Valid → e.WellFormed
  | .lit k, h => h
  | .var k, h => h
  | .name ns id path, h => h
  | .group lp e rp, h => ⟨h.1, wellFormed_of_valid e h.2.1, h.2.2⟩
  | .member e op m, h => ⟨wellFormed_of_valid e h.1, h.2⟩
  | .static e op m, h => ⟨wellFormed_of_valid e h.1, h.2⟩
  | .index e ob i cb, h => ⟨wellFormed_of_valid e h.1, h.2.1, h.2.2.1, wellFormed_of_valid i h.2.2.2.1, h.2.2.2.2⟩
  | .call e lp args rp, h => ⟨wellFormed_of_valid e h.1, h.2.1, h.2.2.1, wellFormed_of_valid_args args h.2.2.2.1,
      h.2.2.2.2⟩
  | .un k e, h => ⟨h.1, wellFormed_of_valid e h.2.1⟩
  | .post e k, h => ⟨wellFormed_of_valid e h.1, h.2.1⟩
  | .bin l k r, h => ⟨wellFormed_of_valid l h.1, h.2.1, wellFormed_of_valid r h.2.2.1⟩
  | .tern l q m c r, h => ⟨wellFormed_of_valid l h.1, h.2.1, wellFormed_of_valid m h.2.2.1, h.2.2.2.1,
      wellFormed_of_valid r h.2.2.2.2.1⟩
  | .short l q c r, h => ⟨wellFormed_of_valid l h.1, h.2.1, h.2.2.1, wellFormed_of_valid r h.2.2.2.1⟩

theorem wellFormed_of_valid_args : (as : Args) → as.Valid → as.WellFormed
  | .nil, _ => trivial
  | .last e, h => wellFormed_of_valid e h
  | .cons e _ more, h => ⟨wellFormed_of_valid e h.1, h.2.1, wellFormed_of_valid_args more h.2.2⟩

end

/-- Something that can be put behind an expression: the operator is of type `t`, its tokens are `ys`. -/
structure Step (t : TT) (ys : List Token) (wrap : Ex → Ex) : Prop where
  valid : ∀ {r}, r.Valid → LeftOf r t → (wrap r).Valid
  yield : ∀ r, (wrap r).yield = r.yield ++ ys
  lefts : ∀ r, (wrap r).lefts = t :: r.lefts

/-- The tree with the operator `t` behind it: it goes below the innermost operator on the right edge that takes it. -/
theorem insert_step {t : TT} {ys : List Token} {wrap : Ex → Ex} (hs : Step t ys wrap) : (e : Ex) → e.Valid →
    ∃ e' : Ex, e'.Valid ∧ e'.yield = e.yield ++ ys ∧
      (e'.lefts = e.lefts ∨ (e'.lefts = t :: e.lefts ∧ LeftOf e t)) := by
  have top : ∀ e : Ex, e.Valid → LeftOf e t → ∃ e' : Ex, e'.Valid ∧ e'.yield = e.yield ++ ys ∧
      (e'.lefts = e.lefts ∨ (e'.lefts = t :: e.lefts ∧ LeftOf e t)) :=
    fun e h hl => ⟨wrap e, hs.valid h hl, hs.yield e, .inr ⟨hs.lefts e, hl⟩⟩
  have leaf : ∀ e : Ex, e.rights = [] → LeftOf e t := fun e he o ho => by rw [he] at ho; cases ho
  -- the new operand below an open operator
  have right : ∀ (o : Edge) (r r' : Ex), RightOf o r → ¬ (LeftOf r t ∧ ¬ o.Admits t) →
      (r'.lefts = r.lefts ∨ (r'.lefts = t :: r.lefts ∧ LeftOf r t)) → RightOf o r' := by
    intro o r r' hr hn hl x hx
    rcases hl with hl | ⟨hl, hlo⟩
    · rw [hl] at hx
      exact hr x hx
    · rw [hl] at hx
      rcases List.mem_cons.1 hx with rfl | hx
      · exact Classical.byContradiction fun h => hn ⟨hlo, h⟩
      · exact hr x hx
  have cons : ∀ (o : Edge) (r e : Ex), e.rights = o :: r.rights → (LeftOf r t ∧ ¬ o.Admits t) → LeftOf e t := by
    intro o r e he h x hx
    rw [he] at hx
    rcases List.mem_cons.1 hx with rfl | hx
    · exact h.2
    · exact h.1 x hx
  have go : (e : Ex) → e.Valid → ∃ e' : Ex, e'.Valid ∧ e'.yield = e.yield ++ ys ∧
      (e'.lefts = e.lefts ∨ (e'.lefts = t :: e.lefts ∧ LeftOf e t)) := by
    intro e
    induction e using Ex.rec (motive_2 := fun _ => True) with
    | lit k => exact fun h => top _ h (leaf _ rfl)
    | var k => exact fun h => top _ h (leaf _ rfl)
    | name ns id path => exact fun h => top _ h (leaf _ rfl)
    | group lp e rp => exact fun h => top _ h (leaf _ rfl)
    | member e op m => exact fun h => top _ h (leaf _ rfl)
    | index e ob i cb => exact fun h => top _ h (leaf _ rfl)
    | static e op m => exact fun h => top _ h (leaf _ rfl)
    | call e lp args rp => exact fun h => top _ h (leaf _ rfl)
    | post e k => exact fun h => top _ h (leaf _ rfl)
    | un k e ih =>
      intro h
      by_cases hc : LeftOf e t ∧ ¬ (Edge.pre k.t).Admits t
      · exact top _ h (cons (.pre k.t) e _ rfl hc)
      · obtain ⟨e', h1, h2, h3⟩ := ih h.2.1
        refine ⟨.un k e', ⟨h.1, h1, right _ _ _ h.2.2 hc h3⟩, ?_, .inl rfl⟩
        rw [Ex.yield, Ex.yield, h2, List.cons_append]
    | bin l k r _ ih =>
      intro h
      by_cases hc : LeftOf r t ∧ ¬ (Edge.inf k.t).Admits t
      · exact top _ h (cons (.inf k.t) r _ rfl hc)
      · obtain ⟨e', h1, h2, h3⟩ := ih h.2.2.1
        refine ⟨.bin l k e', ⟨h.1, h.2.1, h1, h.2.2.2.1, right _ _ _ h.2.2.2.2 hc h3⟩, ?_, .inl rfl⟩
        rw [Ex.yield, Ex.yield, h2, List.append_assoc, List.cons_append]
    | tern l q m c r _ _ ih =>
      intro h
      by_cases hc : LeftOf r t ∧ ¬ (Edge.inf q.t).Admits t
      · exact top _ h (cons (.inf q.t) r _ rfl hc)
      · obtain ⟨e', h1, h2, h3⟩ := ih h.2.2.2.2.1
        refine ⟨.tern l q m c e', ⟨h.1, h.2.1, h.2.2.1, h.2.2.2.1, h1, h.2.2.2.2.2.1,
          right _ _ _ h.2.2.2.2.2.2 hc h3⟩, ?_, .inl rfl⟩
        simp [Ex.yield, h2]
    | short l q c r _ ih =>
      intro h
      by_cases hc : LeftOf r t ∧ ¬ (Edge.inf q.t).Admits t
      · exact top _ h (cons (.inf q.t) r _ rfl hc)
      · obtain ⟨e', h1, h2, h3⟩ := ih h.2.2.2.1
        refine ⟨.short l q c e', ⟨h.1, h.2.1, h.2.2.1, h1, h.2.2.2.2.1, right _ _ _ h.2.2.2.2.2 hc h3⟩, ?_, .inl rfl⟩
        simp [Ex.yield, h2]
    | nil => trivial
    | last _ _ => trivial
    | cons _ _ _ _ _ => trivial
  exact go

/-- `ys` can be put behind every valid expression. -/
def Appendable (ys : List Token) : Prop := ∀ e : Ex, e.Valid → ∃ e' : Ex, e'.Valid ∧ e'.yield = e.yield ++ ys

theorem Appendable.append {xs ys : List Token} (h : Appendable xs) (h' : Appendable ys) : Appendable (xs ++ ys) := by
  intro e he
  obtain ⟨e1, h1, h2⟩ := h e he
  obtain ⟨e2, h3, h4⟩ := h' e1 h1
  exact ⟨e2, h3, by rw [h4, h2, List.append_assoc]⟩

theorem Step.appendable {t : TT} {ys : List Token} {wrap : Ex → Ex} (h : Step t ys wrap) : Appendable ys := by
  intro e he
  obtain ⟨e', h1, h2, -⟩ := insert_step h e he
  exact ⟨e', h1, h2⟩

/-- A valid expression with no operator on its left edge, and what comes behind it. -/
def Flat (ts : List Token) : Prop :=
  ∃ (e : Ex) (ys : List Token), e.Valid ∧ e.lefts = [] ∧ Appendable ys ∧ ts = e.yield ++ ys

theorem Flat.valid {ts : List Token} (h : Flat ts) : ∃ e : Ex, e.Valid ∧ e.yield = ts := by
  obtain ⟨e, ys, h1, -, h2, h3⟩ := h
  obtain ⟨e', h4, h5⟩ := h2 e h1
  exact ⟨e', h4, h5.trans h3.symm⟩

theorem rightOf_nil {o : Edge} {e : Ex} (h : e.lefts = []) : RightOf o e := fun t ht => by rw [h] at ht; cases ht

theorem Flat.appendable {ts : List Token} (h : Flat ts) {t : TT} {xs : List Token} {wrap : Ex → Ex → Ex}
    (hw : ∀ r, r.Valid → r.lefts = [] → Step t (xs ++ r.yield) (fun l => wrap l r)) : Appendable (xs ++ ts) := by
  obtain ⟨e, ys, h1, h2, h3, h4⟩ := h
  rw [h4, ← List.append_assoc]
  exact (hw e h1 h2).appendable.append h3

theorem Flat.then {ts us : List Token} (h : Flat ts) (h' : Appendable us) : Flat (ts ++ us) := by
  obtain ⟨e, ys, h1, h2, h3, h4⟩ := h
  exact ⟨e, ys ++ us, h1, h2, h3.append h', by rw [h4, List.append_assoc]⟩

theorem flat_of_valid_call {ts : List Token} (h : ∃ e : Ex, e.Valid ∧ e.IsCall ∧ e.yield = ts) : Flat ts := by
  obtain ⟨e, h1, h2, h3⟩ := h
  refine ⟨e, [], h1, ?_, fun e he => ⟨e, he, by simp⟩, by rw [List.append_nil, h3]⟩
  revert h2
  cases e <;> intro h2 <;> first
    | rfl
    | exact h2.elim

mutual

theorem valid_exists : (e : Ex) → e.WellFormed →
    (e.IsCall → ∃ e' : Ex, e'.Valid ∧ e'.IsCall ∧ e'.yield = e.yield) ∧ Flat e.yield
  | .lit k, h => ⟨fun _ => ⟨.lit k, h, trivial, rfl⟩, flat_of_valid_call ⟨.lit k, h, trivial, rfl⟩⟩
  | .var k, h => ⟨fun _ => ⟨.var k, h, trivial, rfl⟩, flat_of_valid_call ⟨.var k, h, trivial, rfl⟩⟩
  | .name ns id path, h => ⟨fun _ => ⟨.name ns id path, h, trivial, rfl⟩,
      flat_of_valid_call ⟨.name ns id path, h, trivial, rfl⟩⟩
  | .group lp e rp, h => by
    obtain ⟨e', h1, h2⟩ := (valid_exists e h.2.1).2.valid
    have : ∃ x : Ex, x.Valid ∧ x.IsCall ∧ x.yield = (Ex.group lp e rp).yield :=
      ⟨.group lp e' rp, ⟨h.1, h1, h.2.2⟩, trivial, by rw [Ex.yield, Ex.yield, h2]⟩
    exact ⟨fun _ => this, flat_of_valid_call this⟩
  | .member e op m, h => by
    obtain ⟨e', h1, h2, h3⟩ := (valid_exists e h.1).1 h.2.1
    have : ∃ x : Ex, x.Valid ∧ x.IsCall ∧ x.yield = (Ex.member e op m).yield :=
      ⟨.member e' op m, ⟨h1, h2, h.2.2⟩, trivial, by rw [Ex.yield, Ex.yield, h3]⟩
    exact ⟨fun _ => this, flat_of_valid_call this⟩
  | .static e op m, h => by
    obtain ⟨e', h1, h2, h3⟩ := (valid_exists e h.1).1 h.2.1
    have : ∃ x : Ex, x.Valid ∧ x.IsCall ∧ x.yield = (Ex.static e op m).yield :=
      ⟨.static e' op m, ⟨h1, h2, h.2.2⟩, trivial, by rw [Ex.yield, Ex.yield, h3]⟩
    exact ⟨fun _ => this, flat_of_valid_call this⟩
  | .index e ob i cb, h => by
    obtain ⟨e', h1, h2, h3⟩ := (valid_exists e h.1).1 h.2.1
    obtain ⟨i', h4, h5⟩ := (valid_exists i h.2.2.2.1).2.valid
    have : ∃ x : Ex, x.Valid ∧ x.IsCall ∧ x.yield = (Ex.index e ob i cb).yield :=
      ⟨.index e' ob i' cb, ⟨h1, h2, h.2.2.1, h4, h.2.2.2.2⟩, trivial, by rw [Ex.yield, Ex.yield, h3, h5]⟩
    exact ⟨fun _ => this, flat_of_valid_call this⟩
  | .call e lp args rp, h => by
    obtain ⟨e', h1, h2, h3⟩ := (valid_exists e h.1).1 h.2.1
    obtain ⟨a', h4, h5⟩ := valid_exists_args args h.2.2.2.1
    have : ∃ x : Ex, x.Valid ∧ x.IsCall ∧ x.yield = (Ex.call e lp args rp).yield :=
      ⟨.call e' lp a' rp, ⟨h1, h2, h.2.2.1, h4, h.2.2.2.2⟩, trivial, by rw [Ex.yield, Ex.yield, h3, h5]⟩
    exact ⟨fun _ => this, flat_of_valid_call this⟩
  | .un k e, h => by
    refine ⟨fun h => h.elim, ?_⟩
    obtain ⟨x, ys, h1, h2, h3, h4⟩ := (valid_exists e h.2).2
    exact ⟨.un k x, ys, ⟨h.1, h1, rightOf_nil h2⟩, rfl, h3, by rw [Ex.yield, Ex.yield, h4, List.cons_append]⟩
  | .post e k, h => by
    refine ⟨fun h => h.elim, ?_⟩
    have hs : Step k.t [k] (fun l => .post l k) :=
      ⟨fun hr hl => ⟨hr, h.2, hl⟩, fun r => rfl, fun r => rfl⟩
    exact (valid_exists e h.1).2.then hs.appendable
  | .bin l k r, h => by
    refine ⟨fun h => h.elim, ?_⟩
    refine (valid_exists l h.1).2.then ?_
    exact (valid_exists r h.2.2).2.appendable (t := k.t) (xs := [k]) (wrap := fun l r => .bin l k r)
      fun r hr hn => ⟨fun hl hlo => ⟨hl, h.2.1, hr, hlo, rightOf_nil hn⟩, fun _ => rfl, fun _ => rfl⟩
  | .tern l q m c r, h => by
    refine ⟨fun h => h.elim, ?_⟩
    obtain ⟨m', h1, h2⟩ := (valid_exists m h.2.2.1).2.valid
    refine (valid_exists l h.1).2.then ?_
    have := (valid_exists r h.2.2.2.2).2.appendable (t := q.t) (xs := q :: (m'.yield ++ [c]))
      (wrap := fun l r => .tern l q m' c r)
      fun r hr hn => ⟨fun hl hlo => ⟨hl, h.2.1, h1, h.2.2.2.1, hr, hlo, rightOf_nil hn⟩, fun _ => by simp [Ex.yield],
        fun _ => rfl⟩
    rw [h2] at this
    simpa using this
  | .short l q c r, h => by
    refine ⟨fun h => h.elim, ?_⟩
    refine (valid_exists l h.1).2.then ?_
    exact (valid_exists r h.2.2.2).2.appendable (t := q.t) (xs := [q, c]) (wrap := fun l r => .short l q c r)
      fun r hr hn => ⟨fun hl hlo => ⟨hl, h.2.1, h.2.2.1, hr, hlo, rightOf_nil hn⟩, fun _ => rfl, fun _ => rfl⟩

theorem valid_exists_args : (as : Args) → as.WellFormed → ∃ as' : Args, as'.Valid ∧ as'.yield = as.yield
  | .nil, _ => ⟨.nil, trivial, rfl⟩
  | .last e, h => by
    obtain ⟨e', h1, h2⟩ := (valid_exists e h).2.valid
    exact ⟨.last e', h1, h2⟩
  | .cons e comma more, h => by
    obtain ⟨e', h1, h2⟩ := (valid_exists e h.1).2.valid
    obtain ⟨m', h3, h4⟩ := valid_exists_args more h.2.2
    exact ⟨.cons e' comma m', ⟨h1, h.2.1, h3⟩, by rw [Args.yield, Args.yield, h2, h4]⟩

end

/-- C18: every operator expression has a tree the table allows. -/
theorem C18_exists {e : Ex} (h : e.WellFormed) : ∃ e' : Ex, e'.Valid ∧ e'.yield = e.yield :=
  (valid_exists e h).2.valid

/-- C18: the table allows one syntax tree only. -/
theorem C18_unique {e e' : Ex} (h : e.Valid) (h' : e'.Valid) (hy : e.yield = e'.yield) : e.toNode = e'.toNode := by
  have hk : Ends { t := TT.semicolon, line := 0, col := 0, label := none, offset := none } := {
    plain := ⟨rfl, by decide, ⟨_, rfl⟩⟩
    noOp := rfl
    noChain := by decide }
  have h1 := C17_reads_exactly (doc := fun _ => none) (rest := []) h hk
  have h2 := C17_reads_exactly (doc := fun _ => none) (rest := []) h' hk
  exact (h1.unique h2 (by rw [hy])).1

/-- C17 and C18: for every sequence of tokens that is an operator expression, followed by a token that ends it, the parser
reads exactly the expression, reports no error, and returns the tree that the table defines. -/
theorem C18_parses_to_the_valid_tree {doc : Token → Option Node} {e : Ex} (h : e.WellFormed) {k : Token}
    {rest : List Token} (hk : Ends k) : ∃ n : Node, Reads doc (fun r => r.expression 0) e.yield (k :: rest) n ∧
      (∃ e' : Ex, e'.Valid ∧ e'.yield = e.yield) ∧ ∀ e' : Ex, e'.Valid → e'.yield = e.yield → n = e'.toNode := by
  obtain ⟨e', h1, h2⟩ := C18_exists h
  refine ⟨e'.toNode, h2 ▸ C17_reads_exactly h1 hk, ⟨e', h1, h2⟩, fun x hx hy => ?_⟩
  exact C18_unique h1 hx (h2.trans hy.symm)

/-! ### A case -/

/-- A token on the first line. -/
def tok (t : TT) (col : Nat) (label : Option Text := none) : Token := ⟨col, 0, t, label, none⟩

/-- `-$a + f($b, !$c)[1] * 2`, put together without any regard to precedence: `(-($a + f($b, !$c)[1])) * 2`. -/
def exCase : Ex :=
  .bin (.un (tok .minus 0) (.bin (.var (tok .variable 1 (some ['a']))) (tok .plus 4)
    (.index (.call (.name none (tok .identifier 6 (some ['f'])) []) (tok .openParenthesis 7)
        (.cons (.var (tok .variable 8 (some ['b']))) (tok .comma 10)
          (.last (.un (tok .negation 12) (.var (tok .variable 13 (some ['c'])))))) (tok .closeParenthesis 15))
      (tok .openBrackets 16) (.lit (tok .longNumber 17 (some ['1']))) (tok .closeBrackets 18))))
    (tok .multiplication 20) (.lit (tok .longNumber 22 (some ['2'])))

/-- The tree of the case as the parser returns it: `-($a + (f($b, !$c)[1] * 2))`. -/
def exValid : Ex :=
  .un (tok .minus 0) (.bin (.var (tok .variable 1 (some ['a']))) (tok .plus 4)
    (.bin (.index (.call (.name none (tok .identifier 6 (some ['f'])) []) (tok .openParenthesis 7)
        (.cons (.var (tok .variable 8 (some ['b']))) (tok .comma 10)
          (.last (.un (tok .negation 12) (.var (tok .variable 13 (some ['c'])))))) (tok .closeParenthesis 15))
      (tok .openBrackets 16) (.lit (tok .longNumber 17 (some ['1']))) (tok .closeBrackets 18))
    (tok .multiplication 20) (.lit (tok .longNumber 22 (some ['2'])))))

theorem exCase_wellFormed : exCase.WellFormed := by
  simp only [exCase, Ex.WellFormed, Args.WellFormed, IsCall, tok, and_true, true_and]
  repeat' constructor
  all_goals first
    | decide
    | intro k hk; cases hk
    | exact ⟨_, rfl⟩

/-- The statements of C17 and C18 apply to it. -/
example (doc : Token → Option Node) : ∃ n, Reads doc (fun r => r.expression 0) exCase.yield [tok .semicolon 23] n :=
  (C18_parses_to_the_valid_tree exCase_wellFormed ⟨⟨rfl, by decide, ⟨_, rfl⟩⟩, rfl, by decide⟩).imp fun _ h => h.1

example : exCase.yield = exValid.yield := rfl

theorem exValid_valid : exValid.Valid := by
  simp only [exValid, Ex.Valid, Args.Valid, IsCall, tok, and_true, true_and, RightOf, LeftOf, lefts, rights]
  repeat' constructor
  all_goals first
    | decide
    | exact ⟨_, rfl⟩
    | (intro k hk; cases hk; done)
    | (intro t ht
       rcases List.mem_cons.1 ht with rfl | ht
       · exact ⟨_, _, rfl, rfl, by decide⟩
       · cases ht)

/-- The parser returns the tree in which `*` is below `+` and both are below `-`. -/
example (doc : Token → Option Node) :
    Reads doc (fun r => r.expression 0) exCase.yield [tok .semicolon 23] exValid.toNode :=
  C17_reads_exactly exValid_valid ⟨⟨rfl, by decide, ⟨_, rfl⟩⟩, rfl, by decide⟩

end PhpLs.Parser
