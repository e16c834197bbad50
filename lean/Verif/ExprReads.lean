import Verif.ExprLemmas

/-!
# The parser reads every valid operator expression to its tree

The main lemma `reads_ex` is in continuation form: after an expression the parser is in the loop over the operators (or over
the calls and accesses) with the tree of the expression, whatever follows.
-/

namespace PhpLs.Parser

open PhpLs Ex

variable {doc : Token → Option Node} {ts rest : List Token} {k : Token}

/-! ## How expressions start -/

/-- The types of the tokens an expression starts with. -/
def Start (t : TT) : Bool :=
  literalSet.contains t || t == .variable || t == .namespaceSeparator || t.isIdentifier || t == .openParenthesis ||
    (prefixLevel t).isSome

theorem start_ne {t t' : TT} (h : Start t = true) (h' : Start t' = false) : t ≠ t' := by
  rintro rfl
  rw [h] at h'
  cases h'

theorem first_ex : (e : Ex) → e.Valid → ∃ k ts, e.yield = k :: ts ∧ Plain k ∧ Start k.t = true
  | .lit k, h => ⟨k, [], rfl, h.1, by
    have := h.2
    simp [Start, this]⟩
  | .var k, h => ⟨k, [], rfl, h.1, by simp [Start, h.2.1]⟩
  | .name none id path, h => by
    refine ⟨id, pathToks path, rfl, h.2.2.1.1, ?_⟩
    rw [h.2.1 rfl]; decide
  | .name (some n) id path, h => by
    refine ⟨n, id :: pathToks path, rfl, (h.1 n rfl).1, ?_⟩
    rw [(h.1 n rfl).2]; decide
  | .group lp e rp, h => ⟨lp, _, rfl, h.1.1, by rw [h.1.2]; decide⟩
  | .member e op m, h => by
    obtain ⟨k, ts, h1, h2⟩ := first_ex e h.1
    exact ⟨k, ts ++ [op, m], by rw [yield, h1]; rfl, h2⟩
  | .index e ob i cb, h => by
    obtain ⟨k, ts, h1, h2⟩ := first_ex e h.1
    exact ⟨k, _, by rw [yield, h1]; rfl, h2⟩
  | .static e op m, h => by
    obtain ⟨k, ts, h1, h2⟩ := first_ex e h.1
    exact ⟨k, ts ++ [op, m], by rw [yield, h1]; rfl, h2⟩
  | .call e lp args rp, h => by
    obtain ⟨k, ts, h1, h2⟩ := first_ex e h.1
    exact ⟨k, _, by rw [yield, h1]; rfl, h2⟩
  | .un k e, h => ⟨k, e.yield, rfl, h.1.1, by simp [Start, h.1.2]⟩
  | .post e op, h => by
    obtain ⟨k, ts, h1, h2⟩ := first_ex e h.1
    exact ⟨k, ts ++ [op], by rw [yield, h1]; rfl, h2⟩
  | .bin l op r, h => by
    obtain ⟨k, ts, h1, h2⟩ := first_ex l h.1
    exact ⟨k, _, by rw [yield, h1]; rfl, h2⟩
  | .tern l q m c r, h => by
    obtain ⟨k, ts, h1, h2⟩ := first_ex l h.1
    exact ⟨k, _, by rw [yield, h1]; rfl, h2⟩
  | .short l q c r, h => by
    obtain ⟨k, ts, h1, h2⟩ := first_ex l h.1
    exact ⟨k, _, by rw [yield, h1]; rfl, h2⟩

theorem op_ne {t t' : TT} (h : (opLevel t).isSome = true) (h' : opLevel t' = none) : t ≠ t' := by
  rintro rfl
  rw [h'] at h
  cases h

theorem op_of_infix {t : TT} (h : (infixLevel t).isSome = true) : (opLevel t).isSome = true := by
  unfold opLevel
  cases postfixLevel t with
  | none => exact h
  | some l => rfl

theorem op_of_postfix {t : TT} (h : (postfixLevel t).isSome = true) : (opLevel t).isSome = true := by
  unfold opLevel
  cases hp : postfixLevel t with
  | none => rw [hp] at h; cases h
  | some l => rfl

/-- The token behind the first one of an expression that is followed by `k` is no colon. -/
theorem second_ex : (e : Ex) → e.Valid → (k : Token) → Plain k → k.t ≠ .colon → (rest : List Token) →
    ∃ k0 k1 r, e.yield ++ k :: rest = k0 :: k1 :: r ∧ Plain k1 ∧ k1.t ≠ .colon
  | .lit x, _, k, hk, hk', rest => ⟨x, k, rest, rfl, hk, hk'⟩
  | .var x, _, k, hk, hk', rest => ⟨x, k, rest, rfl, hk, hk'⟩
  | .name none id [], _, k, hk, hk', rest => ⟨id, k, rest, rfl, hk, hk'⟩
  | .name none id (p :: path), h, k, hk, hk', rest => by
    have := (h.2.2.2 p (List.mem_cons_self ..)).1
    exact ⟨id, p.1, p.2 :: (pathToks path ++ k :: rest), rfl, this.1, by rw [this.2]; decide⟩
  | .name (some n) id path, h, k, hk, hk', rest => by
    refine ⟨n, id, pathToks path ++ k :: rest, rfl, h.2.2.1.1, fun he => ?_⟩
    have : id.t.isIdentifier = true := h.2.2.1.2
    rw [he] at this
    cases this
  | .group lp e rp, h, k, hk, hk', rest => by
    obtain ⟨k1, ts, h1, h2, h3⟩ := first_ex e h.2.1
    exact ⟨lp, k1, ts ++ [rp] ++ k :: rest, by rw [yield, h1]; rfl, h2, start_ne h3 rfl⟩
  | .member e op m, h, k, hk, hk', rest => by
    obtain ⟨k0, k1, r, h1, h2⟩ := second_ex e h.1 op h.2.2.1.1 (by rcases h.2.2.1.2 with h | h <;> rw [h] <;> decide)
      (m :: k :: rest)
    exact ⟨k0, k1, r, by rw [← h1, yield]; simp, h2⟩
  | .index e ob i cb, h, k, hk, hk', rest => by
    obtain ⟨k0, k1, r, h1, h2⟩ := second_ex e h.1 ob h.2.2.1.1 (by rw [h.2.2.1.2]; decide) (i.yield ++ [cb] ++ k :: rest)
    exact ⟨k0, k1, r, by rw [← h1, yield]; simp, h2⟩
  | .static e op m, h, k, hk, hk', rest => by
    obtain ⟨k0, k1, r, h1, h2⟩ := second_ex e h.1 op h.2.2.1.1 (by rw [h.2.2.1.2]; decide) (m :: k :: rest)
    exact ⟨k0, k1, r, by rw [← h1, yield]; simp, h2⟩
  | .call e lp args rp, h, k, hk, hk', rest => by
    obtain ⟨k0, k1, r, h1, h2⟩ := second_ex e h.1 lp h.2.2.1.1 (by rw [h.2.2.1.2]; decide)
      (args.yield ++ [rp] ++ k :: rest)
    exact ⟨k0, k1, r, by rw [← h1, yield]; simp, h2⟩
  | .un op e, h, k, hk, hk', rest => by
    obtain ⟨k1, ts, h1, h2, h3⟩ := first_ex e h.2.1
    exact ⟨op, k1, ts ++ k :: rest, by rw [yield, h1]; rfl, h2, start_ne h3 rfl⟩
  | .post e op, h, k, hk, hk', rest => by
    obtain ⟨k0, k1, r, h1, h2⟩ := second_ex e h.1 op h.2.1.1 (op_ne (op_of_postfix h.2.1.2) rfl) (k :: rest)
    exact ⟨k0, k1, r, by rw [← h1, yield]; simp, h2⟩
  | .bin l op r, h, k, hk, hk', rest => by
    obtain ⟨k0, k1, x, h1, h2⟩ := second_ex l h.1 op h.2.1.1 (op_ne (op_of_infix h.2.1.2.1) rfl) (r.yield ++ k :: rest)
    exact ⟨k0, k1, x, by rw [← h1, yield]; simp, h2⟩
  | .tern l q m c r, h, k, hk, hk', rest => by
    obtain ⟨k0, k1, x, h1, h2⟩ := second_ex l h.1 q h.2.1.1 (by rw [h.2.1.2]; decide)
      (m.yield ++ c :: (r.yield ++ k :: rest))
    exact ⟨k0, k1, x, by rw [← h1, yield]; simp, h2⟩
  | .short l q c r, h, k, hk, hk', rest => by
    obtain ⟨k0, k1, x, h1, h2⟩ := second_ex l h.1 q h.2.1.1 (by rw [h.2.1.2]; decide) (c :: (r.yield ++ k :: rest))
    exact ⟨k0, k1, x, by rw [← h1, yield]; simp, h2⟩

/-! ## The loop over the operators -/

/-- The body of the loop of `expressions::expression`. -/
def operatorsBody (minBp : Nat) (r : Rec) (lhs : Node) : P (Node ⊕ Node) := do
    match ← takeOr (fun k => takesPostfix minBp k || takesInfix minBp k) with
    | none => pure (.inr lhs)
    | some (k, taken) =>
      if taken then
        if takesPostfix minBp k then pure (.inl (.postUnary lhs k))
        else
          match k.t.infixBP with
          | some (_, rb) => do
            let e ← infixRhs r lhs k rb
            pure (.inl e)
          | none => pure (.inr lhs)
      else pure (.inr lhs)

theorem operators_eq (r : Rec) (b : Nat) (e : Node) : operators r b e = loopP .other r.fuel (operatorsBody b r) e := rfl

/-- An operator type the loop with minimal binding power `b` takes. -/
def Taken (b : Nat) (t : TT) : Prop := ∃ l, opLevel t = some l ∧ b ≤ lbN l

theorem operators_stop {b : Nat} (hk : Plain k) (h : takes b k = false) (e : Node) :
    LoopReads doc .other (operatorsBody b) e [] (k :: rest) e := by
  refine LoopReads.stop ?_
  unfold operatorsBody
  refine Reads.bind0 (Reads.takeOr_no hk h) ?_
  exact Reads.pure

theorem operators_post {b : Nat} (hk : Plain k) (hp : (postfixLevel k.t).isSome = true) (ht : Taken b k.t) (e : Node) :
    Reads doc (fun r => operatorsBody b r e) [k] rest (.inl (.postUnary e k)) := by
  have h1 : takesPostfix b k = true := by
    obtain ⟨l, h2, h3⟩ := ht
    unfold opLevel at h2
    cases hp' : postfixLevel k.t with
    | none => rw [hp'] at hp; cases hp
    | some l' =>
      rw [hp'] at h2
      injection h2 with h2
      subst h2
      have hpre : k.t.prefixBP.isSome = true := by
        revert hp'
        cases k.t <;> intro hp' <;> first
          | rfl
          | cases hp'
      unfold takesPostfix
      rw [postfixBP_level, hp']
      simp [hpre, h3]
  unfold operatorsBody
  refine Reads.bind1 (ts := []) (Reads.takeOr_yes hk (by simp [h1])) ?_
  simp only [h1, if_true]
  exact Reads.pure

theorem infix_no_postfix {t : TT} (h : (infixLevel t).isSome = true) : postfixLevel t = none := by
  revert h
  cases t <;> intro h <;> first
    | rfl
    | cases h

theorem operators_infix {b : Nat} (hk : Plain k) (hi : (infixLevel k.t).isSome = true) (ht : Taken b k.t) (e : Node)
    {e' : Node} (hr : ∀ lb rb, k.t.infixBP = some (lb, rb) → Reads doc (fun r => infixRhs r e k rb) ts rest e') :
    Reads doc (fun r => operatorsBody b r e) (k :: ts) rest (.inl e') := by
  have hnp := infix_no_postfix hi
  have h0 : takesPostfix b k = false := by
    unfold takesPostfix
    rw [postfixBP_level, hnp]
    simp
  have h1 : takes b k = true := (takes_iff b k).2 ht
  unfold operatorsBody
  refine Reads.bind1 (Reads.takeOr_yes hk h1) ?_
  rw [show ((fun r : Rec => _) : Rec → P (Node ⊕ Node)) = fun r => (match k.t.infixBP with
          | some (_, rb) => do
            let e ← infixRhs r e k rb
            pure (.inl e)
          | none => pure (.inr e) : P (Node ⊕ Node)) from by
    funext r
    simp only [h0, if_true]
    rfl]
  cases hb : k.t.infixBP with
  | none =>
    rw [infixBP_level] at hb
    cases hl : infixLevel k.t with
    | none => rw [hl] at hi; cases hi
    | some l => rw [hl] at hb; cases hb
  | some p =>
    obtain ⟨lb, rb⟩ := p
    exact Reads.bind_last (hr lb rb hb) Reads.pure

/-! ## The main lemma -/

/-- The tokens that continue an operand: those of `chainSet` and the backslash. -/
def contSet : List TT := [.openParenthesis, .objectOperator, .nullsafeObjectOperator, .paamayimNekudayim, .openBrackets,
    .openCurly, .namespaceSeparator]

theorem op_not_cont {t : TT} (h : (opLevel t).isSome = true) : t ∉ contSet := by
  revert h
  cases t <;> intro h <;> first
    | decide
    | cases h

theorem chain_not_ns {t : TT} (h : t ∈ chainSet) : t ≠ .namespaceSeparator := by
  rintro rfl
  revert h
  decide

theorem chain_cont {t : TT} (h : t ∈ chainSet) : t ∈ contSet := by
  have : ∀ t ∈ chainSet, t ∈ contSet := by decide
  exact this t h

/-- After a call-level expression the parser is in the loop over calls and accesses. -/
def CallCont (doc : Token → Option Node) (e : Ex) : Prop :=
  ∀ {ts rest r0 : List Token} {k : Token} {a : Node}, ts ++ rest = k :: r0 → Plain k → k.t ≠ .namespaceSeparator →
    LoopReads doc .other initCallBody e.toNode ts rest a → Reads doc callF (e.yield ++ ts) rest a

/-- After an expression the parser is in the loop over operators. -/
def ExprCont (doc : Token → Option Node) (e : Ex) : Prop :=
  ∀ {b : Nat} {ts rest r0 : List Token} {k : Token} {a : Node}, (∀ t ∈ e.lefts, Taken b t) → ts ++ rest = k :: r0 →
    Plain k → k.t ∉ contSet → LeftOf e k.t →
    LoopReads doc .other (operatorsBody b) e.toNode ts rest a → Reads doc (fun r => expressionF r b) (e.yield ++ ts) rest a

theorem callCont_of_primary {e : Ex} (h : ∀ {rest r0 : List Token} {k : Token}, rest = k :: r0 → Plain k →
    k.t ≠ .namespaceSeparator → Reads doc primary e.yield rest e.toNode) : CallCont doc e := by
  intro ts rest r0 k a e1 hk hk' hl
  show Reads doc (fun r => primary r >>= fun e => initCall r e) _ _ _
  exact Reads.bind (h e1 hk hk') (Reads.loop hl)

/-- A call-level expression is an expression. -/
theorem exprCont_of_call {e : Ex} (hv : e.Valid) (h : CallCont doc e)
    (hp : ∀ k ts, e.yield = k :: ts → k.t.prefixBP = none) : ExprCont doc e := by
  intro b ts rest r0 k a _ e1 hk hcont _ hl
  unfold expressionF
  refine Reads.bind (a := e.toNode) ?_ ?_
  · obtain ⟨k0, ts0, h1, h2, h3⟩ := first_ex e hv
    have hpre := hp k0 ts0 h1
    have hcall : Reads doc (fun r => r.call) e.yield (k :: r0) e.toNode := by
      refine Reads.call ?_
      have := h (ts := []) (rest := k :: r0) rfl hk (fun he => hcont (by rw [he]; decide))
        (LoopReads.stop (initCallBody_stop hk (fun he => hcont (chain_cont he)) _))
      rwa [List.append_nil] at this
    rw [e1]
    unfold operand
    rw [h1] at hcall ⊢
    refine Reads.bind0 (Reads.takeOr_no h2 (by simp [hpre])) ?_
    exact hcall
  · exact Reads.loop hl

/-- The first token of a call-level expression is no prefix operator. -/
theorem call_first : (e : Ex) → e.Valid → e.IsCall → ∀ k ts, e.yield = k :: ts → k.t.prefixBP = none
  | .lit x, h, _, k, ts, e => by
    injection e with e _
    subst e
    have : ∀ t ∈ literalSet, TT.prefixBP t = none := by decide
    exact this _ h.2
  | .var x, h, _, k, ts, e => by
    injection e with e _
    subst e
    rw [h.2.1]; rfl
  | .name none id path, h, _, k, ts, e => by
    injection e with e _
    subst e
    rw [h.2.1 rfl]; rfl
  | .name (some n) id path, h, _, k, ts, e => by
    injection e with e _
    subst e
    rw [(h.1 n rfl).2]; rfl
  | .group lp e rp, h, _, k, ts, he => by
    injection he with e _
    subst e
    rw [h.1.2]; rfl
  | .member e op m, h, _, k, ts, he => by
    obtain ⟨k0, ts0, h1, -⟩ := first_ex e h.1
    rw [yield, h1] at he
    injection he with he _
    subst he
    exact call_first e h.1 h.2.1 _ _ h1
  | .index e ob i cb, h, _, k, ts, he => by
    obtain ⟨k0, ts0, h1, -⟩ := first_ex e h.1
    rw [yield, h1] at he
    injection he with he _
    subst he
    exact call_first e h.1 h.2.1 _ _ h1
  | .static e op m, h, _, k, ts, he => by
    obtain ⟨k0, ts0, h1, -⟩ := first_ex e h.1
    rw [yield, h1] at he
    injection he with he _
    subst he
    exact call_first e h.1 h.2.1 _ _ h1
  | .call e lp args rp, h, _, k, ts, he => by
    obtain ⟨k0, ts0, h1, -⟩ := first_ex e h.1
    rw [yield, h1] at he
    injection he with he _
    subst he
    exact call_first e h.1 h.2.1 _ _ h1
  | .un _ _, _, h, _, _, _ => h.elim
  | .post _ _, _, h, _, _, _ => h.elim
  | .bin _ _ _, _, h, _, _, _ => h.elim
  | .tern _ _ _ _ _, _, h, _, _, _ => h.elim
  | .short _ _ _ _, _, h, _, _, _ => h.elim

/-- An expression that is a complete operand of an open operator, or stands between delimiters. -/
theorem ExprCont.operand {e : Ex} (h : ExprCont doc e) {b : Nat} (hl : ∀ t ∈ e.lefts, Taken b t) (hk : Plain k)
    (hk' : k.t ∉ contSet) (hr : LeftOf e k.t) (hb : takes b k = false) :
    Reads doc (fun r => r.expression b) e.yield (k :: rest) e.toNode := by
  have := h (ts := []) (rest := k :: rest) hl rfl hk hk' hr (operators_stop hk hb _)
  rw [List.append_nil] at this
  exact Reads.expression this

theorem not_admits {o : Edge} {t : TT} (h : opLevel t = none) : ¬ o.Admits t := by
  cases o with
  | pre p =>
    rintro ⟨_, l, _, h2, _⟩
    rw [h] at h2
    cases h2
  | inf p =>
    rintro ⟨_, l, _, h2, _⟩
    rw [h] at h2
    cases h2

theorem lefts_op : (e : Ex) → e.Valid → ∀ t ∈ e.lefts, (opLevel t).isSome = true
  | .lit _, _, t, ht => by cases ht
  | .var _, _, t, ht => by cases ht
  | .name _ _ _, _, t, ht => by cases ht
  | .group _ _ _, _, t, ht => by cases ht
  | .member _ _ _, _, t, ht => by cases ht
  | .index _ _ _ _, _, t, ht => by cases ht
  | .static _ _ _, _, t, ht => by cases ht
  | .call _ _ _ _, _, t, ht => by cases ht
  | .un _ _, _, t, ht => by cases ht
  | .post e k, h, t, ht => by
    rcases List.mem_cons.1 ht with rfl | ht
    · exact op_of_postfix h.2.1.2
    · exact lefts_op e h.1 t ht
  | .bin l k _, h, t, ht => by
    rcases List.mem_cons.1 ht with rfl | ht
    · exact op_of_infix h.2.1.2.1
    · exact lefts_op l h.1 t ht
  | .tern l q _ _ _, h, t, ht => by
    rcases List.mem_cons.1 ht with rfl | ht
    · rw [h.2.1.2]; rfl
    · exact lefts_op l h.1 t ht
  | .short l q _ _, h, t, ht => by
    rcases List.mem_cons.1 ht with rfl | ht
    · rw [h.2.1.2]; rfl
    · exact lefts_op l h.1 t ht

theorem taken_zero {e : Ex} (h : e.Valid) : ∀ t ∈ e.lefts, Taken 0 t := by
  intro t ht
  obtain ⟨l, hl⟩ := Option.isSome_iff_exists.1 (lefts_op e h t ht)
  exact ⟨l, hl, Nat.zero_le _⟩

/-- An expression between delimiters. -/
theorem ExprCont.delimited {e : Ex} (h : ExprCont doc e) (hv : e.Valid) (hk : Plain k) (hk' : k.t ∉ contSet)
    (ho : opLevel k.t = none) : Reads doc (fun r => r.expression 0) e.yield (k :: rest) e.toNode := by
  refine h.operand (taken_zero hv) hk hk' (fun o _ => not_admits ho) ?_
  cases ht : takes 0 k with
  | false => rfl
  | true =>
    rw [takes_zero, ho] at ht
    cases ht

/-- The right operand of an infix operator. -/
theorem ExprCont.rhs {e : Ex} (h : ExprCont doc e) {op : Token} {lb rb : Nat} (hb : op.t.infixBP = some (lb, rb))
    (hr : RightOf (.inf op.t) e) (hk : Plain k) (hk' : k.t ∉ contSet) (hl : LeftOf e k.t)
    (ho : ¬ (Edge.inf op.t).Admits k.t) : Reads doc (fun r => r.expression rb) e.yield (k :: rest) e.toNode := by
  have hbp : Edge.Bp (.inf op.t) rb := ⟨lb, hb⟩
  refine h.operand ?_ hk hk' hl ?_
  · intro t ht
    have h1 := hr t ht
    obtain ⟨lp, l, h2, h3, h4⟩ := h1
    refine ⟨l, h3, ?_⟩
    rw [infixBP_level, h2] at hb
    injection hb with hb
    injection hb with _ hb
    subst hb
    exact (rbN_le _ _).2 h4
  · cases ht : takes rb k with
    | false => rfl
    | true => exact absurd ((takes_edge hbp k).1 ht) ho

/-! ## Static members and calls -/

theorem initCallBody_static {op m : Token} (ho : Plain op) (ho' : op.t = .paamayimNekudayim) (hm : Plain m)
    (hm' : m.isIdentifier = true) (e : Node) :
    Reads doc (fun r => initCallBody r e) [op, m] rest (.inl (.staticMember e op none (.literal m) none)) := by
  unfold initCallBody
  refine Reads.bind0 (Reads.nextOneOf_no ho (by simp [ho'])) ?_
  refine Reads.bind0 (Reads.oneOf_no ho (by simp [ho'])) ?_
  refine Reads.bind1 (Reads.ignore_yes ho ho') ?_
  refine Reads.bind_last (a := Node.staticMember e op none (.literal m) none) ?_ Reads.pure
  unfold staticAccess
  have h : ∀ t, t.isIdentifier = false → m.t ≠ t := fun t ht he => by
    have : m.t.isIdentifier = true := hm'
    rw [he, ht] at this
    cases this
  refine Reads.bind0 (Reads.nextOneOf_no hm (by simpa using h _ rfl)) ?_
  refine Reads.bind0 (Reads.nextOneOf_no hm (by simpa using h _ rfl)) ?_
  have e1 : (m.isIdentifier || m.t == .variable) = true := by simp [hm']
  refine Reads.bind0 (a := true) ?_ ?_
  · have := Reads.nextIs (doc := doc) (f := fun k => k.isIdentifier || k.t == .variable) (rest := rest) hm
    rw [e1] at this
    exact this
  · exact Reads.bind1 (ts := []) (Reads.consumeMember hm e1) Reads.pure

/-- The body of the loop of `finish_call`. -/
def callLoopBody (r : Rec) (ps : List Node) : P (List Node ⊕ List Node) := do
    if ← nextOneOf [.closeParenthesis] then pure (.inr ps)
    else do
      let p ← callParameter r
      if ← nextOneOf [.closeParenthesis] then pure (.inr (ps ++ [p]))
      else do
        let _ ← consumeOrFfBefore .comma [.closeParenthesis]
        pure (.inl (ps ++ [p]))

theorem initCallBody_call {lp rp : Token} {ps : List Node} (hl : Plain lp ∧ lp.t = .openParenthesis)
    (hr : Plain rp ∧ rp.t = .closeParenthesis) (e : Node)
    (h : LoopReads doc .other callLoopBody [] ts (rp :: rest) ps) :
    Reads doc (fun r => initCallBody r e) (lp :: (ts ++ [rp])) rest (.inl (.call e lp ps rp)) := by
  unfold initCallBody
  refine Reads.bind0 (Reads.nextOneOf_yes hl.1 (by simp [hl.2])) ?_
  refine Reads.bind_last (a := Node.call e lp ps rp) ?_ Reads.pure
  unfold finishCall
  refine Reads.bind1 (Reads.consume hl.1 hl.2) ?_
  refine Reads.bind (a := ps) (Reads.loop h) ?_
  exact Reads.bind1 (ts := []) (Reads.consume hr.1 hr.2) Reads.pure

theorem callParameter_reads {e : Ex} (hv : e.Valid) (h : ExprCont doc e) (hk : Plain k)
    (hk' : k.t = .closeParenthesis ∨ k.t = .comma) :
    Reads doc callParameter e.yield (k :: rest) e.toNode := by
  have hcol : k.t ≠ .colon := by rcases hk' with h | h <;> rw [h] <;> decide
  obtain ⟨k0, k1, r, h1, h2, h3⟩ := second_ex e hv k hk hcol rest
  obtain ⟨k0', ts0, h4, h5, -⟩ := first_ex e hv
  have hk0 : Plain k0 := by
    rw [h4] at h1
    injection h1 with h1
    rwa [← h1]
  unfold callParameter
  refine Reads.bind0 (a := none) ?_ ?_
  · rw [h1]
    exact Reads.lookahead_no hk0 h2 (by simpa using h3)
  · refine h.delimited hv hk ?_ ?_
    · rcases hk' with h | h <;> rw [h] <;> decide
    · rcases hk' with h | h <;> rw [h] <;> rfl

/-- What the loop of `finish_call` does with arguments. -/
def ArgsCont (doc : Token → Option Node) (as : Args) : Prop :=
  ∀ (rest : List Token) (rp : Token) (ps : List Node), Plain rp → rp.t = .closeParenthesis →
    LoopReads doc .other callLoopBody ps as.yield (rp :: rest) (ps ++ as.toNodes)

/-! ## The induction -/

/-- After a valid call-level expression comes a step of the loop over calls and accesses. -/
theorem CallCont.step {e e' : Ex} (h : CallCont doc e) {k : Token} {ts : List Token} (hk : Plain k)
    (hk' : k.t ≠ .namespaceSeparator) (hy : e'.yield = e.yield ++ k :: ts)
    (hs : ∀ rest, Reads doc (fun r => initCallBody r e.toNode) (k :: ts) rest (.inl e'.toNode)) : CallCont doc e' := by
  intro us rest r0 k' a _ _ _ hl
  rw [hy, List.append_assoc]
  exact h rfl hk hk' (LoopReads.step (hs _) hl)

theorem prefixBP_isSome {t : TT} (h : (prefixLevel t).isSome = true) : t.prefixBP.isSome = true := by
  cases hb : t.prefixBP with
  | none => rw [(prefixBP_level t).2 hb] at h; cases h
  | some _ => rfl

theorem taken_edge {o : Edge} {b : Nat} (ho : Edge.Bp o b) {t : TT} (h : o.Admits t) : Taken b t := by
  have := (takes_edge ho { t := t, line := 0, col := 0, label := none, offset := none }).2 h
  exact (takes_iff b _).1 this

mutual

/-- Every valid expression is read to its tree. -/
theorem reads_ex : (e : Ex) → e.Valid → (e.IsCall → CallCont doc e) ∧ ExprCont doc e
  | .lit k, h => by
    have hc : CallCont doc (.lit k) := callCont_of_primary fun _ _ _ => primary_lit h.1 h.2
    exact ⟨fun _ => hc, exprCont_of_call h hc (call_first _ h trivial)⟩
  | .var k, h => by
    have hc : CallCont doc (.var k) := callCont_of_primary fun _ _ _ => primary_var h.1 h.2.1 h.2.2
    exact ⟨fun _ => hc, exprCont_of_call h hc (call_first _ h trivial)⟩
  | .name ns id path, h => by
    have hc : CallCont doc (.name ns id path) := callCont_of_primary fun e1 hk hk' => by
      subst e1
      exact primary_name h.1 h.2.1 h.2.2.1 h.2.2.2 hk hk'
    exact ⟨fun _ => hc, exprCont_of_call h hc (call_first _ h trivial)⟩
  | .group lp e rp, h => by
    have he : ExprCont doc e := (reads_ex e h.2.1).2
    have hc : CallCont doc (.group lp e rp) := callCont_of_primary fun _ _ _ => by
      exact primary_group h.1 h.2.2
        (he.delimited h.2.1 h.2.2.1 (by rw [h.2.2.2]; decide) (by rw [h.2.2.2]; rfl))
    exact ⟨fun _ => hc, exprCont_of_call h hc (call_first _ h trivial)⟩
  | .member e op m, h => by
    have he : CallCont doc e := (reads_ex e h.1).1 h.2.1
    have hc : CallCont doc (.member e op m) := he.step (ts := [m]) h.2.2.1.1
      (by rcases h.2.2.1.2 with h | h <;> rw [h] <;> decide) rfl
      (fun _ => initCallBody_member h.2.2.1.1 h.2.2.1.2 h.2.2.2.1 h.2.2.2.2 _)
    exact ⟨fun _ => hc, exprCont_of_call h hc (call_first _ h trivial)⟩
  | .index e ob i cb, h => by
    have he : CallCont doc e := (reads_ex e h.1).1 h.2.1
    have hi : ExprCont doc i := (reads_ex i h.2.2.2.1).2
    obtain ⟨k0, ts0, h1, h2, h3⟩ := first_ex i h.2.2.2.1
    have hc : CallCont doc (.index e ob i cb) := he.step (ts := i.yield ++ [cb]) h.2.2.1.1
      (by rw [h.2.2.1.2]; decide) rfl
      (fun rest => initCallBody_index h.2.2.1 h.2.2.2.2 _ h1 h2 (start_ne h3 rfl)
        (hi.delimited h.2.2.2.1 h.2.2.2.2.1 (by rw [h.2.2.2.2.2]; decide) (by rw [h.2.2.2.2.2]; rfl)))
    exact ⟨fun _ => hc, exprCont_of_call h hc (call_first _ h trivial)⟩
  | .static e op m, h => by
    have he : CallCont doc e := (reads_ex e h.1).1 h.2.1
    have hc : CallCont doc (.static e op m) := he.step (ts := [m]) h.2.2.1.1
      (by rw [h.2.2.1.2]; decide) rfl
      (fun _ => initCallBody_static h.2.2.1.1 h.2.2.1.2 h.2.2.2.1 h.2.2.2.2 _)
    exact ⟨fun _ => hc, exprCont_of_call h hc (call_first _ h trivial)⟩
  | .call e lp args rp, h => by
    have he : CallCont doc e := (reads_ex e h.1).1 h.2.1
    have ha : ArgsCont doc args := reads_args args h.2.2.2.1
    have hc : CallCont doc (.call e lp args rp) := he.step (ts := args.yield ++ [rp]) h.2.2.1.1
      (by rw [h.2.2.1.2]; decide) rfl
      (fun rest => initCallBody_call h.2.2.1 h.2.2.2.2 _ (ha _ _ [] h.2.2.2.2.1 h.2.2.2.2.2))
    exact ⟨fun _ => hc, exprCont_of_call h hc (call_first _ h trivial)⟩
  | .un op e, h => by
    have he : ExprCont doc e := (reads_ex e h.2.1).2
    refine ⟨fun h => h.elim, ?_⟩
    intro b ts rest r0 k a _ e1 hk hcont hleft hl
    unfold expressionF
    refine Reads.bind (a := Node.unary e.toNode op) ?_ (Reads.loop hl)
    have hp : op.t.prefixBP.isSome = true := prefixBP_isSome h.1.2
    unfold operand
    refine Reads.bind1 (Reads.takeOr_yes h.1.1 hp) ?_
    rw [e1]
    show Reads doc (fun r => match op.t.prefixBP with
      | some rb => do
        let e ← r.expression rb
        pure (.unary e op)
      | none => r.call) _ _ _
    cases hb : op.t.prefixBP with
    | none => rw [hb] at hp; cases hp
    | some rb =>
      refine Reads.bind_last (a := e.toNode) ?_ Reads.pure
      have hbp : Edge.Bp (.pre op.t) rb := hb
      refine he.operand ?_ hk hcont (fun o ho => hleft o (List.mem_cons_of_mem _ ho)) ?_
      · intro t ht
        exact taken_edge hbp (h.2.2 t ht)
      · cases ht : takes rb k with
        | false => rfl
        | true => exact absurd ((takes_edge hbp k).1 ht) (hleft _ (List.mem_cons_self ..))
  | .post e op, h => by
    have he : ExprCont doc e := (reads_ex e h.1).2
    refine ⟨fun h => h.elim, ?_⟩
    intro b ts rest r0 k a hlefts e1 hk hcont hleft hl
    rw [yield, List.append_assoc]
    refine he (fun t ht => hlefts t (List.mem_cons_of_mem _ ht)) rfl h.2.1.1 (op_not_cont (op_of_postfix h.2.1.2))
      h.2.2 ?_
    exact LoopReads.step (operators_post h.2.1.1 h.2.1.2 (hlefts _ (List.mem_cons_self ..)) _) hl
  | .bin l op r, h => by
    have hel : ExprCont doc l := (reads_ex l h.1).2
    have her : ExprCont doc r := (reads_ex r h.2.2.1).2
    refine ⟨fun h => h.elim, ?_⟩
    intro b ts rest r0 k a hlefts e1 hk hcont hleft hl
    rw [yield, List.append_assoc]
    refine hel (fun t ht => hlefts t (List.mem_cons_of_mem _ ht)) rfl h.2.1.1 (op_not_cont (op_of_infix h.2.1.2.1))
      h.2.2.2.1 ?_
    refine LoopReads.step (operators_infix h.2.1.1 h.2.1.2.1 (hlefts _ (List.mem_cons_self ..)) _ ?_) hl
    intro lb rb hb
    unfold infixRhs
    simp only [h.2.1.2.2, if_false]
    rw [e1]
    refine Reads.bind_last (a := r.toNode) ?_ Reads.pure
    exact her.rhs hb h.2.2.2.2 hk hcont (fun o ho => hleft o (List.mem_cons_of_mem _ ho))
      (hleft _ (List.mem_cons_self ..))
  | .tern l q m c r, h => by
    have hel : ExprCont doc l := (reads_ex l h.1).2
    have hem : ExprCont doc m := (reads_ex m h.2.2.1).2
    have her : ExprCont doc r := (reads_ex r h.2.2.2.2.1).2
    refine ⟨fun h => h.elim, ?_⟩
    intro b ts rest r0 k a hlefts e1 hk hcont hleft hl
    rw [yield, List.append_assoc]
    have hq : (infixLevel q.t).isSome = true := by rw [h.2.1.2]; rfl
    refine hel (fun t ht => hlefts t (List.mem_cons_of_mem _ ht)) rfl h.2.1.1 (op_not_cont (op_of_infix hq))
      h.2.2.2.2.2.1 ?_
    refine LoopReads.step (operators_infix h.2.1.1 hq (hlefts _ (List.mem_cons_self ..)) _ ?_) hl
    intro lb rb hb
    unfold infixRhs
    simp only [h.2.1.2, if_true]
    rw [e1]
    obtain ⟨k0, ts0, h1, h2, h3⟩ := first_ex m h.2.2.1
    refine Reads.bind0 (a := none) ?_ ?_
    · rw [h1]
      exact Reads.ignore_no h2 (start_ne h3 rfl)
    · have hc := h.2.2.2.1
      refine Reads.bind (a := m.toNode) ?_ ?_
      · exact hem.delimited h.2.2.1 hc.1 (by rw [hc.2]; decide) (by rw [hc.2]; rfl)
      · refine Reads.bind1 (Reads.consume hc.1 hc.2) ?_
        refine Reads.bind_last (a := r.toNode) ?_ Reads.pure
        exact her.rhs hb h.2.2.2.2.2.2 hk hcont (fun o ho => hleft o (List.mem_cons_of_mem _ ho))
          (hleft _ (List.mem_cons_self ..))
  | .short l q c r, h => by
    have hel : ExprCont doc l := (reads_ex l h.1).2
    have her : ExprCont doc r := (reads_ex r h.2.2.2.1).2
    refine ⟨fun h => h.elim, ?_⟩
    intro b ts rest r0 k a hlefts e1 hk hcont hleft hl
    rw [yield, List.append_assoc]
    have hq : (infixLevel q.t).isSome = true := by rw [h.2.1.2]; rfl
    refine hel (fun t ht => hlefts t (List.mem_cons_of_mem _ ht)) rfl h.2.1.1 (op_not_cont (op_of_infix hq))
      h.2.2.2.2.1 ?_
    refine LoopReads.step (operators_infix h.2.1.1 hq (hlefts _ (List.mem_cons_self ..)) _ ?_) hl
    intro lb rb hb
    unfold infixRhs
    simp only [h.2.1.2, if_true]
    rw [e1]
    have hc := h.2.2.1
    refine Reads.bind1 (Reads.ignore_yes hc.1 hc.2) ?_
    refine Reads.bind_last (a := r.toNode) ?_ Reads.pure
    exact her.rhs hb h.2.2.2.2.2 hk hcont (fun o ho => hleft o (List.mem_cons_of_mem _ ho))
      (hleft _ (List.mem_cons_self ..))

theorem reads_args : (as : Args) → as.Valid → ArgsCont doc as
  | .nil, _ => by
    intro rest rp ps hp hp'
    show LoopReads doc .other callLoopBody ps [] (rp :: rest) (ps ++ [])
    rw [List.append_nil]
    refine LoopReads.stop ?_
    unfold callLoopBody
    exact Reads.bind0 (Reads.nextOneOf_yes hp (by simp [hp'])) Reads.pure
  | .last e, h => by
    intro rest rp ps hp hp'
    have he : ExprCont doc e := (reads_ex e h).2
    obtain ⟨k0, ts0, h1, h2, h3⟩ := first_ex e h
    refine LoopReads.stop ?_
    show Reads doc _ e.yield _ (Sum.inr (ps ++ [e.toNode]))
    unfold callLoopBody
    refine Reads.bind0 (a := false) ?_ ?_
    · rw [h1]
      exact Reads.nextOneOf_no h2 (by simpa using start_ne h3 rfl)
    · refine Reads.bind_last (a := e.toNode) (callParameter_reads h he hp (.inl hp')) ?_
      exact Reads.bind0 (Reads.nextOneOf_yes hp (by simp [hp'])) Reads.pure
  | .cons e comma more, h => by
    intro rest rp ps hp hp'
    have he : ExprCont doc e := (reads_ex e h.1).2
    have hm : ArgsCont doc more := reads_args more h.2.2
    obtain ⟨k0, ts0, h1, h2, h3⟩ := first_ex e h.1
    have hc := h.2.1
    have := hm rest rp (ps ++ [e.toNode]) hp hp'
    rw [List.append_assoc] at this
    show LoopReads doc .other callLoopBody ps (e.yield ++ comma :: more.yield) (rp :: rest) _
    rw [show e.yield ++ comma :: more.yield = (e.yield ++ [comma]) ++ more.yield by simp]
    refine LoopReads.step ?_ this
    unfold callLoopBody
    refine Reads.bind0 (a := false) ?_ ?_
    · rw [h1]
      exact Reads.nextOneOf_no h2 (by simpa using start_ne h3 rfl)
    · refine Reads.bind (a := e.toNode) (callParameter_reads h.1 he hc.1 (.inr hc.2)) ?_
      refine Reads.bind0 (Reads.nextOneOf_no hc.1 (by simp [hc.2])) ?_
      exact Reads.bind1 (ts := []) (Reads.ffBefore_yes hc.1 hc.2) Reads.pure

end

end PhpLs.Parser
