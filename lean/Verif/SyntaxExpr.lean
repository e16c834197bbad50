import Verif.SyntaxSpec
import Verif.ExprReads

/-!
# Reading whole programs: expressions

For every rule of the grammar (`Verif/SyntaxSpec.lean`) about expressions: if the parser reads the parts, it reads the whole.
-/

namespace PhpLs.Syntax

open PhpLs PhpLs.Parser PhpLs.Parser.Ex

variable {doc : Token → Option Node} {ts us vs rest : List Token} {k : Token} {n : Node} {ns : List Node} {p : TT → Bool}
  {ls : List TT} {rs : List Rim} {t : TT}

/-! ## What it means that the parser reads something -/

/-- With `k` behind `ts`, the second token is no colon, and no variable behind `static`. -/
def Second (ts : List Token) : Prop :=
  ∀ (k : Token) (rest : List Token), Plain k → k.t ≠ .colon → k.t ≠ .variable →
    ∃ k0 k1 r, ts ++ k :: rest = k0 :: k1 :: r ∧ Plain k0 ∧ Plain k1 ∧ k1.t ≠ .colon ∧ (k0.t = .kwStatic → k1.t ≠ .variable)

/-- A token behind an operand that does not change how it is read. -/
def primFollow (t : TT) : Bool := ![TT.namespaceSeparator, .kwFunction, .kwFn].contains t

/-- The next token is not taken by the open edges. -/
def Free (rs : List Rim) (xs : List Token) : Prop :=
  ∃ k r, xs = k :: r ∧ Plain k ∧ behind k.t = true ∧ ∀ o ∈ rs, ¬ o.Admits k.t

/-- An operand. -/
structure PrimRd (doc : Token → Option Node) (ts : List Token) (n : Node) : Prop where
  first : Next ts operandStart
  second : Second ts
  reads : ∀ rest, Next rest primFollow → Rd doc [] primary ts rest n

/-- An operand with calls and accesses; afterwards the parser is in the loop over them. -/
structure CallRd (doc : Token → Option Node) (ts : List Token) (n : Node) : Prop where
  first : Next ts operandStart
  second : Second ts
  reads : ∀ us rest a, Next (us ++ rest) primFollow → LoopRd doc .other initCallBody n us rest a →
    Rd doc [] callF (ts ++ us) rest a

/-- An expression; afterwards the parser is in the loop over the operators. -/
structure ExprRd (doc : Token → Option Node) (ts : List Token) (n : Node) (ls : List TT) (rs : List Rim) : Prop where
  first : Next ts exprStart
  second : Second ts
  lefts : ∀ t ∈ ls, (opLevel t).isSome = true
  reads : ∀ b us rest a, (∀ t ∈ ls, Taken b t) → Free rs (us ++ rest) → LoopRd doc .other (operatorsBody b) n us rest a →
    Rd doc [] (fun r => expressionF r b) (ts ++ us) rest a

/-- An expression between delimiters that satisfy `q`. -/
structure DelRd (doc : Token → Option Node) (q : TT → Bool) (ts : List Token) (n : Node) : Prop where
  first : Next ts exprStart
  second : Second ts
  reads : ∀ rest, Next rest q → Rd doc [] (fun r => r.expression 0) ts rest n

/-- A list with commas. -/
inductive SepBy (one : List Token → Node → Prop) (b : Bool) : List Token → List Node → Prop where
  | nil (hb : b = true) : SepBy one b [] []
  | last {ts : List Token} {n : Node} (h : one ts n) : SepBy one b ts [n]
  | cons {ts us : List Token} {k : Token} {n : Node} {ns : List Node} (h : one ts n) (hk : Tok .comma k)
      (hm : SepBy one b us ns) : SepBy one b (ts ++ k :: us) (n :: ns)

/-! ## Token classes -/

theorem operand_start (t : TT) (h : operandStart t = true) : exprStart t = true := by
  unfold operandStart at h
  exact (Bool.and_eq_true_iff.1 h).1

theorem operand_noPrefix {t : TT} (h : operandStart t = true) : t.prefixBP = none := by
  unfold operandStart at h
  have h2 := (Bool.and_eq_true_iff.1 h).2
  cases hb : t.prefixBP with
  | none => rfl
  | some b =>
    obtain ⟨l, hl, -⟩ := (prefixBP_level t).1 b hb
    rw [hl] at h2
    cases h2

theorem start_ne' {t t' : TT} (h : exprStart t = true) (h' : exprStart t' = false) : t ≠ t' := by
  rintro rfl
  rw [h] at h'
  cases h'

theorem ends_keyEnds (t : TT) (h : ends t = true) : keyEnds t = true := (Bool.and_eq_true_iff.1 h).1

theorem keyEnds_op {t : TT} (h : keyEnds t = true) : opLevel t = none := by
  have := (Bool.and_eq_true_iff.1 h).1
  exact Option.isNone_iff_eq_none.1 this

theorem keyEnds_behind {t : TT} (h : keyEnds t = true) : behind t = true := (Bool.and_eq_true_iff.1 h).2

theorem behind_chain {t : TT} (h : behind t = true) : t ∉ chainSet := by
  intro hc
  have : ∀ t ∈ chainSet, behind t = false := by decide
  rw [this t hc] at h
  cases h

theorem behind_primFollow (t : TT) (h : behind t = true) : primFollow t = true := by
  have : ∀ t ∈ [TT.namespaceSeparator, .kwFunction, .kwFn], behind t = false := by decide
  unfold primFollow
  cases hc : [TT.namespaceSeparator, .kwFunction, .kwFn].contains t with
  | false => rfl
  | true => rw [this t (by simpa using hc)] at h; cases h

theorem op_behind {t : TT} (h : (opLevel t).isSome = true) : behind t = true := by
  revert h
  cases t <;> intro h <;> first
    | decide
    | cases h

theorem Next.free (h : Next rest ends) (hb : Rim.bare ∉ rs) : Free rs rest := by
  obtain ⟨k, r, e, h1, h2⟩ := h
  refine ⟨k, r, e, h1, keyEnds_behind (ends_keyEnds _ h2), fun o ho ha => ?_⟩
  have h3 := keyEnds_op (ends_keyEnds _ h2)
  cases o with
  | op e => exact not_admits h3 ha
  | all =>
    rcases ha with ha | ha
    · rw [h3] at ha; cases ha
    · rw [ha] at h2; cases h2
  | bare => exact hb ho

theorem Next.freeSemi (h : Next rest (· == .semicolon)) : Free rs rest := by
  obtain ⟨k, r, e, h1, h2⟩ := h
  have h2 := eq_of_beq h2
  refine ⟨k, r, e, h1, by rw [h2]; decide, fun o ho ha => ?_⟩
  rw [h2] at ha
  cases o with
  | op e => exact not_admits (by decide) ha
  | all =>
    rcases ha with ha | ha
    · exact absurd ha (by decide)
    · cases ha
  | bare => exact ha rfl

theorem Next.freeKey {es : List Edge} (h : Next rest keyEnds) : Free (es.map .op) rest := by
  obtain ⟨k, r, e, h1, h2⟩ := h
  refine ⟨k, r, e, h1, keyEnds_behind h2, fun o ho ha => ?_⟩
  obtain ⟨e', -, rfl⟩ := List.mem_map.1 ho
  exact not_admits (keyEnds_op h2) ha

theorem Free.next (h : Free rs rest) : Next rest behind := by
  obtain ⟨k, r, e, h1, h2, -⟩ := h
  exact ⟨k, r, e, h1, h2⟩

theorem Free.nil (h : Next rest behind) : Free [] rest := by
  obtain ⟨k, r, e, h1, h2⟩ := h
  exact ⟨k, r, e, h1, h2, fun _ ho => nomatch ho⟩

/-- A next token that an edge taking all does not take ends every expression. -/
theorem Free.all (h : Free rs rest) (hr : Rim.all ∈ rs) : Next rest ends := by
  obtain ⟨k, r, e, h1, h2, h3⟩ := h
  refine ⟨k, r, e, h1, ?_⟩
  have h4 : ¬ ((opLevel k.t).isSome = true ∨ k.t = .doubleArrow) := h3 _ hr
  have h5 : (opLevel k.t).isNone = true := by
    cases ho : opLevel k.t with
    | none => rfl
    | some l => exact absurd (.inl (by rw [ho]; rfl)) h4
  simp only [ends, keyEnds, h5, h2, Bool.and_true, Bool.true_and, bne_iff_ne]
  exact fun e => h4 (.inr e)

theorem Free.cons {e : Edge} (h : Free (.op e :: rs) rest) :
    Free rs rest ∧ ∃ k r, rest = k :: r ∧ Plain k ∧ ¬ e.Admits k.t := by
  obtain ⟨k, r, e1, h1, h2, h3⟩ := h
  exact ⟨⟨k, r, e1, h1, h2, fun o ho => h3 o (List.mem_cons_of_mem _ ho)⟩, k, r, e1, h1, h3 _ (List.mem_cons_self ..)⟩

/-- An operator an expression leaves behind is free. -/
theorem Free.op (hk : Plain k) (ho : (opLevel k.t).isSome = true) (h : ∀ o ∈ rs, ¬ o.Admits k.t) : Free rs (k :: rest) :=
  ⟨k, rest, rfl, hk, op_behind ho, h⟩

theorem taken_all (h : ∀ t ∈ ls, (opLevel t).isSome = true) : ∀ t ∈ ls, Taken 0 t := by
  intro t ht
  obtain ⟨l, hl⟩ := Option.isSome_iff_exists.1 (h t ht)
  exact ⟨l, hl, Nat.zero_le _⟩

/-! ## Second tokens -/

theorem Second.one (hk : Plain k) : Second [k] := fun k' r h1 h2 h3 => ⟨k, k', r, rfl, hk, h1, h2, fun _ => h3⟩

theorem Second.two {k' : Token} (hk : Plain k) (hk' : Plain k') (h : k'.t ≠ .colon)
    (hs : k.t = .kwStatic → k'.t ≠ .variable) : Second (k :: k' :: ts) :=
  fun x r _ _ _ => ⟨k, k', ts ++ x :: r, rfl, hk, hk', h, hs⟩

theorem Second.next (hk : Plain k) (hn : Next ts p) (hp : ∀ t, p t = true → t ≠ .colon)
    (hs : k.t ≠ .kwStatic) : Second (k :: ts) := by
  obtain ⟨k', r, rfl, h1, h2⟩ := hn
  exact .two hk h1 (hp _ h2) (fun h => absurd h hs)

theorem Second.tok {k' : Token} {t t' : TT} (hk : Tok t k) (hk' : Tok t' k') (h : t' ≠ .colon ∧ t' ≠ .variable) :
    Second (k :: k' :: ts) :=
  .two hk.1 hk'.1 (by rw [hk'.2]; exact h.1) (fun _ => by rw [hk'.2]; exact h.2)

theorem Second.append (h : Second ts) (hk : Plain k) (h1 : k.t ≠ .colon) (h2 : k.t ≠ .variable) : Second (ts ++ k :: us) := by
  intro x r _ _ _
  obtain ⟨k0, k1, r', e, h3⟩ := h k (us ++ x :: r) hk h1 h2
  exact ⟨k0, k1, r', by rw [← e]; simp, h3⟩

theorem Second.appendTok (h : Second ts) {t : TT} (hk : Tok t k) (ht : t ≠ .colon ∧ t ≠ .variable) : Second (ts ++ k :: us) :=
  h.append hk.1 (by rw [hk.2]; exact ht.1) (by rw [hk.2]; exact ht.2)

theorem start_noColon (t : TT) (h : exprStart t = true) : t ≠ .colon := start_ne' h rfl

/-! ## From operands to expressions -/

theorem initCall_stop (h : Next rest behind) (n : Node) : LoopRd doc .other initCallBody n [] rest n := by
  obtain ⟨k, r, rfl, h1, h2⟩ := h
  refine LoopRd.stop (Rd.of (p := behind) (initCallBody_stop h1 (behind_chain h2) n) ⟨k, r, rfl, h1, h2⟩)

theorem PrimRd.call (h : PrimRd doc ts n) : CallRd doc ts n where
  first := h.first
  second := h.second
  reads us rest a hn hl := Rd.bind (h.reads _ hn) (Rd.loop hl)

theorem operators_end {b : Nat} {r : List Token} (hk : Plain k) (h : takes b k = false) (e : Node) :
    LoopRd doc .other (operatorsBody b) e [] (k :: r) e := by
  refine LoopRd.stop ?_
  unfold operatorsBody
  refine Rd.bind0 (ts := []) (Rd.of (p := fun _ => true) (Reads.takeOr_no hk h) ⟨k, r, rfl, hk, rfl⟩) ?_
  exact Rd.pure

/-- What `callF` reads as a whole is an expression. -/
theorem ExprRd.ofCall (h1 : Next ts operandStart) (h2 : Second ts)
    (h : ∀ rest, Free rs rest → Rd doc [] callF ts rest n) : ExprRd doc ts n [] rs where
  first := h1.mono operand_start
  second := h2
  lefts _ ht := nomatch ht
  reads b us rest a _ hf hl := by
    unfold expressionF
    refine Rd.bind (a := n) ?_ (Rd.loop hl)
    obtain ⟨k0, r0, rfl, hk0, hs⟩ := h1
    unfold operand
    refine Rd.bind0 (Rd.of (p := fun _ => true) (Reads.takeOr_no hk0 (by simp [operand_noPrefix hs]))
      ⟨k0, _, rfl, hk0, rfl⟩) ?_
    exact Rd.call (h _ hf)

theorem CallRd.expr (h : CallRd doc ts n) : ExprRd doc ts n [] [] := by
  refine .ofCall h.first h.second fun rest hf => ?_
  have hb := hf.next
  have := h.reads [] rest n (hb.mono behind_primFollow) (initCall_stop hb n)
  rwa [List.append_nil] at this

/-- What `primary` reads with everything that follows is an expression that is open for all. -/
theorem ExprRd.greedy (h1 : Next ts operandStart) (h2 : Second ts)
    (h : ∀ rest, Next rest ends → Rd doc [] primary ts rest n) : ExprRd doc ts n [] [.all] := by
  refine .ofCall h1 h2 fun rest hf => ?_
  have hb := hf.next
  have := Rd.bind (ts := ts) (us := []) (rest := rest) (f := primary) (g := fun r e => initCall r e)
    (h _ (hf.all (List.mem_cons_self ..))) (Rd.loop (initCall_stop hb n))
  rw [List.append_nil] at this
  exact this

theorem ExprRd.operand {b : Nat} (h : ExprRd doc ts n ls rs) (hl : ∀ t ∈ ls, Taken b t) (hf : Free rs rest)
    (hb : ∀ k r, rest = k :: r → takes b k = false) : Rd doc [] (fun r => r.expression b) ts rest n := by
  obtain ⟨k, r, rfl, hk, h1, h2⟩ := hf
  have := h.reads b [] (k :: r) n hl ⟨k, r, rfl, hk, h1, h2⟩ (operators_end hk (hb k r rfl) n)
  rw [List.append_nil] at this
  exact Rd.expression this

theorem takes_zero_no {k : Token} (h : opLevel k.t = none) : takes 0 k = false := by
  cases ht : takes 0 k with
  | false => rfl
  | true =>
    rw [takes_zero, h] at ht
    cases ht

theorem ExprRd.semi (h : ExprRd doc ts n ls rs) : DelRd doc (· == .semicolon) ts n where
  first := h.first
  second := h.second
  reads rest hn := by
    refine h.operand (taken_all h.lefts) (Next.freeSemi hn) ?_
    rintro k r rfl
    obtain ⟨k', r', e, -, h2⟩ := hn
    cases e
    exact takes_zero_no (by rw [eq_of_beq h2]; decide)

theorem ExprRd.delimited (h : ExprRd doc ts n ls rs) (hb : Rim.bare ∉ rs) : DelRd doc ends ts n where
  first := h.first
  second := h.second
  reads rest hn := by
    refine h.operand (taken_all h.lefts) (Next.free hn hb) ?_
    rintro k r rfl
    obtain ⟨k', r', e, -, h2⟩ := hn
    cases e
    exact takes_zero_no (keyEnds_op (ends_keyEnds _ h2))

theorem ExprRd.key {es : List Edge} (h : ExprRd doc ts n ls (es.map .op)) : DelRd doc keyEnds ts n where
  first := h.first
  second := h.second
  reads rest hn := by
    refine h.operand (taken_all h.lefts) (Next.freeKey hn) ?_
    rintro k r rfl
    obtain ⟨k', r', e, -, h2⟩ := hn
    cases e
    exact takes_zero_no (keyEnds_op h2)

theorem DelRd.tok {q : TT → Bool} (h : DelRd doc q ts n) {t : TT} (hk : Tok t k) (ht : q t = true) :
    Rd doc [] (fun r => r.expression 0) ts (k :: rest) n :=
  h.reads _ ⟨k, rest, rfl, hk.1, by rw [hk.2]; exact ht⟩

theorem DelRd.noFirst {q : TT → Bool} (h : DelRd doc q ts n) : Next (ts ++ rest) exprStart := h.first.append

/-! ## Operators -/

theorem ExprRd.un (h : ExprRd doc ts n ls rs) (hk : Plain k) (hp : (prefixLevel k.t).isSome = true)
    (hls : ∀ t ∈ ls, (Edge.pre k.t).Admits t) : ExprRd doc (k :: ts) (.unary n k) [] (.op (.pre k.t) :: rs) where
  first := ⟨k, ts, rfl, hk, by simp [exprStart, hp]⟩
  second := .next hk h.first start_noColon (fun he => by rw [he] at hp; cases hp)
  lefts _ ht := nomatch ht
  reads b us rest a _ hf hl := by
    unfold expressionF
    refine Rd.bind (ts := k :: ts) (a := Node.unary n k) ?_ (Rd.loop hl)
    have hps : k.t.prefixBP.isSome = true := prefixBP_isSome hp
    unfold Parser.operand
    refine Rd.bind1 (Rd.of (p := fun _ => true) (Reads.takeOr_yes hk hps) ⟨k, _, rfl, hk, rfl⟩) ?_
    show Rd doc [] (fun r => match k.t.prefixBP with
      | some rb => do
        let e ← r.expression rb
        pure (.unary e k)
      | none => r.call) _ _ _
    cases hb : k.t.prefixBP with
    | none => rw [hb] at hps; cases hps
    | some rb =>
      refine Rd.bind_last (a := n) ?_ Rd.pure
      have hbp : Edge.Bp (.pre k.t) rb := hb
      obtain ⟨hf', k', r', e', -, hn⟩ := hf.cons
      refine h.operand (fun t ht => taken_edge hbp (hls t ht)) hf' ?_
      rintro k2 r2 e2
      rw [e'] at e2
      cases e2
      cases ht : takes rb k' with
      | false => rfl
      | true => exact absurd ((takes_edge hbp k').1 ht) hn

theorem ExprRd.post (h : ExprRd doc ts n ls rs) (hk : Plain k) (hp : (postfixLevel k.t).isSome = true)
    (hrs : ∀ o ∈ rs, ¬ o.Admits k.t) : ExprRd doc (ts ++ [k]) (.postUnary n k) (k.t :: ls) [] where
  first := h.first.append
  second := h.second.append hk (op_ne (op_of_postfix hp) rfl) (op_ne (op_of_postfix hp) rfl)
  lefts t ht := by
    rcases List.mem_cons.1 ht with rfl | ht
    · exact op_of_postfix hp
    · exact h.lefts t ht
  reads b us rest a hl hf hloop := by
    rw [List.append_assoc]
    refine h.reads b _ _ _ (fun t ht => hl t (List.mem_cons_of_mem _ ht)) (Free.op hk (op_of_postfix hp) hrs) ?_
    exact LoopRd.step (Rd.of (p := fun _ => true) (operators_post hk hp (hl _ (List.mem_cons_self ..)) _)
      ⟨k, _, rfl, hk, rfl⟩) hloop

theorem operators_inf {b : Nat} (hk : Plain k) (hi : (infixLevel k.t).isSome = true) (ht : Taken b k.t) (e : Node)
    {e' : Node} (hr : ∀ lb rb, k.t.infixBP = some (lb, rb) → Rd doc [] (fun r => infixRhs r e k rb) ts rest e') :
    Rd doc [] (fun r => operatorsBody b r e) (k :: ts) rest (.inl e') := by
  have hnp := infix_no_postfix hi
  have h0 : takesPostfix b k = false := by
    unfold takesPostfix
    rw [postfixBP_level, hnp]
    simp
  have h1 : takes b k = true := (takes_iff b k).2 ht
  unfold operatorsBody
  refine Rd.bind1 (Rd.of (p := fun _ => true) (Reads.takeOr_yes hk h1) ⟨k, _, rfl, hk, rfl⟩) ?_
  rw [show ((fun r : Rec => _) : Rec → P (Node ⊕ Node)) = fun r => (match k.t.infixBP with
          | some (_, rb) => do
            let e ← infixRhs r e k rb
            pure (.inl e)
          | none => pure (.inr e) : P (Node ⊕ Node)) from by
    funext r
    simp only [h0, if_true]
    rfl]
  cases hb : k.t.infixBP with
  | none =>
    rw [infixBP_level] at hb
    cases hl : infixLevel k.t with
    | none => rw [hl] at hi; cases hi
    | some l => rw [hl] at hb; cases hb
  | some p =>
    obtain ⟨lb, rb⟩ := p
    exact Rd.bind_last (hr lb rb hb) Rd.pure

/-- The right operand of an infix operator. -/
theorem ExprRd.rhs (h : ExprRd doc ts n ls rs) {lb rb : Nat} (hb : k.t.infixBP = some (lb, rb))
    (hls : ∀ t ∈ ls, (Edge.inf k.t).Admits t) (hf : Free (.op (.inf k.t) :: rs) rest) :
    Rd doc [] (fun r => r.expression rb) ts rest n := by
  have hbp : Edge.Bp (.inf k.t) rb := ⟨lb, hb⟩
  obtain ⟨hf', k', r', e', -, hn⟩ := hf.cons
  refine h.operand (fun t ht => taken_edge hbp (hls t ht)) hf' ?_
  rintro k2 r2 e2
  rw [e'] at e2
  cases e2
  cases ht : takes rb k' with
  | false => rfl
  | true => exact absurd ((takes_edge hbp k').1 ht) hn

/-- An infix operator. -/
theorem ExprRd.inf (h : ExprRd doc ts n ls rs) (hk : Plain k) (hi : (infixLevel k.t).isSome = true)
    (hrs : ∀ o ∈ rs, ¬ o.Admits k.t) {n' : Node} {rs' : List Rim}
    (hr : ∀ lb rb rest, k.t.infixBP = some (lb, rb) → Free (.op (.inf k.t) :: rs') rest →
      Rd doc [] (fun r => infixRhs r n k rb) us rest n') :
    ExprRd doc (ts ++ k :: us) n' (k.t :: ls) (.op (.inf k.t) :: rs') where
  first := h.first.append
  second := h.second.append hk (op_ne (op_of_infix hi) rfl) (op_ne (op_of_infix hi) rfl)
  lefts t ht := by
    rcases List.mem_cons.1 ht with rfl | ht
    · exact op_of_infix hi
    · exact h.lefts t ht
  reads b ws rest a hl hf hloop := by
    rw [List.append_assoc]
    refine h.reads b _ _ _ (fun t ht => hl t (List.mem_cons_of_mem _ ht)) (Free.op hk (op_of_infix hi) hrs) ?_
    exact LoopRd.step (ts := k :: us) (operators_inf hk hi (hl _ (List.mem_cons_self ..)) _ (fun lb rb hb => hr lb rb _ hb hf)) hloop

theorem ExprRd.bin {r : Node} {ls' : List TT} {rs' : List Rim} (h : ExprRd doc ts n ls rs) (hk : Plain k)
    (hi : (infixLevel k.t).isSome = true) (hq : k.t ≠ .questionMark) (hr : ExprRd doc us r ls' rs')
    (hrs : ∀ o ∈ rs, ¬ o.Admits k.t) (hls : ∀ t ∈ ls', (Edge.inf k.t).Admits t) :
    ExprRd doc (ts ++ k :: us) (.binary n k r) (k.t :: ls) (.op (.inf k.t) :: rs') := by
  refine h.inf hk hi hrs fun lb rb rest hb hf => ?_
  unfold infixRhs
  simp only [hq, if_false]
  exact Rd.bind_last (a := r) (hr.rhs hb hls hf) Rd.pure

theorem ExprRd.tern {q c : Token} {ms : List Token} {m r : Node} {ls' : List TT} {rs' : List Rim} (h : ExprRd doc ts n ls rs)
    (hq : Tok .questionMark q) (hm : DelRd doc ends ms m) (hc : Tok .colon c) (hr : ExprRd doc us r ls' rs')
    (hrs : ∀ o ∈ rs, ¬ o.Admits q.t) (hls : ∀ t ∈ ls', (Edge.inf q.t).Admits t) :
    ExprRd doc (ts ++ q :: (ms ++ c :: us)) (.ternary n q (some m) c r) (q.t :: ls) (.op (.inf q.t) :: rs') := by
  refine h.inf hq.1 (by rw [hq.2]; rfl) hrs fun lb rb rest hb hf => ?_
  unfold infixRhs
  simp only [hq.2, if_true]
  refine Rd.bind0 (a := none) (Rd.ignore_no (p := exprStart) ?_ rfl) ?_
  · rw [List.append_assoc]
    exact hm.first.append.ahead
  · refine Rd.bind (a := m) (hm.tok hc (by decide)) ?_
    refine Rd.bind1 (Rd.consume hc) ?_
    exact Rd.bind_last (a := r) (hr.rhs hb hls hf) Rd.pure

theorem ExprRd.short {q c : Token} {r : Node} {ls' : List TT} {rs' : List Rim} (h : ExprRd doc ts n ls rs)
    (hq : Tok .questionMark q) (hc : Tok .colon c) (hr : ExprRd doc us r ls' rs')
    (hrs : ∀ o ∈ rs, ¬ o.Admits q.t) (hls : ∀ t ∈ ls', (Edge.inf q.t).Admits t) :
    ExprRd doc (ts ++ q :: c :: us) (.ternary n q none c r) (q.t :: ls) (.op (.inf q.t) :: rs') := by
  refine h.inf hq.1 (by rw [hq.2]; rfl) hrs fun lb rb rest hb hf => ?_
  unfold infixRhs
  simp only [hq.2, if_true]
  refine Rd.bind1 (Rd.ignore_yes hc) ?_
  exact Rd.bind_last (a := r) (hr.rhs hb hls hf) Rd.pure

end PhpLs.Syntax
