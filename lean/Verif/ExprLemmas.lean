import Verif.ExprSpec

/-!
# Reading operator expressions

The parser reads every valid operator expression (`Verif/ExprSpec.lean`) to its tree.
-/

namespace PhpLs.Parser

open PhpLs Ex

/-! ## The binding powers of the code in terms of the levels of the specification -/

/-- Left binding power of a level. -/
def lbN (l : Level) : Nat :=
  [0, 21, 40, 50, 60, 70, 80, 84, 87, 91, 97, 99, 101, 110, 120, 131, 141, 151, 171, 180, 190, 300][l]

/-- Right binding power of a level. -/
def rbN (l : Level) : Nat :=
  [1, 20, 41, 51, 61, 71, 81, 85, 86, 90, 96, 98, 100, 111, 121, 130, 140, 150, 170, 181, 191, 400][l]

theorem infixBP_level (t : TT) : t.infixBP = (infixLevel t).map fun l => (lbN l, rbN l) := by
  cases t <;> rfl

theorem postfixBP_level (t : TT) : t.postfixBP = (postfixLevel t).map lbN := by
  cases t <;> rfl

theorem rbN_le (l l' : Level) : rbN l ≤ lbN l' ↔ (l < l' ∨ (l = l' ∧ assoc l = .right)) := by
  revert l l'
  decide

/-- Numbers of prefix operators by level. -/
def PreBp (b : Nat) (l : Level) : Prop := ∀ l' : Level, l' < 21 → (b ≤ lbN l' ↔ l ≤ l')

instance (b : Nat) (l : Level) : Decidable (PreBp b l) := by unfold PreBp; infer_instance

theorem prefixBP_level (t : TT) : (∀ b, t.prefixBP = some b → ∃ l, prefixLevel t = some l ∧ PreBp b l) ∧
    (t.prefixBP = none → prefixLevel t = none) := by
  have h1 : PreBp 202 21 := by decide
  have h2 : PreBp 201 21 := by decide
  have h3 : PreBp 180 19 := by decide
  have h4 : PreBp 140 16 := by decide
  have h5 : PreBp 181 20 := by decide
  cases t <;> first
    | exact ⟨fun b h => by (injection h with h; subst h; exact ⟨_, rfl, by assumption⟩), fun h => by (cases h)⟩
    | exact ⟨fun b h => (by cases h), fun _ => rfl⟩

theorem opLevel_lt (t : TT) (l : Level) (h : opLevel t = some l) : l < 21 := by
  cases t <;> first
    | (injection h with h; subst h; decide)
    | cases h

/-- The loop of `expression` takes the operator, postfix or infix. -/
def takes (b : Nat) (k : Token) : Bool := takesPostfix b k || takesInfix b k

theorem takes_iff (b : Nat) (k : Token) : takes b k = true ↔ ∃ l, opLevel k.t = some l ∧ b ≤ lbN l := by
  unfold takes takesPostfix takesInfix opLevel
  rw [postfixBP_level, infixBP_level]
  cases hp : postfixLevel k.t with
  | some l =>
    have hpre : k.t.prefixBP.isSome = true := by
      revert hp
      cases k.t <;> intro hp <;> first
        | rfl
        | cases hp
    simp [hpre]
  | none =>
    cases hi : infixLevel k.t with
    | some l => simp
    | none => simp

/-- The binding power of the operand an open operator asks for. -/
def Edge.Bp (o : Edge) (b : Nat) : Prop :=
  match o with
  | .pre t => t.prefixBP = some b
  | .inf t => ∃ lb, t.infixBP = some (lb, b)

theorem takes_edge {o : Edge} {b : Nat} (ho : Edge.Bp o b) (k : Token) : takes b k = true ↔ o.Admits k.t := by
  rw [takes_iff]
  cases o with
  | pre t =>
    obtain ⟨lp, h1, h2⟩ := (prefixBP_level t).1 b ho
    constructor
    · rintro ⟨l, h3, h4⟩
      exact ⟨lp, l, h1, h3, (h2 l (opLevel_lt _ _ h3)).1 h4⟩
    · rintro ⟨lp', l, h3, h4, h5⟩
      rw [h1] at h3
      injection h3 with h3
      subst h3
      exact ⟨l, h4, (h2 l (opLevel_lt _ _ h4)).2 h5⟩
  | inf t =>
    obtain ⟨lb, ho⟩ := ho
    rw [infixBP_level] at ho
    cases hi : infixLevel t with
    | none => rw [hi] at ho; cases ho
    | some lp =>
      rw [hi] at ho
      injection ho with ho
      injection ho with h1 h2
      subst h2
      constructor
      · rintro ⟨l, h3, h4⟩
        exact ⟨lp, l, hi, h3, (rbN_le _ _).1 h4⟩
      · rintro ⟨lp', l, h3, h4, h5⟩
        rw [hi] at h3
        injection h3 with h3
        subst h3
        exact ⟨l, h4, (rbN_le _ _).2 h5⟩

theorem takes_zero (k : Token) : takes 0 k = true ↔ (opLevel k.t).isSome = true := by
  rw [takes_iff, Option.isSome_iff_exists]
  simp

/-! ## Calls: operands without operators -/

variable {doc : Token → Option Node} {ts rest : List Token} {k : Token}

/-- The body of the loop of `calls::init_call`. -/
def initCallBody (r : Rec) (expr : Node) : P (Node ⊕ Node) := do
    if ← nextOneOf [.openParenthesis] then do
      let e ← finishCall r expr
      pure (.inl e)
    else do
      match ← consumeOneOfOrIgnore [.objectOperator, .nullsafeObjectOperator] with
      | some os => do
        let e ← memberAccess r expr os
        pure (.inl e)
      | none => do
        match ← consumeOrIgnore .paamayimNekudayim with
        | some pn => do
          let e ← staticAccess r expr pn
          pure (.inl e)
        | none => do
          match ← consumeOrIgnore .openBrackets with
          | some ob => do
            let e ← fieldAccess r expr ob
            pure (.inl e)
          | none => do
            match ← consumeOrIgnore .openCurly with
            | some oc => do
              let i ← r.expression 0
              let cc ← consume .closeCurly
              pure (.inl (.field expr oc (some i) cc))
            | none => pure (.inr expr)

theorem initCall_eq (r : Rec) (e : Node) : initCall r e = loopP .other r.fuel (initCallBody r) e := rfl

/-- The tokens that continue a chain of calls and accesses. -/
def chainSet : List TT := [.openParenthesis, .objectOperator, .nullsafeObjectOperator, .paamayimNekudayim, .openBrackets,
  .openCurly]

theorem initCallBody_stop (hk : Plain k) (hc : k.t ∉ chainSet) (e : Node) :
    Reads doc (fun r => initCallBody r e) [] (k :: rest) (.inr e) := by
  simp only [chainSet, List.mem_cons, List.not_mem_nil, or_false, not_or] at hc
  obtain ⟨h1, h2, h3, h4, h5, h6⟩ := hc
  unfold initCallBody
  refine Reads.bind0 (Reads.nextOneOf_no hk (by simpa using h1)) ?_
  refine Reads.bind0 (Reads.oneOf_no hk (by simp [h2, h3])) ?_
  refine Reads.bind0 (Reads.ignore_no hk h4) ?_
  refine Reads.bind0 (Reads.ignore_no hk h5) ?_
  refine Reads.bind0 (Reads.ignore_no hk h6) ?_
  exact Reads.pure

theorem initCallBody_index {ob cb : Token} {i : Node} (ho : Plain ob ∧ ob.t = .openBrackets)
    (hc : Plain cb ∧ cb.t = .closeBrackets) (e : Node) {k0 : Token} {ts0 : List Token} (hts : ts = k0 :: ts0)
    (hk0 : Plain k0) (hk0' : k0.t ≠ .closeBrackets)
    (hi : Reads doc (fun r => r.expression 0) ts (cb :: rest) i) :
    Reads doc (fun r => initCallBody r e) (ob :: (ts ++ [cb])) rest (.inl (.field e ob (some i) cb)) := by
  unfold initCallBody
  have h : ∀ t, t ≠ TT.openBrackets → ob.t ≠ t := fun t ht he => ht (he.symm.trans ho.2)
  refine Reads.bind0 (Reads.nextOneOf_no ho.1 (by simp [ho.2])) ?_
  refine Reads.bind0 (Reads.oneOf_no ho.1 (by simp [ho.2])) ?_
  refine Reads.bind0 (Reads.ignore_no ho.1 (h _ (by decide))) ?_
  refine Reads.bind1 (Reads.ignore_yes ho.1 ho.2) ?_
  refine Reads.bind_last (a := Node.field e ob (some i) cb) ?_ Reads.pure
  unfold fieldAccess
  subst hts
  refine Reads.bind0 (Reads.ignore_no hk0 hk0') ?_
  refine Reads.bind (a := i) ?_ ?_
  · simpa using hi
  · exact Reads.bind1 (ts := []) (Reads.consume hc.1 hc.2) Reads.pure

theorem initCallBody_member {op m : Token} (ho : Plain op)
    (ho' : op.t = .objectOperator ∨ op.t = .nullsafeObjectOperator) (hm : Plain m) (hm' : m.isIdentifier = true)
    (e : Node) :
    Reads doc (fun r => initCallBody r e) [op, m] rest (.inl (.member e op none (.literal m) none)) := by
  unfold initCallBody
  refine Reads.bind0 (Reads.nextOneOf_no ho (by rcases ho' with h | h <;> simp [h])) ?_
  refine Reads.bind1 (Reads.oneOf_yes ho (by simpa using ho')) ?_
  refine Reads.bind_last (a := Node.member e op none (.literal m) none) ?_ Reads.pure
  unfold memberAccess
  have h : ∀ t, t.isIdentifier = false → m.t ≠ t := fun t ht he => by
    have : m.t.isIdentifier = true := hm'
    rw [he, ht] at this
    cases this
  refine Reads.bind0 (Reads.ignore_no hm (h _ rfl)) ?_
  refine Reads.bind0 (Reads.nextOneOf_no hm (by simpa using h _ rfl)) ?_
  intro s hs
  obtain ⟨s', h1, h2, n0, h3⟩ := Reads.consumeIdentifier (doc := doc) (rest := rest) hm hm' s hs
  refine ⟨s', h1, h2, n0, fun n hn => ?_⟩
  have : consumeIdentifier s = .ok m s' := h3 n hn
  show P.catchErr consumeIdentifier _ _ s = _
  unfold P.catchErr
  rw [this]
  rfl

theorem primary_lit (hk : Plain k) (h : k.t ∈ literalSet) : Reads doc primary [k] rest (.literal k) := by
  unfold primary
  exact Reads.bind1 (ts := []) (Reads.oneOf_yes hk h) Reads.pure

theorem primary_var (hk : Plain k) (h : k.t = .variable) (hl : k.label.isSome = true) :
    Reads doc primary [k] rest (.variable k) := by
  unfold primary
  refine Reads.bind0 (Reads.oneOf_no hk (by rw [h]; decide)) ?_
  refine Reads.bind0 (Reads.nextOneOf_yes hk (by simp [h])) ?_
  show Reads doc variable' [k] rest _
  unfold variable'
  refine Reads.bind1 (ts := []) (Reads.consume hk h) ?_
  simp only [hl, if_true]
  exact Reads.pure

/-- The loop of `types::non_empty_type_ref`. -/
theorem typeRef_loop {path : List (Token × Token)}
    (hp : ∀ p ∈ path, (Plain p.1 ∧ p.1.t = .namespaceSeparator) ∧ Plain p.2 ∧ p.2.isIdentifier = true)
    (hk : Plain k) (hk' : k.t ≠ .namespaceSeparator) (acc : List Token) :
    LoopReads doc .other (fun _ (path : List Token) => do
      match ← consumeOrIgnore .namespaceSeparator with
      | some ns => do
        let i ← consumeIdentifier
        pure (.inl (path ++ [ns, i]))
      | none => pure (.inr path)) acc (pathToks path) (k :: rest) (acc ++ pathToks path) := by
  induction path generalizing acc with
  | nil =>
    refine LoopReads.stop ?_
    refine Reads.bind_last (Reads.ignore_no hk hk') ?_
    simpa [pathToks] using Reads.pure
  | cons p path ih =>
    obtain ⟨⟨h1, h2⟩, h3, h4⟩ := hp p (List.mem_cons_self ..)
    have e : pathToks (p :: path) = [p.1, p.2] ++ pathToks path := rfl
    rw [e]
    refine LoopReads.step (b' := acc ++ [p.1, p.2]) ?_ ?_
    · refine Reads.bind1 (Reads.ignore_yes h1 h2) ?_
      exact Reads.bind1 (ts := []) (Reads.consumeIdentifier h3 h4) Reads.pure
    · rw [← List.append_assoc]
      exact ih (fun q hq => hp q (List.mem_cons_of_mem _ hq)) _

theorem nonEmptyTypeRef_reads {ns : Option Token} {id : Token} {path : List (Token × Token)}
    (hns : ∀ k ∈ ns, Plain k ∧ k.t = .namespaceSeparator) (hid : Plain id ∧ id.isIdentifier = true)
    (hp : ∀ p ∈ path, (Plain p.1 ∧ p.1.t = .namespaceSeparator) ∧ Plain p.2 ∧ p.2.isIdentifier = true)
    (hk : Plain k) (hk' : k.t ≠ .namespaceSeparator) :
    Reads doc nonEmptyTypeRef (ns.toList ++ id :: pathToks path) (k :: rest)
      (.typeRef ⟨ns.toList ++ id :: pathToks path, false⟩) := by
  unfold nonEmptyTypeRef
  have hidt : id.t ≠ .namespaceSeparator := fun h => by
    have : id.t.isIdentifier = true := hid.2
    rw [h] at this
    cases this
  refine Reads.bind (a := ns) ?_ ?_
  · cases ns with
    | none => exact Reads.ignore_no hid.1 hidt
    | some n => exact Reads.ignore_yes (hns n rfl).1 (hns n rfl).2
  · refine Reads.bind1 (Reads.consumeIdentifier hid.1 hid.2) ?_
    refine Reads.bind_last (Reads.loop (typeRef_loop hp hk hk' (ns.toList ++ [id]))) ?_
    rw [List.append_assoc]
    exact Reads.pure

theorem primary_name {ns : Option Token} {id : Token} {path : List (Token × Token)}
    (hns : ∀ k ∈ ns, Plain k ∧ k.t = .namespaceSeparator) (hn : ns = none → id.t = .identifier)
    (hid : Plain id ∧ id.isIdentifier = true)
    (hp : ∀ p ∈ path, (Plain p.1 ∧ p.1.t = .namespaceSeparator) ∧ Plain p.2 ∧ p.2.isIdentifier = true)
    (hk : Plain k) (hk' : k.t ≠ .namespaceSeparator) :
    Reads doc primary (ns.toList ++ id :: pathToks path) (k :: rest)
      (.typeRef ⟨ns.toList ++ id :: pathToks path, false⟩) := by
  have key : ∃ k0 ts0, ns.toList ++ id :: pathToks path = k0 :: ts0 ∧ Plain k0 ∧
      (k0.t = .namespaceSeparator ∨ k0.t = .identifier) := by
    cases ns with
    | none => exact ⟨id, _, rfl, hid.1, .inr (hn rfl)⟩
    | some n => exact ⟨n, _, rfl, (hns n rfl).1, .inl (hns n rfl).2⟩
  obtain ⟨k0, ts0, e, hk0, ht0⟩ := key
  have hr := nonEmptyTypeRef_reads (doc := doc) (rest := rest) hns hid hp hk hk'
  rw [e] at hr ⊢
  unfold primary
  refine Reads.bind0 (Reads.oneOf_no hk0 (by rcases ht0 with h | h <;> rw [h] <;> decide)) ?_
  refine Reads.bind0 (Reads.nextOneOf_no hk0 (by rcases ht0 with h | h <;> rw [h] <;> decide)) ?_
  refine Reads.bind0 (Reads.nextOneOf_yes hk0 (by simpa using ht0)) ?_
  exact hr

theorem primary_group {lp rp : Token} {e : Node} (hl : Plain lp ∧ lp.t = .openParenthesis)
    (hr : Plain rp ∧ rp.t = .closeParenthesis) (he : Reads doc (fun r => r.expression 0) ts (rp :: rest) e) :
    Reads doc primary (lp :: (ts ++ [rp])) rest (.grouping e) := by
  have h : ∀ t, t ≠ TT.openParenthesis → lp.t ≠ t := fun t ht he => ht (he.symm.trans hl.2)
  have h' : ∀ l : List TT, TT.openParenthesis ∉ l → lp.t ∉ l := fun l hl' he => hl' (hl.2 ▸ he)
  unfold primary
  refine Reads.bind0 (Reads.oneOf_no hl.1 (h' _ (by decide))) ?_
  refine Reads.bind0 (Reads.nextOneOf_no hl.1 (h' _ (by decide))) ?_
  refine Reads.bind0 (Reads.nextOneOf_no hl.1 (h' _ (by decide))) ?_
  refine Reads.bind0 (Reads.hereDocBody_no hl.1 (h _ (by decide))) ?_
  show Reads doc primaryIsset _ _ _
  unfold primaryIsset
  refine Reads.bind0 (Reads.ignore_no hl.1 (h _ (by decide))) ?_
  refine Reads.bind0 (Reads.ignore_no hl.1 (h _ (by decide))) ?_
  refine Reads.bind0 (Reads.ignore_no hl.1 (h _ (by decide))) ?_
  show Reads doc primaryArray _ _ _
  unfold primaryArray
  refine Reads.bind0 (Reads.nextOneOf_no hl.1 (h' _ (by decide))) ?_
  refine Reads.bind0 (Reads.nextOneOf_no hl.1 (h' _ (by decide))) ?_
  refine Reads.bind0 (Reads.oneOf_no hl.1 (h' _ (by decide))) ?_
  refine Reads.bind0 (Reads.nextOneOf_no hl.1 (h' _ (by decide))) ?_
  refine Reads.bind0 (Reads.nextOneOf_yes hl.1 (by simp [hl.2])) ?_
  refine Reads.bind1 (Reads.ffAfter_yes hl.1 hl.2) ?_
  refine Reads.bind (a := e) (by simpa using he) ?_
  exact Reads.bind1 (ts := []) (Reads.ffAfter_yes hr.1 hr.2) Reads.pure

end PhpLs.Parser
