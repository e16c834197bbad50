import Verif.SyntaxExpr

/-!
# Reading whole programs: names, types, calls, lists and functions
-/

namespace PhpLs.Syntax

open PhpLs PhpLs.Parser PhpLs.Parser.Ex

variable {doc : Token → Option Node} {ts us vs rest : List Token} {k : Token} {n : Node} {ns : List Node} {p : TT → Bool}
  {t : TT}

/-- `bind` is associative. -/
theorem Rd.assoc {α β γ : Type} {d : List Token} {f : Rec → P α} {g : Rec → α → P β} {h : Rec → β → P γ} {a : γ}
    (H : Rd doc d (fun r => (f r >>= g r) >>= h r) ts rest a) : Rd doc d (fun r => f r >>= fun x => g r x >>= h r) ts rest a := by
  intro s hd hc hs
  obtain ⟨s', h1, h2, h3, h4, n0, hn⟩ := H s hd hc hs
  refine ⟨s', h1, h2, h3, h4, n0, fun n hnn => ?_⟩
  rw [← hn n hnn]
  show Bind.bind (m := P) _ _ s = Bind.bind (m := P) _ _ s
  simp only [bind, P.bind]
  cases f (knot doc n) s <;> rfl

/-! ## Names and types -/

/-- A token behind a name. -/
def nameEnd (t : TT) : Bool := t != .namespaceSeparator

theorem Name.next (h : Name ts n) : Next ts fun t => t == .namespaceSeparator || t.isIdentifier := by
  obtain ⟨h1, h2, h3⟩ := h
  rename_i ns id path
  cases ns with
  | none => exact ⟨id, _, rfl, h2.1, by have : id.t.isIdentifier = true := h2.2; simp [this]⟩
  | some x => exact ⟨x, _, rfl, (h1 x rfl).1, by rw [(h1 x rfl).2]; rfl⟩

theorem Name.reads (h : Name ts n) (hn : Next rest nameEnd) : Rd doc [] nonEmptyTypeRef ts rest n := by
  have hs := (Name.next h).append (rest := rest)
  obtain ⟨h1, h2, h3⟩ := h
  obtain ⟨k, r, rfl, h4, h5⟩ := hn
  exact Rd.of (nonEmptyTypeRef_reads h1 h2 h3 h4 (by simpa [nameEnd] using h5)) hs

theorem typeRef_path {path : List (Token × Token)} {id : Token} (hid : Word id)
    (hp : ∀ p ∈ path, Tok .namespaceSeparator p.1 ∧ Word p.2) (hn : Next rest nameEnd) (acc : List Token) :
    LoopRd doc .other (fun _ (path : List Token) => do
      match ← takeIf Token.isIdentifier with
      | some i => do
        match ← consumeOrIgnore .namespaceSeparator with
        | some ns => pure (.inl (path ++ [i, ns]))
        | none => pure (.inr (path ++ [i]))
      | none => pure (.inr path)) acc (id :: pathToks path) rest (acc ++ id :: pathToks path) := by
  induction path generalizing acc id with
  | nil =>
    refine LoopRd.stop ?_
    refine Rd.bind1 (ts := []) (Rd.takeIf_yes hid.1 hid.2) ?_
    exact Rd.bind0 (Rd.ignore_no hn.ahead rfl) Rd.pure
  | cons q path ih =>
    obtain ⟨h1, h2⟩ := hp q (List.mem_cons_self ..)
    have e : id :: pathToks (q :: path) = [id, q.1] ++ (q.2 :: pathToks path) := rfl
    rw [e]
    refine LoopRd.step (b' := acc ++ [id, q.1]) ?_ ?_
    · refine Rd.bind1 (Rd.takeIf_yes hid.1 hid.2) ?_
      exact Rd.bind1 (ts := []) (Rd.ignore_yes h1) Rd.pure
    · rw [← List.append_assoc]
      exact ih h2 (fun x hx => hp x (List.mem_cons_of_mem _ hx)) _

theorem word_ne {k : Token} (h : Word k) {t : TT} (ht : t.isIdentifier = false) : k.t ≠ t := by
  intro e
  have : k.t.isIdentifier = true := h.2
  rw [e, ht] at this
  cases this

/-- `types::type_ref` reads a name. -/
theorem Name.typeRef (h : Name ts n) (hn : Next rest nameEnd) : Rd doc [] Parser.typeRef ts rest (some n) := by
  obtain ⟨h1, h2, h3⟩ := h
  rename_i ns id path
  unfold Parser.typeRef
  refine Rd.bind (a := ns) ?_ ?_
  · cases ns with
    | none => exact Rd.ignore_no (h2.next (rest := pathToks path ++ rest)).ahead rfl
    | some x => exact Rd.ignore_yes (h1 x rfl)
  · refine Rd.bind_last (Rd.loop (typeRef_path h2 h3 hn ns.toList)) ?_
    have : (ns.toList ++ id :: pathToks path).isEmpty = false := by cases ns <;> rfl
    simp only [this]
    exact Rd.pure

theorem names_comma {acc : List Node} (h : Names .comma ts ns) (hn : Next rest fun t => nameEnd t && t != .comma) :
    LoopRd doc .other (fun r (acc : List Node) => do
      let t ← nonEmptyTypeRef r
      match ← consumeOrIgnore .comma with
      | some _ => pure (.inl (acc ++ [t]))
      | none => pure (.inr (acc ++ [t]))) acc ts rest (acc ++ ns) := by
  induction h generalizing acc with
  | one h =>
    refine LoopRd.stop ?_
    refine Rd.bind_last (h.reads (hn.mono fun t ht => (Bool.and_eq_true_iff.1 ht).1)) ?_
    exact Rd.bind0 (ts := []) (Rd.ignore_no hn.ahead rfl) Rd.pure
  | @more ts us k n ns h hk hm ih =>
    have e : ts ++ k :: us = (ts ++ [k]) ++ us := by simp
    rw [e]
    refine LoopRd.step (b' := acc ++ [n]) ?_ ?_
    · refine Rd.bind (h.reads (hk.next.mono (q := nameEnd) fun t ht => by rw [eq_of_beq ht]; rfl)) ?_
      exact Rd.bind1 (ts := []) (Rd.ignore_yes hk) Rd.pure
    · have := ih (acc := acc ++ [n])
      rwa [List.append_assoc] at this

theorem Names.identifierList (h : Names .comma ts ns) (hn : Next rest fun t => nameEnd t && t != .comma) :
    Rd doc [] Parser.identifierList ts rest ns := Rd.loop (names_comma (acc := []) h hn)

/-- A token behind a type. -/
def typeEnd (t : TT) : Bool := t != .namespaceSeparator && t != .binaryOr

theorem names_or {acc : List Node} (h : Names .binaryOr ts ns) (hn : Next rest typeEnd) (hk : Tok .binaryOr k) :
    LoopRd doc .other (fun r (acc : List Node) => do
      match ← consumeOrIgnore .binaryOr with
      | some _ => do
        let e ← nonEmptyTypeRef r
        pure (.inl (acc ++ [e]))
      | none => pure (.inr acc)) acc (k :: ts) rest (acc ++ ns) := by
  induction h generalizing acc k with
  | @one ts n h =>
    have e : k :: ts = (k :: ts) ++ [] := by simp
    rw [e]
    refine LoopRd.step (b' := acc ++ [n]) ?_ ?_
    · refine Rd.bind1 (Rd.ignore_yes hk) ?_
      exact Rd.bind_last (h.reads (hn.mono fun t ht => (Bool.and_eq_true_iff.1 ht).1)) Rd.pure
    · exact LoopRd.stop (Rd.bind0 (ts := []) (Rd.ignore_no hn.ahead rfl) Rd.pure)
  | @more ts us k' n ns h hk' hm ih =>
    have e : k :: (ts ++ k' :: us) = (k :: ts) ++ (k' :: us) := by simp
    rw [e]
    refine LoopRd.step (b' := acc ++ [n]) ?_ ?_
    · refine Rd.bind1 (Rd.ignore_yes hk) ?_
      exact Rd.bind_last (h.reads (hk'.next.mono (q := nameEnd) fun t ht => by rw [eq_of_beq ht]; rfl)) Rd.pure
    · have := ih (acc := acc ++ [n]) hk'
      rwa [List.append_assoc] at this

theorem Names.moreByOr (h : Names .binaryOr ts ns) (hn : Next rest typeEnd) :
    ∃ n ns' us vs, ns = n :: ns' ∧ ts = us ++ vs ∧ Name us n ∧ Next (vs ++ rest) nameEnd ∧
      Rd doc [] (fun r => Parser.moreByOr r [n]) vs rest ns := by
  cases h with
  | one h =>
    refine ⟨_, [], ts, [], rfl, by simp, h, hn.mono fun t ht => (Bool.and_eq_true_iff.1 ht).1, ?_⟩
    exact Rd.loop (LoopRd.stop (Rd.bind0 (ts := []) (Rd.ignore_no hn.ahead rfl) Rd.pure))
  | more h hk hm =>
    exact ⟨_, _, _, _, rfl, rfl, h, hk.next.mono (q := nameEnd) fun t ht => by (rw [eq_of_beq ht]; rfl),
      Rd.loop (names_or hm hn hk)⟩

theorem Names.union (h : Names .binaryOr ts ns) (hn : Next rest typeEnd) :
    Rd doc [] nonEmptyTypeRefUnion ts rest ns := by
  obtain ⟨n, ns', us, vs, rfl, rfl, h1, h2, h3⟩ := h.moreByOr (doc := doc) hn
  exact Rd.bind (h1.reads h2) h3

theorem Names.next {t : TT} (h : Names t ts ns) : Next ts fun t => t == .namespaceSeparator || t.isIdentifier := by
  cases h with
  | one h => exact h.next
  | more h => exact h.next.append

theorem TypeIs.dataType (h : TypeIs ts n) (hn : Next rest typeEnd) : Rd doc [] Parser.dataType ts rest n := by
  unfold Parser.dataType
  cases h with
  | plain h =>
    refine Rd.bind0 (Rd.ignore_no h.next.append.ahead rfl) ?_
    exact Rd.bind_last (h.union hn) Rd.pure
  | nullable hk h =>
    refine Rd.bind1 (Rd.ignore_yes hk) ?_
    exact Rd.bind_last (h.union hn) Rd.pure

/-- A token in front of which a missing type is noticed. -/
def noType (t : TT) : Bool := typeEnd t && t != .questionMark && !t.isIdentifier

theorem noType_end (t : TT) (h : noType t = true) : typeEnd t = true :=
  (Bool.and_eq_true_iff.1 (Bool.and_eq_true_iff.1 h).1).1

theorem OptType.argumentType {o : Option Node} (h : OptType ts o) (hn : Next rest noType) :
    Rd doc [] Parser.argumentType ts rest o := by
  unfold Parser.argumentType
  cases h with
  | none =>
    refine Rd.bind0 (Rd.ignore_no hn.ahead rfl) ?_
    refine Rd.bind0 (a := Option.none) ?_ Rd.pure
    unfold typeRefUnion
    refine Rd.bind0 (a := Option.none) ?_ Rd.pure
    unfold Parser.typeRef
    refine Rd.bind0 (Rd.ignore_no hn.ahead rfl) ?_
    refine Rd.bind0 (a := []) ?_ Rd.pure
    refine Rd.loop (LoopRd.stop ?_)
    refine Rd.bind0 (Rd.takeIf_no hn.ahead ?_) Rd.pure
    intro k hk
    have : k.t.isIdentifier = false := by simpa using (Bool.and_eq_true_iff.1 hk).2
    exact this
  | some h =>
    cases h with
    | plain h =>
      refine Rd.bind0 (Rd.ignore_no h.next.append.ahead rfl) ?_
      refine Rd.bind_last (a := Option.some _) ?_ Rd.pure
      unfold typeRefUnion
      obtain ⟨n, ns', us, vs, rfl, rfl, h1, h2, h3⟩ := h.moreByOr (doc := doc) (hn.mono noType_end)
      refine Rd.bind (h1.typeRef h2) ?_
      exact Rd.bind_last h3 Rd.pure
    | nullable hk h =>
      refine Rd.bind1 (Rd.ignore_yes hk) ?_
      exact Rd.bind_last (h.union (hn.mono noType_end)) Rd.pure

/-- A token behind a signature. -/
def sigEnd (t : TT) : Bool := typeEnd t && t != .colon

theorem RetType.reads {o : Option Node} (h : RetType ts o) (hn : Next rest sigEnd) :
    Rd doc [] returnType ts rest o := by
  unfold returnType
  cases h with
  | none => exact Rd.bind0 (Rd.ignore_no hn.ahead rfl) Rd.pure
  | some hk h =>
    refine Rd.bind1 (Rd.ignore_yes hk) ?_
    exact Rd.bind_last (h.dataType (hn.mono fun t ht => (Bool.and_eq_true_iff.1 ht).1)) Rd.pure

theorem RetType.next {o : Option Node} (h : RetType ts o) (hn : Next rest p) (hp : p .colon = true) : Next (ts ++ rest) p := by
  cases h with
  | none => exact hn
  | some hk h => exact ⟨_, _, rfl, hk.1, by rw [hk.2]; exact hp⟩

theorem OptTok.ignore {o : Option Token} (h : OptTok t ts o) (hn : Next rest p) (hp : p t = false) :
    Rd doc [] (fun _ => consumeOrIgnore t) ts rest o := by
  cases h with
  | none => exact Rd.ignore_no hn.ahead hp
  | some hk => exact Rd.ignore_yes hk

theorem OptTok.next {o : Option Token} (h : OptTok t ts o) (hn : Next rest p) (hp : p t = true) : Next (ts ++ rest) p := by
  cases h with
  | none => exact hn
  | some hk => exact ⟨_, _, rfl, hk.1, by rw [hk.2]; exact hp⟩

theorem Extends.reads {o : Option Node} (h : Extends ts o) (hn : Next rest fun t => nameEnd t && t != .kwExtends) :
    Rd doc [] extendsOne ts rest o := by
  unfold extendsOne
  cases h with
  | none => exact Rd.bind0 (Rd.ignore_no hn.ahead rfl) Rd.pure
  | some hk h =>
    refine Rd.bind1 (Rd.ignore_yes hk) ?_
    exact Rd.bind_last (h.reads (hn.mono fun t ht => (Bool.and_eq_true_iff.1 ht).1)) Rd.pure

theorem Extends.next {o : Option Node} (h : Extends ts o) (hn : Next rest p) (hp : p .kwExtends = true) : Next (ts ++ rest) p := by
  cases h with
  | none => exact hn
  | some hk h => exact ⟨_, _, rfl, hk.1, by rw [hk.2]; exact hp⟩

theorem Heirs.reads {o : Option (List Node)} (h : Heirs t ts o) (hn : Next rest fun t' => nameEnd t' && t' != .comma && t' != t) :
    Rd doc [] (fun r => clauseList r t) ts rest o := by
  unfold clauseList
  cases h with
  | none => exact Rd.bind0 (Rd.ignore_no hn.ahead (by simp)) Rd.pure
  | some hk h =>
    refine Rd.bind1 (Rd.ignore_yes hk) ?_
    exact Rd.bind_last (h.identifierList (hn.mono fun t ht => (Bool.and_eq_true_iff.1 ht).1)) Rd.pure

theorem Heirs.next {o : Option (List Node)} (h : Heirs t ts o) (hn : Next rest p) (hp : p t = true) : Next (ts ++ rest) p := by
  cases h with
  | none => exact hn
  | some hk h => exact ⟨_, _, rfl, hk.1, by rw [hk.2]; exact hp⟩

theorem Var.reads (h : Var k) : Rd doc [] variable' [k] rest (.variable k) := by
  unfold variable'
  refine Rd.bind1 (ts := []) (Rd.consume h.1) ?_
  simp only [h.2, if_true]
  exact Rd.pure

theorem lexical_reads {as : List Token} {a : Option Token} {v : Token} (ha : OptTok .binaryAnd as a) (hv : Tok .variable v) :
    Rd doc [] (fun _ => lexicalVariable) (as ++ [v]) rest (.lexicalVariable a v) := by
  unfold lexicalVariable
  refine Rd.bind (ha.ignore hv.next rfl) ?_
  exact Rd.bind1 (ts := []) (Rd.consume hv) Rd.pure

theorem lexical_next {as : List Token} {a : Option Token} {v : Token} (ha : OptTok .binaryAnd as a) (hv : Tok .variable v) :
    Next (as ++ v :: rest) fun t => t == .variable || t == .binaryAnd :=
  ha.next ⟨v, rest, rfl, hv.1, by simp [hv.2]⟩ rfl

theorem Lexicals.next (h : Lexicals ts ns) : Next ts fun t => t == .variable || t == .binaryAnd := by
  cases h with
  | one ha hv => exact lexical_next ha hv
  | more ha hv => exact lexical_next ha hv

theorem lexicals_loop {rp : Token} {acc : List Node} (h : Lexicals ts ns) (hr : Tok .closeParenthesis rp) :
    LoopRd doc .lexicals (fun _ args => do
      if ← nextOneOf [.closeParenthesis] then pure (.inr args)
      else do
        let v ← lexicalVariable
        if ← nextOneOf [.closeParenthesis] then pure (.inr (args ++ [v]))
        else do
          consumeOrFfAfter .comma [.semicolon]
          pure (.inl (args ++ [v]))) acc ts (rp :: rest) (acc ++ ns) := by
  induction h generalizing acc with
  | one ha hv =>
    refine LoopRd.stop ?_
    refine Rd.bind0 (Rd.nextOneOf_no (Lexicals.one ha hv).next.append.ahead (by decide)) ?_
    refine Rd.bind_last (lexical_reads ha hv) ?_
    exact Rd.bind0 (Rd.nextOneOf_tok hr (by decide)) Rd.pure
  | @more as us a v k ns ha hv hk hm ih =>
    have e : as ++ v :: k :: us = (as ++ [v, k]) ++ us := by simp
    rw [e]
    refine LoopRd.step (b' := acc ++ [.lexicalVariable a v]) ?_ ?_
    · have e2 : as ++ [v, k] = (as ++ [v]) ++ [k] := by simp
      refine Rd.bind0 (Rd.nextOneOf_no (p := fun t => t == .variable || t == .binaryAnd) ?_ (by decide)) ?_
      · rw [List.append_assoc]
        exact (lexical_next ha hv).ahead
      · rw [e2]
        refine Rd.bind (lexical_reads ha hv) ?_
        refine Rd.bind0 (Rd.nextOneOf_no hk.next.ahead (by decide)) ?_
        exact Rd.bind1 (ts := []) (Rd.ffAfter_yes hk) Rd.pure
    · have := ih (acc := acc ++ [.lexicalVariable a v])
      rwa [List.append_assoc] at this

theorem lexicals_list {lp rp : Token} (hl : Tok .openParenthesis lp) (h : Lexicals ts ns) (hr : Tok .closeParenthesis rp) :
    Rd doc [] nonEmptyLexicalVariablesList (lp :: (ts ++ [rp])) rest ns := by
  unfold nonEmptyLexicalVariablesList
  refine Rd.bind1 (Rd.ffAfter_yes hl) ?_
  have fin : Rd doc [] (fun _ : Rec => do
      consumeOrFfAfter .closeParenthesis [.semicolon]
      pure ns : Rec → P (List Node)) [rp] rest ns := Rd.bind1 (ts := []) (Rd.ffAfter_yes hr) Rd.pure
  cases h with
  | @one as a v ha hv =>
    refine Rd.bind (lexical_reads ha hv) ?_
    refine Rd.bind0 (Rd.ignore_no hr.next.ahead rfl) ?_
    refine Rd.bind0 (Rd.loop (LoopRd.stop ?_)) fin
    exact Rd.bind0 (ts := []) (Rd.nextOneOf_tok hr (by decide)) Rd.pure
  | @more as us a v k ns ha hv hk hm =>
    have e : as ++ v :: k :: us ++ [rp] = (as ++ [v]) ++ (k :: (us ++ [rp])) := by simp
    rw [e]
    refine Rd.bind (lexical_reads ha hv) ?_
    refine Rd.bind1 (Rd.ignore_yes hk) ?_
    exact Rd.bind (Rd.loop (lexicals_loop hm hr)) fin

theorem Captures.reads {o : Option (List Node)} (h : Captures ts o) (hn : Next rest p) (hp : p .kwUse = false) :
    Rd doc [] (fun r => (do
      match ← consumeOrIgnore .kwUse with
      | Option.some _ => do
        let l ← nonEmptyLexicalVariablesList r
        pure (Option.some l)
      | Option.none => pure Option.none : P (Option (List Node)))) ts rest o := by
  cases h with
  | none => exact Rd.bind0 (Rd.ignore_no hn.ahead hp) Rd.pure
  | some hk hl h hr =>
    refine Rd.bind1 (Rd.ignore_yes hk) ?_
    exact Rd.bind_last (lexicals_list hl h hr) Rd.pure

theorem Captures.next {o : Option (List Node)} (h : Captures ts o) (hn : Next rest p) (hp : p .kwUse = true) :
    Next (ts ++ rest) p := by
  cases h with
  | none => exact hn
  | some hk => exact ⟨_, _, rfl, hk.1, by rw [hk.2]; exact hp⟩

/-! ## Calls and accesses -/

/-- A step of the loop over calls and accesses. -/
theorem CallRd.step {n' : Node} (h : CallRd doc ts n) (hk : Tok t k) (ht : primFollow t = true ∧ t ≠ .colon ∧ t ≠ .variable)
    (hs : ∀ rest, Rd doc [] (fun r => initCallBody r n) (k :: us) rest (.inl n')) : CallRd doc (ts ++ k :: us) n' where
  first := h.first.append
  second := h.second.appendTok hk ht.2
  reads vs rest a _ hl := by
    rw [List.append_assoc]
    refine h.reads _ _ _ ⟨k, _, rfl, hk.1, by rw [hk.2]; exact ht.1⟩ ?_
    exact LoopRd.step (ts := k :: us) (hs _) hl

theorem CallRd.arrow {n' : Node} (h : CallRd doc ts n) (hk : Tok .objectOperator k ∨ Tok .nullsafeObjectOperator k)
    (hs : ∀ rest, Rd doc [] (fun r => memberAccess r n k) us rest n') : CallRd doc (ts ++ k :: us) n' := by
  have key : ∀ {t}, t ∈ [TT.objectOperator, .nullsafeObjectOperator] → Tok t k → CallRd doc (ts ++ k :: us) n' := by
    intro t ht hk
    refine h.step hk ?_ fun rest => ?_
    · rcases List.mem_cons.1 ht with rfl | ht
      · decide
      · rw [List.mem_singleton.1 ht]; decide
    · unfold initCallBody
      refine Rd.bind0 (Rd.nextOneOf_no hk.next.ahead ?_) ?_
      · rcases List.mem_cons.1 ht with rfl | ht
        · decide
        · rw [List.mem_singleton.1 ht]; decide
      refine Rd.bind1 (Rd.oneOf_yes hk ht) ?_
      exact Rd.bind_last (hs rest) Rd.pure
  rcases hk with hk | hk
  · exact key (by decide) hk
  · exact key (by decide) hk

theorem CallRd.getMember {m : Token} (h : CallRd doc ts n) (hk : Tok .objectOperator k ∨ Tok .nullsafeObjectOperator k)
    (hm : Word m) : CallRd doc (ts ++ [k, m]) (.member n k none (.literal m) none) := by
  refine h.arrow hk fun rest => ?_
  unfold memberAccess
  refine Rd.bind0 (Rd.ignore_no hm.next.ahead rfl) ?_
  refine Rd.bind0 (Rd.nextOneOf_no hm.next.ahead (by decide)) ?_
  exact Rd.catchErr (us := []) (Rd.consumeIdentifier hm) Rd.pure

theorem CallRd.getVariable {v : Token} (h : CallRd doc ts n) (hk : Tok .objectOperator k ∨ Tok .nullsafeObjectOperator k)
    (hv : Var v) : CallRd doc (ts ++ [k, v]) (.member n k none (.variable v) none) := by
  refine h.arrow hk fun rest => ?_
  unfold memberAccess
  refine Rd.bind0 (Rd.ignore_no hv.1.next.ahead rfl) ?_
  refine Rd.bind0 (Rd.nextOneOf_tok hv.1 (by decide)) ?_
  exact Rd.bind_last hv.reads Rd.pure

theorem CallRd.getComputed {oc cc : Token} {m : Node} (h : CallRd doc ts n)
    (hk : Tok .objectOperator k ∨ Tok .nullsafeObjectOperator k) (hl : Tok .openCurly oc) (hm : DelRd doc ends us m)
    (hr : Tok .closeCurly cc) : CallRd doc (ts ++ k :: oc :: (us ++ [cc])) (.member n k (some oc) m (some cc)) := by
  refine h.arrow hk fun rest => ?_
  unfold memberAccess
  refine Rd.bind1 (Rd.ignore_yes hl) ?_
  refine Rd.bind (hm.tok hr (by decide)) ?_
  exact Rd.bind1 (ts := []) (Rd.consume hr) Rd.pure

theorem CallRd.colons {n' : Node} (h : CallRd doc ts n) (hk : Tok .paamayimNekudayim k)
    (hs : ∀ rest, Rd doc [] (fun r => staticAccess r n k) us rest n') : CallRd doc (ts ++ k :: us) n' := by
  refine h.step hk (by decide) fun rest => ?_
  unfold initCallBody
  refine Rd.bind0 (Rd.nextOneOf_no hk.next.ahead (by decide)) ?_
  refine Rd.bind0 (Rd.oneOf_no hk.next.ahead (by decide)) ?_
  refine Rd.bind1 (Rd.ignore_yes hk) ?_
  exact Rd.bind_last (hs rest) Rd.pure

theorem CallRd.getStatic {m : Token} (h : CallRd doc ts n) (hk : Tok .paamayimNekudayim k) (hm : Word m) :
    CallRd doc (ts ++ [k, m]) (.staticMember n k none (.literal m) none) := by
  refine h.colons hk fun rest => ?_
  unfold staticAccess
  refine Rd.bind0 (Rd.nextOneOf_no hm.next.ahead (by decide)) ?_
  refine Rd.bind0 (Rd.nextOneOf_no hm.next.ahead (by decide)) ?_
  have e1 : (m.isIdentifier || m.t == .variable) = true := by simp [hm.2]
  refine Rd.bind0 (a := true) ?_ ?_
  · refine Rd.of ?_ hm.next
    have := Reads.nextIs (doc := doc) (f := fun k => k.isIdentifier || k.t == .variable) (rest := rest) hm.1
    rw [e1] at this
    exact this
  · exact Rd.bind1 (ts := []) (Rd.of (Reads.consumeMember hm.1 e1) hm.next) Rd.pure

theorem CallRd.getStaticVariable {v : Token} (h : CallRd doc ts n) (hk : Tok .paamayimNekudayim k) (hv : Var v) :
    CallRd doc (ts ++ [k, v]) (.staticMember n k none (.variable v) none) := by
  refine h.colons hk fun rest => ?_
  unfold staticAccess
  refine Rd.bind0 (Rd.nextOneOf_tok hv.1 (by decide)) ?_
  exact Rd.bind_last hv.reads Rd.pure

theorem CallRd.brackets {n' : Node} (h : CallRd doc ts n) (hk : Tok .openBrackets k)
    (hs : ∀ rest, Rd doc [] (fun r => fieldAccess r n k) us rest n') : CallRd doc (ts ++ k :: us) n' := by
  refine h.step hk (by decide) fun rest => ?_
  unfold initCallBody
  refine Rd.bind0 (Rd.nextOneOf_no hk.next.ahead (by decide)) ?_
  refine Rd.bind0 (Rd.oneOf_no hk.next.ahead (by decide)) ?_
  refine Rd.bind0 (Rd.ignore_no hk.next.ahead rfl) ?_
  refine Rd.bind1 (Rd.ignore_yes hk) ?_
  exact Rd.bind_last (hs rest) Rd.pure

theorem CallRd.index {cb : Token} {i : Node} (h : CallRd doc ts n) (hk : Tok .openBrackets k) (hi : DelRd doc ends us i)
    (hr : Tok .closeBrackets cb) : CallRd doc (ts ++ k :: (us ++ [cb])) (.field n k (some i) cb) := by
  refine h.brackets hk fun rest => ?_
  unfold fieldAccess
  refine Rd.bind0 (Rd.ignore_no (p := exprStart) ?_ rfl) ?_
  · rw [List.append_assoc]; exact hi.first.append.ahead
  refine Rd.bind (hi.tok hr (by decide)) ?_
  exact Rd.bind1 (ts := []) (Rd.consume hr) Rd.pure

theorem CallRd.push {cb : Token} (h : CallRd doc ts n) (hk : Tok .openBrackets k) (hr : Tok .closeBrackets cb) :
    CallRd doc (ts ++ [k, cb]) (.field n k none cb) := by
  refine h.brackets hk fun rest => ?_
  unfold fieldAccess
  exact Rd.bind1 (ts := []) (Rd.ignore_yes hr) Rd.pure

/-! ## Arguments -/

/-- The end of an argument. -/
def argEnd (t : TT) : Bool := t == .comma || t == .closeParenthesis

/-- One argument of a call. -/
structure ArgRd (doc : Token → Option Node) (ts : List Token) (n : Node) : Prop where
  first : Next ts (· != .closeParenthesis)
  reads : ∀ rest, Next rest argEnd → Rd doc [] callParameter ts rest n

theorem argEnd_ends (t : TT) (h : argEnd t = true) : ends t = true := by
  rcases Bool.or_eq_true_iff.1 h with h | h <;> (rw [eq_of_beq h]; decide)

theorem DelRd.arg (h : DelRd doc ends ts n) : ArgRd doc ts n where
  first := h.first.mono fun t ht => by simpa using start_ne' ht (t' := .closeParenthesis) rfl
  reads rest hn := by
    have he := hn.mono argEnd_ends
    obtain ⟨k, r, rfl, h1, h2⟩ := hn
    obtain ⟨k0, k1, r', e, h3, h4, h5, h6⟩ := h.second k r h1
      (fun e => by rw [e] at h2; cases h2) (fun e => by rw [e] at h2; cases h2)
    unfold callParameter
    refine Rd.bind0 (a := none) ?_ (h.reads _ he)
    rw [e]
    exact Rd.of (p := fun _ => true) (Reads.lookahead_no h3 h4 (by simpa using h5)) ⟨k0, _, rfl, h3, rfl⟩

theorem DelRd.namedArg {w c : Token} (h : DelRd doc ends ts n) (hw : Word w) (hc : Tok .colon c) :
    ArgRd doc (w :: c :: ts) (.namedParameter w c n) where
  first := ⟨w, _, rfl, hw.1, by simpa using word_ne hw (t := .closeParenthesis) rfl⟩
  reads rest hn := by
    unfold callParameter
    refine Rd.bind1 (Rd.of (p := fun _ => true) (Reads.lookahead_yes hw.1 hw.2 hc.1 (by simp [hc.2])) ⟨w, _, rfl, hw.1, rfl⟩) ?_
    refine Rd.bind1 (Rd.consume hc) ?_
    exact Rd.bind_last (h.reads _ (hn.mono argEnd_ends)) Rd.pure

theorem args_loop {rp : Token} {acc : List Node} {b : Bool} (h : SepBy (ArgRd doc) b ts ns) (hr : Tok .closeParenthesis rp) :
    LoopRd doc .other callLoopBody acc ts (rp :: rest) (acc ++ ns) := by
  induction h generalizing acc with
  | nil hb =>
    refine LoopRd.stop ?_
    rw [List.append_nil]
    exact Rd.bind0 (ts := []) (Rd.nextOneOf_tok hr (by decide)) Rd.pure
  | last h =>
    refine LoopRd.stop ?_
    refine Rd.bind0 (Rd.nextOneOf_no h.first.append.ahead (by decide)) ?_
    refine Rd.bind_last (h.reads _ ⟨rp, rest, rfl, hr.1, by rw [hr.2]; rfl⟩) ?_
    exact Rd.bind0 (ts := []) (Rd.nextOneOf_tok hr (by decide)) Rd.pure
  | @cons ts us k n ns h hk hm ih =>
    have e : ts ++ k :: us = (ts ++ [k]) ++ us := by simp
    rw [e]
    refine LoopRd.step (b' := acc ++ [n]) ?_ ?_
    · refine Rd.bind0 (Rd.nextOneOf_no (p := (· != .closeParenthesis)) ?_ (by decide)) ?_
      · rw [List.append_assoc]; exact h.first.append.ahead
      refine Rd.bind (h.reads _ ⟨k, _, rfl, hk.1, by rw [hk.2]; rfl⟩) ?_
      refine Rd.bind0 (Rd.nextOneOf_no hk.next.ahead (by decide)) ?_
      exact Rd.bind1 (ts := []) (Rd.ffBefore_yes hk) Rd.pure
    · have := ih (acc := acc ++ [n])
      rwa [List.append_assoc] at this

theorem CallRd.apply {rp : Token} (h : CallRd doc ts n) (hk : Tok .openParenthesis k) (ha : SepBy (ArgRd doc) true us ns)
    (hr : Tok .closeParenthesis rp) : CallRd doc (ts ++ k :: (us ++ [rp])) (.call n k ns rp) := by
  refine h.step hk (by decide) fun rest => ?_
  unfold initCallBody
  refine Rd.bind0 (Rd.nextOneOf_tok hk (by decide)) ?_
  refine Rd.bind_last (a := Node.call n k ns rp) ?_ Rd.pure
  unfold finishCall
  refine Rd.bind1 (Rd.consume hk) ?_
  refine Rd.bind (a := ns) (Rd.loop (args_loop (acc := []) ha hr)) ?_
  exact Rd.bind1 (ts := []) (Rd.consume hr) Rd.pure

/-! ## Lists of expressions -/

theorem params_loop {rp : Token} {acc : List Node} {b : Bool} (h : SepBy (DelRd doc ends) b ts ns) (hr : Tok .closeParenthesis rp) :
    Rd doc [] (fun r => parametersUntil r acc) ts (rp :: rest) (acc ++ ns) := by
  refine Rd.loop ?_
  induction h generalizing acc with
  | nil hb =>
    refine LoopRd.stop ?_
    rw [List.append_nil]
    exact Rd.bind0 (ts := []) (Rd.nextOneOf_tok hr (by decide)) Rd.pure
  | last h =>
    refine LoopRd.stop ?_
    refine Rd.bind0 (Rd.nextOneOf_no h.first.append.ahead (by decide)) ?_
    refine Rd.bind_last (h.tok hr (by decide)) ?_
    exact Rd.bind0 (ts := []) (Rd.nextOneOf_tok hr (by decide)) Rd.pure
  | @cons ts us k n ns h hk hm ih =>
    have e : ts ++ k :: us = (ts ++ [k]) ++ us := by simp
    rw [e]
    refine LoopRd.step (b' := acc ++ [n]) ?_ ?_
    · refine Rd.bind0 (Rd.nextOneOf_no (p := exprStart) ?_ (by decide)) ?_
      · rw [List.append_assoc]; exact h.first.append.ahead
      refine Rd.bind (h.tok hk (by decide)) ?_
      refine Rd.bind0 (Rd.nextOneOf_no hk.next.ahead (by decide)) ?_
      exact Rd.bind1 (ts := []) (Rd.ffAfter_yes hk) Rd.pure
    · have := ih (acc := acc ++ [n])
      rwa [List.append_assoc] at this

theorem params_list {rp : Token} {b : Bool} (h : SepBy (DelRd doc ends) b ts ns) (hr : Tok .closeParenthesis rp) :
    Rd doc [] parameterList ts (rp :: rest) ns := params_loop (acc := []) h hr

theorem params_nonEmpty {rp : Token} {b : Bool} (h : SepBy (DelRd doc ends) b ts (n :: ns)) (hr : Tok .closeParenthesis rp) :
    Rd doc [] nonEmptyParameterList ts (rp :: rest) (n :: ns) := by
  unfold nonEmptyParameterList
  cases h with
  | last h =>
    refine Rd.bind_last (h.tok hr (by decide)) ?_
    refine Rd.bind0 (Rd.ignore_no hr.next.ahead rfl) ?_
    exact params_loop (acc := [n]) (ns := []) (.nil (b := true) rfl) hr
  | cons h hk hm =>
    refine Rd.bind (h.tok hk (by decide)) ?_
    refine Rd.bind1 (Rd.ignore_yes hk) ?_
    exact params_loop (acc := [n]) hm hr

/-- Expressions with commas, up to a token that ends the list. -/
theorem more_loop {acc : List Node} (h : SepBy (DelRd doc ends) false ts ns) (hk : Tok .comma k)
    (hn : Next rest fun t => ends t && t != .comma) :
    LoopRd doc .other (fun r (acc : List Node) => do
      match ← consumeOrIgnore .comma with
      | some _ => do
        let e ← r.expression 0
        pure (.inl (acc ++ [e]))
      | none => pure (.inr acc)) acc (k :: ts) rest (acc ++ ns) := by
  induction h generalizing acc k with
  | nil hb => cases hb
  | @last ts n h =>
    have e : k :: ts = (k :: ts) ++ [] := by simp
    rw [e]
    refine LoopRd.step (b' := acc ++ [n]) ?_ ?_
    · refine Rd.bind1 (Rd.ignore_yes hk) ?_
      exact Rd.bind_last (h.reads _ (hn.mono fun t ht => (Bool.and_eq_true_iff.1 ht).1)) Rd.pure
    · exact LoopRd.stop (Rd.bind0 (ts := []) (Rd.ignore_no hn.ahead rfl) Rd.pure)
  | @cons ts us k' n ns h hk' hm ih =>
    have e : k :: (ts ++ k' :: us) = (k :: ts) ++ (k' :: us) := by simp
    rw [e]
    refine LoopRd.step (b' := acc ++ [n]) ?_ ?_
    · refine Rd.bind1 (Rd.ignore_yes hk) ?_
      exact Rd.bind_last (h.tok hk' (by decide)) Rd.pure
    · have := ih (acc := acc ++ [n]) hk'
      rwa [List.append_assoc] at this

theorem more_list (h : SepBy (DelRd doc ends) false ts ns) (hn : Next rest fun t => ends t && t != .comma) :
    Rd doc [] (fun r => do
      let e ← r.expression 0
      moreByComma r (r.expression 0) [e]) ts rest ns := by
  cases h with
  | nil hb => cases hb
  | last h =>
    refine Rd.bind_last (h.reads _ (hn.mono fun t ht => (Bool.and_eq_true_iff.1 ht).1)) ?_
    exact Rd.loop (LoopRd.stop (Rd.bind0 (ts := []) (Rd.ignore_no hn.ahead rfl) Rd.pure))
  | cons h hk hm =>
    refine Rd.bind (h.tok hk (by decide)) ?_
    exact Rd.loop (more_loop hm hk hn)

theorem SepBy.next {one : List Token → Node → Prop} (h : SepBy one false ts ns) (ho : ∀ ts n, one ts n → Next ts p) :
    Next ts p := by
  cases h with
  | nil hb => cases hb
  | last h => exact ho _ _ h
  | cons h => exact (ho _ _ h).append

/-! ## Attributes -/

/-- Attributes. -/
structure AttrsRd (doc : Token → Option Node) (ts : List Token) (ns : List Node) : Prop where
  first : (ts = [] ∧ ns = []) ∨ Next ts (· == .attributeStart)
  reads : ∀ rest acc, Next rest (· != .attributeStart) → LoopRd doc .other (fun r (acc : List Node) => do
    if ← nextOneOf [.attributeStart] then do
      let a ← attribute' r
      pure (.inl (acc ++ [a]))
    else pure (.inr acc)) acc ts rest (acc ++ ns)

theorem AttrsRd.none : AttrsRd doc [] [] where
  first := .inl ⟨rfl, rfl⟩
  reads rest acc hn := by
    refine LoopRd.stop ?_
    rw [List.append_nil]
    exact Rd.bind0 (ts := []) (Rd.nextOneOf_no hn.ahead (by decide)) Rd.pure

theorem AttrsRd.cons {s e : Token} {as : List Node} (hs : Tok .attributeStart s) (h : SepBy (DelRd doc ends) false ts ns)
    (he : Tok .closeBrackets e) (hm : AttrsRd doc us as) : AttrsRd doc (s :: (ts ++ e :: us)) (.attr s ns e :: as) where
  first := .inr hs.next
  reads rest acc hn := by
    have e1 : s :: (ts ++ e :: us) = (s :: (ts ++ [e])) ++ us := by simp
    rw [e1]
    refine LoopRd.step (b' := acc ++ [.attr s ns e]) ?_ ?_
    · refine Rd.bind0 (Rd.nextOneOf_tok hs (by decide)) ?_
      refine Rd.bind_last (a := Node.attr s ns e) ?_ Rd.pure
      unfold attribute'
      refine Rd.bind1 (Rd.consume hs) ?_
      have h1 : Rd doc [] (fun r => do
        let e ← r.expression 0
        moreByComma r (r.expression 0) [e]) ts (e :: (us ++ rest)) ns :=
        more_list h ⟨e, _, rfl, he.1, by rw [he.2]; decide⟩
      have h2 : Rd doc [] (fun r => (do
        let e ← r.expression 0
        moreByComma r (r.expression 0) [e]) >>= fun es => do
        let cb ← consume .closeBrackets
        pure (Node.attr s es cb)) (ts ++ [e]) (us ++ rest) (Node.attr s ns e) :=
        Rd.bind h1 (Rd.bind1 (ts := []) (Rd.consume he) Rd.pure)
      exact Rd.assoc h2
    · have := hm.reads rest (acc ++ [.attr s ns e]) hn
      rwa [List.append_assoc] at this

theorem AttrsRd.block (h : AttrsRd doc ts ns) (hn : Next rest (· != .attributeStart)) :
    Rd doc [] attributesBlock ts rest ns := Rd.loop (h.reads rest [] hn)

theorem AttrsRd.next (h : AttrsRd doc ts ns) (hn : Next rest p) (hp : p .attributeStart = true) : Next (ts ++ rest) p := by
  rcases h.first with ⟨rfl, -⟩ | h
  · exact hn
  · exact (h.mono fun t ht => by rw [eq_of_beq ht]; exact hp).append

/-! ## Parameters and functions -/

/-- One parameter. -/
structure ParamRd (doc : Token → Option Node) (d : Option Node) (ts : List Token) (n : Node) : Prop where
  first : Next ts (· != .closeParenthesis)
  reads : ∀ rest, Next rest argEnd → Rd doc [] (fun r => argument r d) ts rest n

theorem opt_next (h : OptType ts o) (hn : Next rest p) (hp : p .questionMark = true ∧ p .namespaceSeparator = true)
    (hi : ∀ t, t.isIdentifier = true → p t = true) : Next (ts ++ rest) p := by
  cases h with
  | none => exact hn
  | some h =>
    cases h with
    | plain h => exact (h.next.mono fun t ht => by
        rcases Bool.or_eq_true_iff.1 ht with ht | ht
        · rw [eq_of_beq ht]; exact hp.2
        · exact hi t ht).append
    | nullable hk h => exact ⟨_, _, rfl, hk.1, by rw [hk.2]; exact hp.1⟩

theorem ident_ne {t t' : TT} (h : t.isIdentifier = true) (h' : t'.isIdentifier = false) : t ≠ t' := by
  rintro rfl
  rw [h] at h'
  cases h'

variable {as rts es : List Token} {ats : List Node} {d ty : Option Node} {a e : Option Token} {v w : Token}

theorem ParamRd.plain (hat : AttrsRd doc as ats) (ht : OptType ts ty) (ha : OptTok .binaryAnd rts a)
    (he : OptTok .elipsis es e) (hv : Tok .variable v) :
    ParamRd doc d (as ++ (ts ++ (rts ++ (es ++ [v]))))
      (.functionArgument ty v none none e a (DocBlock.paramCommentFor d v) ats) where
  first := by
    refine hat.next (opt_next ht (ha.next (he.next ⟨v, [], rfl, hv.1, by rw [hv.2]; rfl⟩ rfl) rfl) ⟨rfl, rfl⟩ ?_) rfl
    intro t h
    simpa using ident_ne h (t' := .closeParenthesis) rfl
  reads rest hn := by
    have n1 : ∀ {q : TT → Bool}, q .variable = true → Next (v :: rest) q := fun hq => ⟨v, _, rfl, hv.1, by rw [hv.2]; exact hq⟩
    have n2 : ∀ {q : TT → Bool}, q .variable = true → q .elipsis = true → Next (es ++ [v] ++ rest) q := fun h1 h2 => by
      rw [List.append_assoc]; exact he.next (n1 h1) h2
    have n3 : ∀ {q : TT → Bool}, q .variable = true → q .elipsis = true → q .binaryAnd = true →
        Next (rts ++ (es ++ [v]) ++ rest) q := fun h1 h2 h3 => by
      rw [List.append_assoc]; exact ha.next (n2 h1 h2) h3
    unfold argument
    refine Rd.bind (hat.block ?_) ?_
    · rw [List.append_assoc]
      refine opt_next ht (n3 rfl rfl rfl) ⟨rfl, rfl⟩ ?_
      intro t h
      simpa using ident_ne h (t' := .attributeStart) rfl
    refine Rd.bind (ht.argumentType (n3 rfl rfl rfl)) ?_
    refine Rd.bind (ha.ignore (p := (· != .binaryAnd)) (n2 rfl rfl) rfl) ?_
    refine Rd.bind (he.ignore (p := (· != .elipsis)) (n1 rfl) rfl) ?_
    refine Rd.bind1 (ts := []) (Rd.consume hv) ?_
    exact Rd.bind0 (Rd.ignore_no hn.ahead rfl) Rd.pure

theorem ParamRd.init (hat : AttrsRd doc as ats) (ht : OptType ts ty) (ha : OptTok .binaryAnd rts a)
    (he : OptTok .elipsis es e) (hv : Tok .variable v) (hw : Tok .assignment w) (h : DelRd doc ends us n) :
    ParamRd doc d (as ++ (ts ++ (rts ++ (es ++ v :: w :: us))))
      (.functionArgument ty v (some w) (some n) e a (DocBlock.paramCommentFor d v) ats) where
  first := by
    refine hat.next (opt_next ht (ha.next (he.next ⟨v, _, rfl, hv.1, by rw [hv.2]; rfl⟩ rfl) rfl) ⟨rfl, rfl⟩ ?_) rfl
    intro t h
    simpa using ident_ne h (t' := .closeParenthesis) rfl
  reads rest hn := by
    have n1 : ∀ {q : TT → Bool}, q .variable = true → Next (v :: w :: us ++ rest) q :=
      fun hq => ⟨v, _, rfl, hv.1, by rw [hv.2]; exact hq⟩
    have n2 : ∀ {q : TT → Bool}, q .variable = true → q .elipsis = true → Next (es ++ v :: w :: us ++ rest) q := fun h1 h2 => by
      rw [List.append_assoc]; exact he.next (n1 h1) h2
    have n3 : ∀ {q : TT → Bool}, q .variable = true → q .elipsis = true → q .binaryAnd = true →
        Next (rts ++ (es ++ v :: w :: us) ++ rest) q := fun h1 h2 h3 => by
      rw [List.append_assoc]; exact ha.next (n2 h1 h2) h3
    unfold argument
    refine Rd.bind (hat.block ?_) ?_
    · rw [List.append_assoc]
      refine opt_next ht (n3 rfl rfl rfl) ⟨rfl, rfl⟩ ?_
      intro t h
      simpa using ident_ne h (t' := .attributeStart) rfl
    refine Rd.bind (ht.argumentType (n3 rfl rfl rfl)) ?_
    refine Rd.bind (ha.ignore (p := (· != .binaryAnd)) (n2 rfl rfl) rfl) ?_
    refine Rd.bind (he.ignore (p := (· != .elipsis)) (n1 rfl) rfl) ?_
    refine Rd.bind1 (Rd.consume hv) ?_
    refine Rd.bind1 (Rd.ignore_yes hw) ?_
    exact Rd.bind_last (h.reads _ (hn.mono argEnd_ends)) Rd.pure

/-- The parameters of a function. -/
def ParamsRd (doc : Token → Option Node) (d : Option Node) (ts : List Token) (o : Option (List Node)) : Prop :=
  (ts = [] ∧ o = none) ∨ ∃ ns, o = some ns ∧ SepBy (ParamRd doc d) false ts ns

theorem arguments_loop {rp : Token} {acc : List Node} (h : SepBy (ParamRd doc d) false ts ns) (hr : Tok .closeParenthesis rp) :
    LoopRd doc .other (fun r (args : List Node) => do
      let a ← argument r d
      match ← consumeOrIgnore .comma with
      | some _ => pure (.inl (args ++ [a]))
      | none => pure (.inr (some (args ++ [a])))) acc ts (rp :: rest) (some (acc ++ ns)) := by
  induction h generalizing acc with
  | nil hb => cases hb
  | last h =>
    refine LoopRd.stop ?_
    refine Rd.bind_last (h.reads _ ⟨rp, rest, rfl, hr.1, by rw [hr.2]; rfl⟩) ?_
    exact Rd.bind0 (ts := []) (Rd.ignore_no hr.next.ahead rfl) Rd.pure
  | @cons ts us k n ns h hk hm ih =>
    have e : ts ++ k :: us = (ts ++ [k]) ++ us := by simp
    rw [e]
    refine LoopRd.step (b' := acc ++ [n]) ?_ ?_
    · refine Rd.bind (h.reads _ ⟨k, _, rfl, hk.1, by rw [hk.2]; rfl⟩) ?_
      exact Rd.bind1 (ts := []) (Rd.ignore_yes hk) Rd.pure
    · have := ih (acc := acc ++ [n])
      rwa [List.append_assoc] at this

theorem ParamsRd.reads {o : Option (List Node)} {rp : Token} (h : ParamsRd doc d ts o) (hr : Tok .closeParenthesis rp) :
    Rd doc [] (fun r => argumentList r d) ts (rp :: rest) o := by
  unfold argumentList
  rcases h with ⟨rfl, rfl⟩ | ⟨ns, rfl, h⟩
  · exact Rd.bind0 (Rd.nextOneOf_tok hr (by decide)) Rd.pure
  · refine Rd.bind0 (Rd.nextOneOf_no (h.next fun _ _ h => h.first).append.ahead (by decide)) ?_
    exact Rd.loop (arguments_loop (acc := []) h hr)

/-- A block. -/
structure BlockRd (doc : Token → Option Node) (ts : List Token) (n : Node) : Prop where
  first : Next ts (· == .openCurly)
  reads : ∀ rest, Rd doc [] Parser.block ts rest n

theorem BlockRd.next (h : BlockRd doc ts n) (hp : p .openCurly = true) : Next (ts ++ rest) p :=
  (h.first.mono fun t ht => by rw [eq_of_beq ht]; exact hp).append

theorem func_reads {lp rp : Token} {rs bs : List Token} {o : Option (List Node)} {rt : Option Node} {b : Node}
    (hl : Tok .openParenthesis lp) (h : ParamsRd doc d ts o) (hr : Tok .closeParenthesis rp) (hrt : RetType rs rt)
    (hb : BlockRd doc bs b) (rest : List Token) :
    Rd doc [] (fun r => anonymousFunctionStatement r d) (lp :: (ts ++ rp :: (rs ++ bs))) rest
      (.functionDefinitionStatement lp o rp rt (some b) d) := by
  unfold anonymousFunctionStatement
  refine Rd.bind1 (Rd.consume hl) ?_
  refine Rd.bind (h.reads hr) ?_
  refine Rd.bind1 (Rd.consume hr) ?_
  refine Rd.bind (hrt.reads (hb.next (by decide))) ?_
  refine Rd.bind0 (Rd.ignore_no (hb.next (p := (· == .openCurly)) rfl).ahead rfl) ?_
  exact Rd.bind_last (hb.reads _) Rd.pure

theorem signature_reads {lp rp x : Token} {rs : List Token} {o : Option (List Node)} {rt : Option Node}
    (hl : Tok .openParenthesis lp) (h : ParamsRd doc d ts o) (hr : Tok .closeParenthesis rp) (hrt : RetType rs rt)
    (hx : Tok .semicolon x) (rest : List Token) :
    Rd doc [] (fun r => anonymousFunctionStatement r d) (lp :: (ts ++ rp :: (rs ++ [x]))) rest
      (.functionDefinitionStatement lp o rp rt none d) := by
  unfold anonymousFunctionStatement
  refine Rd.bind1 (Rd.consume hl) ?_
  refine Rd.bind (h.reads hr) ?_
  refine Rd.bind1 (Rd.consume hr) ?_
  refine Rd.bind (hrt.reads ⟨x, _, rfl, hx.1, by rw [hx.2]; rfl⟩) ?_
  exact Rd.bind1 (ts := []) (Rd.ignore_yes hx) Rd.pure

theorem closure_reads {lp rp : Token} {rs bs us : List Token} {o c : Option (List Node)} {rt : Option Node} {b : Node}
    {s : Option Token} (hk : Tok .kwFunction k) (ha : OptTok .binaryAnd as a)
    (hl : Tok .openParenthesis lp) (h : ParamsRd doc none ts o) (hr : Tok .closeParenthesis rp) (hu : Captures us c)
    (hrt : RetType rs rt) (hb : BlockRd doc bs b) (rest : List Token) :
    Rd doc [] (fun r => anonymousFunction r s ats) (k :: (as ++ lp :: (ts ++ rp :: (us ++ (rs ++ bs))))) rest
      (.closure s a k lp o rp c rt b ats) := by
  unfold anonymousFunction
  refine Rd.bind1 (Rd.consume hk) ?_
  refine Rd.bind (ha.ignore hl.next rfl) ?_
  refine Rd.bind1 (Rd.consume hl) ?_
  refine Rd.bind (h.reads hr) ?_
  refine Rd.bind1 (Rd.consume hr) ?_
  refine Rd.bind (hu.reads (p := (· != .kwUse)) ?_ rfl) ?_
  · rw [List.append_assoc]
    exact hrt.next (hb.next rfl) rfl
  refine Rd.bind (hrt.reads (hb.next (by decide))) ?_
  exact Rd.bind_last (hb.reads _) Rd.pure

theorem arrow_reads {lp rp : Token} {rs : List Token} {o : Option (List Node)} {rt : Option Node}
    {s : Option Token} (hk : Tok .kwFn k) (ha : OptTok .binaryAnd as a)
    (hl : Tok .openParenthesis lp) (h : ParamsRd doc none ts o) (hr : Tok .closeParenthesis rp)
    (hrt : RetType rs rt) (hw : Tok .doubleArrow w) (he : DelRd doc ends us n) (rest : List Token) (hn : Next rest ends) :
    Rd doc [] (fun r => arrowFunction r s ats) (k :: (as ++ lp :: (ts ++ rp :: (rs ++ w :: us)))) rest
      (.arrowFunction s a k lp o rp w rt n ats) := by
  unfold arrowFunction
  refine Rd.bind1 (Rd.consume hk) ?_
  refine Rd.bind (ha.ignore hl.next rfl) ?_
  refine Rd.bind1 (Rd.consume hl) ?_
  refine Rd.bind (h.reads hr) ?_
  refine Rd.bind1 (Rd.consume hr) ?_
  refine Rd.bind (hrt.reads ⟨w, _, rfl, hw.1, by rw [hw.2]; rfl⟩) ?_
  refine Rd.bind1 (Rd.consume hw) ?_
  exact Rd.bind_last (he.reads _ hn) Rd.pure

end PhpLs.Syntax
