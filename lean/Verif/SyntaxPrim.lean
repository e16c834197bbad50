import Verif.SyntaxCall

/-!
# Reading whole programs: operands
-/

namespace PhpLs.Syntax

open PhpLs PhpLs.Parser PhpLs.Parser.Ex

variable {doc : Token → Option Node} {ts us vs rest : List Token} {k lp rp : Token} {n : Node} {ns : List Node}
  {p : TT → Bool} {t : TT}

/-! ## Array pairs -/

/-- A pair. -/
structure PairRd (doc : Token → Option Node) (ts : List Token) (n : Node) : Prop where
  first : Next ts exprStart
  reads : ∀ rest, Next rest ends → Rd doc [] arrayPair ts rest n

theorem DelRd.pair (h : DelRd doc ends ts n) : PairRd doc ts (.arrayElement none none n) where
  first := h.first
  reads rest hn := by
    unfold arrayPair
    refine Rd.bind_last (h.reads _ hn) ?_
    exact Rd.bind0 (ts := []) (Rd.ignore_no hn.ahead (by decide)) Rd.pure

theorem DelRd.keyed {w : Token} {v : Node} (h : DelRd doc keyEnds ts n) (hw : Tok .doubleArrow w) (hv : DelRd doc ends us v)
    (hs : Next us (· != .binaryAnd)) : PairRd doc (ts ++ w :: us) (.arrayElement (some n) (some w) v) where
  first := h.first.append
  reads rest hn := by
    unfold arrayPair
    refine Rd.bind (h.tok hw (by decide)) ?_
    refine Rd.bind1 (Rd.ignore_yes hw) ?_
    refine Rd.bind0 (Rd.nextOneOf_no hs.append.ahead (by decide)) ?_
    exact Rd.bind_last (hv.reads _ hn) Rd.pure

theorem DelRd.keyedRef {w a v : Token} (h : DelRd doc keyEnds ts n) (hw : Tok .doubleArrow w) (ha : Tok .binaryAnd a)
    (hv : Tok .variable v) :
    PairRd doc (ts ++ [w, a, v]) (.arrayElement (some n) (some w) (.lexicalVariable (some a) v)) where
  first := h.first.append
  reads rest hn := by
    unfold arrayPair
    refine Rd.bind (h.tok hw (by decide)) ?_
    refine Rd.bind1 (Rd.ignore_yes hw) ?_
    refine Rd.bind0 (Rd.nextOneOf_tok ha (by decide)) ?_
    exact Rd.bind_last (lexical_reads (.some ha) hv) Rd.pure

/-- The body of the loop of `arrays::array`. -/
def pairsBody (close : TT) (r : Rec) (es : List Node) : P (List Node ⊕ List Node) := do
  if ← nextOneOf [close] then pure (.inr es)
  else do
    match ← consumeOrIgnore .comma with
    | some _ => pure (.inl es)
    | none => do
      let e ← arrayPair r
      let _ ← consumeOrIgnore .comma
      pure (.inl (es ++ [e]))

/-- The elements of an array or a `list(..)`, of which some may be missing. -/
def SlotsRd (doc : Token → Option Node) (ts : List Token) (ns : List Node) : Prop :=
  ∀ close k rest acc, close ∈ [TT.closeBrackets, .closeParenthesis] → Tok close k →
    LoopRd doc .other (pairsBody close) acc ts (k :: rest) (acc ++ ns)

theorem close_no {close : TT} {p : TT → Bool} (hc : close ∈ [TT.closeBrackets, .closeParenthesis])
    (hp : p .closeBrackets = false ∧ p .closeParenthesis = false) : [close].all (fun t => !p t) = true := by
  rcases List.mem_cons.1 hc with rfl | hc
  · simp [hp.1]
  · rw [List.mem_singleton.1 hc]; simp [hp.2]

theorem close_ends {close : TT} (hc : close ∈ [TT.closeBrackets, .closeParenthesis]) :
    ends close = true ∧ (close == .comma) = false := by
  rcases List.mem_cons.1 hc with rfl | hc
  · decide
  · rw [List.mem_singleton.1 hc]; decide

theorem SlotsRd.nil : SlotsRd doc [] [] := by
  intro close k rest acc hc hk
  refine LoopRd.stop ?_
  rw [List.append_nil]
  exact Rd.bind0 (ts := []) (Rd.nextOneOf_tok hk (List.mem_singleton.2 rfl)) Rd.pure

theorem SlotsRd.hole (hk : Tok .comma k) (h : SlotsRd doc us ns) : SlotsRd doc (k :: us) ns := by
  intro close k' rest acc hc hk'
  refine LoopRd.step (ts := [k]) (b' := acc) ?_ (h close k' rest acc hc hk')
  refine Rd.bind0 (Rd.nextOneOf_no hk.next.ahead (close_no hc (by decide))) ?_
  exact Rd.bind1 (ts := []) (Rd.ignore_yes hk) Rd.pure

theorem SlotsRd.slot (h : PairRd doc ts n) (hk : Tok .comma k) (hm : SlotsRd doc us ns) :
    SlotsRd doc (ts ++ k :: us) (n :: ns) := by
  intro close k' rest acc hc hk'
  have e : ts ++ k :: us = (ts ++ [k]) ++ us := by simp
  rw [e]
  refine LoopRd.step (b' := acc ++ [n]) ?_ ?_
  · refine Rd.bind0 (Rd.nextOneOf_no (p := exprStart) ?_ (close_no hc (by decide))) ?_
    · rw [List.append_assoc]; exact h.first.append.ahead
    refine Rd.bind0 (Rd.ignore_no (p := exprStart) ?_ rfl) ?_
    · rw [List.append_assoc]; exact h.first.append.ahead
    refine Rd.bind (h.reads _ ⟨k, _, rfl, hk.1, by rw [hk.2]; decide⟩) ?_
    exact Rd.bind1 (ts := []) (Rd.ignore_yes hk) Rd.pure
  · have := hm close k' rest (acc ++ [n]) hc hk'
    rwa [List.append_assoc] at this

theorem SlotsRd.last (h : PairRd doc ts n) : SlotsRd doc ts [n] := by
  intro close k' rest acc hc hk'
  have e : ts = ts ++ [] := by simp
  rw [e]
  refine LoopRd.step (b' := acc ++ [n]) ?_ ?_
  · refine Rd.bind0 (Rd.nextOneOf_no (p := exprStart) h.first.append.ahead (close_no hc (by decide))) ?_
    refine Rd.bind0 (Rd.ignore_no (p := exprStart) h.first.append.ahead rfl) ?_
    refine Rd.bind_last (h.reads _ ⟨k', _, rfl, hk'.1, by rw [hk'.2]; exact (close_ends hc).1⟩) ?_
    refine Rd.bind0 (ts := []) (Rd.ignore_no hk'.next.ahead ?_) Rd.pure
    have := (close_ends hc).2
    cases hcc : (TT.comma == close) with
    | false => rfl
    | true => rw [← eq_of_beq hcc] at this; cases this
  · have := SlotsRd.nil (doc := doc) close k' rest (acc ++ [n]) hc hk'
    rwa [List.append_nil] at this

theorem SlotsRd.ofList (h : SepBy (PairRd doc) true ts ns) : SlotsRd doc ts ns := by
  induction h with
  | nil => exact .nil
  | last h => exact .last h
  | cons h hk _ ih => exact .slot h hk ih

theorem oldArray_loop {acc : List Node} (h : SepBy (PairRd doc) true ts ns) (hr : Tok .closeParenthesis rp) :
    LoopRd doc .other (fun r (es : List Node) => do
      if ← nextOneOf [.closeParenthesis] then pure (.inr es)
      else do
        let e ← arrayPair r
        let _ ← consumeOrIgnore .comma
        pure (.inl (es ++ [e]))) acc ts (rp :: rest) (acc ++ ns) := by
  induction h generalizing acc with
  | nil hb =>
    refine LoopRd.stop ?_
    rw [List.append_nil]
    exact Rd.bind0 (ts := []) (Rd.nextOneOf_tok hr (by decide)) Rd.pure
  | @last ts n h =>
    have e : ts = ts ++ [] := by simp
    rw [e]
    refine LoopRd.step (b' := acc ++ [n]) ?_ ?_
    · refine Rd.bind0 (Rd.nextOneOf_no (p := exprStart) h.first.append.ahead (by decide)) ?_
      refine Rd.bind_last (h.reads _ ⟨rp, _, rfl, hr.1, by rw [hr.2]; decide⟩) ?_
      exact Rd.bind0 (ts := []) (Rd.ignore_no hr.next.ahead rfl) Rd.pure
    · exact LoopRd.stop (Rd.bind0 (ts := []) (Rd.nextOneOf_tok hr (by decide)) Rd.pure)
  | @cons ts us k n ns h hk hm ih =>
    have e : ts ++ k :: us = (ts ++ [k]) ++ us := by simp
    rw [e]
    refine LoopRd.step (b' := acc ++ [n]) ?_ ?_
    · refine Rd.bind0 (Rd.nextOneOf_no (p := exprStart) ?_ (by decide)) ?_
      · rw [List.append_assoc]; exact h.first.append.ahead
      refine Rd.bind (h.reads _ ⟨k, _, rfl, hk.1, by rw [hk.2]; decide⟩) ?_
      exact Rd.bind1 (ts := []) (Rd.ignore_yes hk) Rd.pure
    · have := ih (acc := acc ++ [n])
      rwa [List.append_assoc] at this

/-! ## Match arms -/

/-- An arm of a `match`. -/
structure ArmRd (doc : Token → Option Node) (ts : List Token) (n : Node) : Prop where
  first : Next ts fun t => exprStart t || t == .kwDefault
  reads : ∀ rest, Next rest ends → Rd doc [] matchOption ts rest n

theorem matchArm_loop {acc ps : List Node} {w : Token} (h : SepBy (DelRd doc keyEnds) false ts ps) (hw : Tok .doubleArrow w)
    (hn : DelRd doc ends us n) (hr : Next rest ends) :
    LoopRd doc .other (fun r (ps : List Node) => do
      let p ← r.expression 0
      match ← consumeOrIgnore .comma with
      | some _ => pure (.inl (ps ++ [p]))
      | none => do
        let arrow ← consume .doubleArrow
        let e ← r.expression 0
        pure (.inr (Node.matchArm (some (ps ++ [p])) arrow e))) acc (ts ++ w :: us) rest (Node.matchArm (some (acc ++ ps)) w n) := by
  induction h generalizing acc with
  | nil hb => cases hb
  | last h =>
    refine LoopRd.stop ?_
    refine Rd.bind (h.tok hw (by decide)) ?_
    refine Rd.bind0 (Rd.ignore_no hw.next.ahead rfl) ?_
    refine Rd.bind1 (Rd.consume hw) ?_
    exact Rd.bind_last (hn.reads _ hr) Rd.pure
  | @cons ts ts' k p ps h hk hm ih =>
    have e : ts ++ k :: ts' ++ w :: us = (ts ++ [k]) ++ (ts' ++ w :: us) := by simp
    rw [e]
    refine LoopRd.step (b' := acc ++ [p]) ?_ ?_
    · refine Rd.bind (h.tok hk (by decide)) ?_
      exact Rd.bind1 (ts := []) (Rd.ignore_yes hk) Rd.pure
    · have := ih (acc := acc ++ [p])
      rwa [List.append_assoc] at this

theorem ArmRd.arm {ps : List Node} {w : Token} (h : SepBy (DelRd doc keyEnds) false ts ps) (hw : Tok .doubleArrow w)
    (hn : DelRd doc ends us n) : ArmRd doc (ts ++ w :: us) (.matchArm (some ps) w n) where
  first := ((h.next fun _ _ h => h.first).mono (q := fun t => exprStart t || t == .kwDefault) fun t ht => by simp [ht]).append
  reads rest hr := by
    unfold matchOption
    have hf : Next (ts ++ w :: us ++ rest) exprStart := by
      rw [List.append_assoc]; exact (h.next fun _ _ h => h.first).append
    refine Rd.bind0 (Rd.ignore_no hf.ahead rfl) ?_
    exact Rd.loop (matchArm_loop (acc := []) h hw hn hr)

theorem ArmRd.default {w : Token} (hk : Tok .kwDefault k) (hw : Tok .doubleArrow w) (hn : DelRd doc ends us n) :
    ArmRd doc (k :: w :: us) (.matchArm none w n) where
  first := ⟨k, _, rfl, hk.1, by rw [hk.2]; rfl⟩
  reads rest hr := by
    unfold matchOption
    refine Rd.bind1 (Rd.ignore_yes hk) ?_
    refine Rd.bind1 (Rd.consume hw) ?_
    exact Rd.bind_last (hn.reads _ hr) Rd.pure

theorem SepBy.nextOr {one : List Token → Node → Prop} {b : Bool} (h : SepBy one b ts ns) (ho : ∀ ts n, one ts n → Next ts p)
    (hr : Next rest p) : Next (ts ++ rest) p := by
  cases h with
  | nil => exact hr
  | last h => exact (ho _ _ h).append
  | cons h => exact (ho _ _ h).append.append

theorem match_loop {cc : Token} {acc : List Node} (h : SepBy (ArmRd doc) true ts ns) (hc : Tok .closeCurly cc) :
    LoopRd doc .other (fun r (os : List Node) => do
      if ← nextOneOf [.closeCurly] then pure (.inr os)
      else do
        let o ← matchOption r
        let _ ← consumeOrIgnore .comma
        match ← peek with
        | none => pure (.inr (os ++ [o]))
        | some _ => pure (.inl (os ++ [o]))) acc ts (cc :: rest) (acc ++ ns) := by
  have stop : ∀ acc : List Node, LoopRd doc .other (fun r (os : List Node) => do
      if ← nextOneOf [.closeCurly] then pure (.inr os)
      else do
        let o ← matchOption r
        let _ ← consumeOrIgnore .comma
        match ← peek with
        | none => pure (.inr (os ++ [o]))
        | some _ => pure (.inl (os ++ [o]))) acc [] (cc :: rest) acc := fun acc =>
    LoopRd.stop (Rd.bind0 (ts := []) (Rd.nextOneOf_tok hc (by decide)) Rd.pure)
  induction h generalizing acc with
  | nil hb =>
    rw [List.append_nil]
    exact stop acc
  | @last ts n h =>
    have e : ts = ts ++ [] := by simp
    rw [e]
    refine LoopRd.step (b' := acc ++ [n]) ?_ (stop _)
    refine Rd.bind0 (Rd.nextOneOf_no h.first.append.ahead (by decide)) ?_
    refine Rd.bind_last (h.reads _ ⟨cc, _, rfl, hc.1, by rw [hc.2]; decide⟩) ?_
    refine Rd.bind0 (ts := []) (Rd.ignore_no hc.next.ahead rfl) ?_
    obtain ⟨k, r, e, -, -, hp⟩ := Rd.peek (doc := doc) (hc.next (rest := rest))
    exact Rd.bind0 (ts := []) hp Rd.pure
  | @cons ts us k n ns h hk hm ih =>
    have e : ts ++ k :: us = (ts ++ [k]) ++ us := by simp
    rw [e]
    refine LoopRd.step (b' := acc ++ [n]) ?_ ?_
    · refine Rd.bind0 (Rd.nextOneOf_no (p := fun t => exprStart t || t == .kwDefault) ?_ (by decide)) ?_
      · rw [List.append_assoc]; exact h.first.append.ahead
      refine Rd.bind (h.reads _ ⟨k, _, rfl, hk.1, by rw [hk.2]; decide⟩) ?_
      refine Rd.bind1 (ts := []) (Rd.ignore_yes hk) ?_
      have hn : Next (us ++ cc :: rest) fun _ => true := hm.nextOr (fun _ _ h => h.first.mono fun _ _ => rfl)
        ⟨cc, _, rfl, hc.1, rfl⟩
      obtain ⟨k, r, e, -, -, hp⟩ := Rd.peek (doc := doc) hn
      exact Rd.bind0 (ts := []) hp Rd.pure
    · have := ih (acc := acc ++ [n])
      rwa [List.append_assoc] at this

/-! ## The stages of `primary` -/

/-- No type of `l` is `t`. -/
abbrev No (t : TT) (l : List TT) : Prop := l.all (fun x => !(x == t)) = true

theorem toIsset (hk : Tok t k) (h : No t literalSet ∧ No t [.variable] ∧ No t [.namespaceSeparator, .identifier] ∧
    (TT.hereDocStart == t) = false) (H : Rd doc [] primaryIsset (k :: ts) rest n) : Rd doc [] primary (k :: ts) rest n := by
  have ha : Ahead (k :: ts ++ rest) (· == t) := (hk.next (rest := ts ++ rest)).ahead
  unfold primary
  refine Rd.bind0 (Rd.oneOf_no ha h.1) ?_
  refine Rd.bind0 (Rd.nextOneOf_no ha h.2.1) ?_
  refine Rd.bind0 (Rd.nextOneOf_no ha h.2.2.1) ?_
  exact Rd.bind0 (Rd.hereDocBody_no ha h.2.2.2) H

theorem toArray (hk : Tok t k) (h : (TT.kwIsset == t) = false ∧ (TT.kwExit == t) = false ∧ (TT.kwEmpty == t) = false)
    (H : Rd doc [] primaryArray (k :: ts) rest n) : Rd doc [] primaryIsset (k :: ts) rest n := by
  have ha : Ahead (k :: ts ++ rest) (· == t) := (hk.next (rest := ts ++ rest)).ahead
  unfold primaryIsset
  refine Rd.bind0 (Rd.ignore_no ha h.1) ?_
  refine Rd.bind0 (Rd.ignore_no ha h.2.1) ?_
  exact Rd.bind0 (Rd.ignore_no ha h.2.2) H

theorem toAttr (hk : Tok t k) (h : No t [.typeArray] ∧ No t [.kwList] ∧
    No t [.kwRequire, .requireOnce, .kwInclude, .includeOnce] ∧ No t [.openBrackets] ∧ No t [.openParenthesis])
    (H : Rd doc [] primaryAttr (k :: ts) rest n) : Rd doc [] primaryArray (k :: ts) rest n := by
  have ha : Ahead (k :: ts ++ rest) (· == t) := (hk.next (rest := ts ++ rest)).ahead
  unfold primaryArray
  refine Rd.bind0 (Rd.nextOneOf_no ha h.1) ?_
  refine Rd.bind0 (Rd.nextOneOf_no ha h.2.1) ?_
  refine Rd.bind0 (Rd.oneOf_no ha h.2.2.1) ?_
  refine Rd.bind0 (Rd.nextOneOf_no ha h.2.2.2.1) ?_
  exact Rd.bind0 (Rd.nextOneOf_no ha h.2.2.2.2) H

theorem noAttr (hk : Tok t k) (h : t != .attributeStart) : Rd doc [] attributesBlock [] (k :: ts) [] :=
  AttrsRd.none.block ⟨k, _, rfl, hk.1, by rw [hk.2]; exact h⟩

theorem toNew (hk : Tok t k) (h : t != .attributeStart) (h' : No t [.kwFn] ∧ No t [.kwFunction] ∧ (TT.kwStatic == t) = false ∧
    No t [.typeSelf, .kwParent] ∧ No t [.kwClass])
    (H : Rd doc [] primaryNew (k :: ts) rest n) : Rd doc [] primaryAttr (k :: ts) rest n := by
  have ha : Ahead (k :: ts ++ rest) (· == t) := (hk.next (rest := ts ++ rest)).ahead
  unfold primaryAttr
  refine Rd.bind0 (noAttr hk h) ?_
  refine Rd.bind0 (Rd.nextOneOf_no ha h'.1) ?_
  refine Rd.bind0 (Rd.nextOneOf_no ha h'.2.1) ?_
  refine Rd.bind0 (Rd.ignore_no ha h'.2.2.1) ?_
  refine Rd.bind0 (Rd.oneOf_no ha h'.2.2.2.1) ?_
  exact Rd.bind0 (Rd.nextOneOf_no ha h'.2.2.2.2) H

/-! ## Operands -/

theorem Tok.start (hk : Tok t k) (h : operandStart t = true) : Next (k :: ts) operandStart := ⟨k, ts, rfl, hk.1, by rw [hk.2]; exact h⟩

theorem PrimRd.lit (h : Plain k) (hk : k.t ∈ literalSet) : PrimRd doc [k] (.literal k) where
  first := ⟨k, [], rfl, h, by
    have : ∀ t ∈ literalSet, operandStart t = true := by decide
    exact this _ hk⟩
  second := .one h
  reads rest hn := by
    unfold primary
    exact Rd.bind1 (ts := []) (Rd.oneOf_yes (t := k.t) ⟨h, rfl⟩ hk) Rd.pure

theorem PrimRd.var (h : Var k) : PrimRd doc [k] (.variable k) where
  first := Tok.start h.1 (by decide)
  second := .one h.1.1
  reads rest hn := by
    have ha : Ahead ([k] ++ rest) (· == .variable) := (h.1.next (rest := rest)).ahead
    unfold primary
    refine Rd.bind0 (Rd.oneOf_no ha (by decide)) ?_
    exact Rd.bind0 (Rd.nextOneOf_tok h.1 (by decide)) h.reads

theorem name_second (h : Name ts n) (hs : Next ts fun t => t == .namespaceSeparator || t == .identifier) : Second ts := by
  obtain ⟨h1, h2, h3⟩ := h
  rename_i ns id path
  have key : Second (id :: pathToks path) := by
    cases path with
    | nil => exact .one h2.1
    | cons q path =>
      obtain ⟨h4, h5⟩ := h3 q (List.mem_cons_self ..)
      exact Second.two h2.1 h4.1 (by rw [h4.2]; decide) (fun _ => by rw [h4.2]; decide)
  cases ns with
  | none => exact key
  | some x =>
    refine Second.two (h1 x rfl).1 h2.1 (word_ne h2 rfl) (fun e => ?_)
    rw [(h1 x rfl).2] at e
    cases e

theorem PrimRd.name (h : Name ts n) (hs : Next ts fun t => t == .namespaceSeparator || t == .identifier) : PrimRd doc ts n where
  first := hs.mono fun t ht => by
    rcases Bool.or_eq_true_iff.1 ht with ht | ht <;> (rw [eq_of_beq ht]; decide)
  second := name_second h hs
  reads rest hn := by
    have ha := (hs.append (rest := rest)).ahead
    unfold primary
    refine Rd.bind0 (Rd.oneOf_no ha (by decide)) ?_
    refine Rd.bind0 (Rd.nextOneOf_no ha (by decide)) ?_
    refine Rd.bind0 (Rd.nextOneOf_yes (hs.append (rest := rest)) fun t ht => ?_) (h.reads (hn.mono fun t ht => ?_))
    · rcases Bool.or_eq_true_iff.1 ht with ht | ht <;> (rw [eq_of_beq ht]; decide)
    · cases hb : nameEnd t with
      | true => rfl
      | false =>
        have : t = .namespaceSeparator := by simpa [nameEnd] using hb
        rw [this] at ht
        cases ht

theorem PrimRd.heredoc {s e : Token} (hs : Tok .hereDocStart s) (hk : Tok .encapsedAndWhitespaceString k) (he : Tok .hereDocEnd e) :
    PrimRd doc [s, k, e] (.literal k) where
  first := Tok.start hs (by decide)
  second := .tok hs hk (by decide)
  reads rest hn := by
    have ha : Ahead ([s, k, e] ++ rest) (· == .hereDocStart) := (hs.next (rest := k :: e :: rest)).ahead
    unfold primary
    refine Rd.bind0 (Rd.oneOf_no ha (by decide)) ?_
    refine Rd.bind0 (Rd.nextOneOf_no ha (by decide)) ?_
    refine Rd.bind0 (Rd.nextOneOf_no ha (by decide)) ?_
    refine Rd.bind (ts := [s, k]) (us := [e]) (a := some k) ?_ (Rd.bind1 (ts := []) (Rd.ffAfter_yes he) Rd.pure)
    unfold hereDocBody
    refine Rd.bind0 (Rd.nextOneOf_tok hs (by decide)) ?_
    refine Rd.bind1 (Rd.ffAfter_yes hs) ?_
    refine Rd.bind1 (ts := []) (a := k) (Rd.of ?_ (hk.next (rest := e :: rest))) Rd.pure
    intro st ht
    obtain ⟨s', h1, h2, n0, hn⟩ := Reads.next (doc := doc) (rest := e :: rest) hk.1 st ht
    refine ⟨s', h1, h2, n0, fun n hnn => ?_⟩
    show nextUnwrap st = _
    have := hn n hnn
    unfold nextUnwrap
    exact (bind_ok this).trans rfl

theorem PrimRd.group (hl : Tok .openParenthesis lp) (h : DelRd doc ends ts n) (hr : Tok .closeParenthesis rp) :
    PrimRd doc (lp :: (ts ++ [rp])) (.grouping n) where
  first := Tok.start hl (by decide)
  second := .next hl.1 h.first.append start_noColon (by rw [hl.2]; decide)
  reads rest hn := by
    have ha : Ahead (lp :: (ts ++ [rp]) ++ rest) (· == .openParenthesis) := (hl.next (rest := ts ++ [rp] ++ rest)).ahead
    refine toIsset hl (by decide) (toArray hl (by decide) ?_)
    unfold primaryArray
    refine Rd.bind0 (Rd.nextOneOf_no ha (by decide)) ?_
    refine Rd.bind0 (Rd.nextOneOf_no ha (by decide)) ?_
    refine Rd.bind0 (Rd.oneOf_no ha (by decide)) ?_
    refine Rd.bind0 (Rd.nextOneOf_no ha (by decide)) ?_
    refine Rd.bind0 (Rd.nextOneOf_tok hl (by decide)) ?_
    refine Rd.bind1 (Rd.ffAfter_yes hl) ?_
    refine Rd.bind (h.tok hr (by decide)) ?_
    exact Rd.bind1 (ts := []) (Rd.ffAfter_yes hr) Rd.pure

theorem second_of_next (hk : Tok t k) (ht : t ≠ .kwStatic) (hn : ∃ p, Next ts p ∧ p .colon = false) : Second (k :: ts) := by
  obtain ⟨p, h1, h2⟩ := hn
  refine .next hk.1 h1 (fun t' ht' e => ?_) (by rw [hk.2]; exact ht)
  rw [e, h2] at ht'
  cases ht'

theorem PrimRd.array {ob cb : Token} (hl : Tok .openBrackets ob) (h : SlotsRd doc ts ns) (hf : Next (ts ++ [cb]) (· != .colon))
    (hr : Tok .closeBrackets cb) : PrimRd doc (ob :: (ts ++ [cb])) (.array ob ns cb) where
  first := Tok.start hl (by decide)
  second := second_of_next hl (by decide) ⟨_, hf, rfl⟩
  reads rest hn := by
    have ha : Ahead (ob :: (ts ++ [cb]) ++ rest) (· == .openBrackets) := (hl.next (rest := ts ++ [cb] ++ rest)).ahead
    refine toIsset hl (by decide) (toArray hl (by decide) ?_)
    unfold primaryArray
    refine Rd.bind0 (Rd.nextOneOf_no ha (by decide)) ?_
    refine Rd.bind0 (Rd.nextOneOf_no ha (by decide)) ?_
    refine Rd.bind0 (Rd.oneOf_no ha (by decide)) ?_
    refine Rd.bind0 (Rd.nextOneOf_tok hl (by decide)) ?_
    unfold Parser.array
    refine Rd.bind1 (Rd.consume hl) ?_
    refine Rd.bind (a := ns) (Rd.loop (h .closeBrackets cb rest [] (by decide) hr)) ?_
    exact Rd.bind1 (ts := []) (Rd.consume hr) Rd.pure

theorem PrimRd.list (hk : Tok .kwList k) (hl : Tok .openParenthesis lp) (h : SlotsRd doc ts ns)
    (hr : Tok .closeParenthesis rp) : PrimRd doc (k :: lp :: (ts ++ [rp])) (.list k lp ns rp) where
  first := Tok.start hk (by decide)
  second := .tok hk hl (by decide)
  reads rest hn := by
    have ha : Ahead (k :: lp :: (ts ++ [rp]) ++ rest) (· == .kwList) := (hk.next (rest := lp :: (ts ++ [rp] ++ rest))).ahead
    refine toIsset hk (by decide) (toArray hk (by decide) ?_)
    unfold primaryArray
    refine Rd.bind0 (Rd.nextOneOf_no ha (by decide)) ?_
    refine Rd.bind0 (Rd.nextOneOf_tok hk (by decide)) ?_
    unfold Parser.list
    refine Rd.bind1 (Rd.consume hk) ?_
    refine Rd.bind1 (Rd.consume hl) ?_
    refine Rd.bind (a := ns) (Rd.loop (h .closeParenthesis rp rest [] (by decide) hr)) ?_
    exact Rd.bind1 (ts := []) (Rd.consume hr) Rd.pure

theorem PrimRd.oldArray (hk : Tok .typeArray k) (hl : Tok .openParenthesis lp) (h : SepBy (PairRd doc) true ts ns)
    (hr : Tok .closeParenthesis rp) : PrimRd doc (k :: lp :: (ts ++ [rp])) (.oldArray k lp ns rp) where
  first := Tok.start hk (by decide)
  second := .tok hk hl (by decide)
  reads rest hn := by
    refine toIsset hk (by decide) (toArray hk (by decide) ?_)
    unfold primaryArray
    refine Rd.bind0 (Rd.nextOneOf_tok hk (by decide)) ?_
    unfold Parser.oldArray
    refine Rd.bind1 (Rd.consume hk) ?_
    refine Rd.bind1 (Rd.consume hl) ?_
    refine Rd.bind (a := ns) (Rd.loop (oldArray_loop (acc := []) h hr)) ?_
    exact Rd.bind1 (ts := []) (Rd.consume hr) Rd.pure

theorem PrimRd.isset (hk : Tok .kwIsset k) (hl : Tok .openParenthesis lp) (h : SepBy (DelRd doc ends) true ts (n :: ns))
    (hr : Tok .closeParenthesis rp) : PrimRd doc (k :: lp :: (ts ++ [rp])) (.isset k lp (n :: ns) rp) where
  first := Tok.start hk (by decide)
  second := .tok hk hl (by decide)
  reads rest hn := by
    refine toIsset hk (by decide) ?_
    unfold primaryIsset
    refine Rd.bind1 (Rd.ignore_yes hk) ?_
    refine Rd.bind1 (Rd.consume hl) ?_
    refine Rd.bind (params_nonEmpty h hr) ?_
    exact Rd.bind1 (ts := []) (Rd.consume hr) Rd.pure

theorem PrimRd.empty (hk : Tok .kwEmpty k) (hl : Tok .openParenthesis lp) (h : SepBy (DelRd doc ends) true ts (n :: ns))
    (hr : Tok .closeParenthesis rp) : PrimRd doc (k :: lp :: (ts ++ [rp])) (.emptyExpr k lp (n :: ns) rp) where
  first := Tok.start hk (by decide)
  second := .tok hk hl (by decide)
  reads rest hn := by
    have ha : Ahead (k :: lp :: (ts ++ [rp]) ++ rest) (· == .kwEmpty) := (hk.next (rest := lp :: (ts ++ [rp] ++ rest))).ahead
    refine toIsset hk (by decide) ?_
    unfold primaryIsset
    refine Rd.bind0 (Rd.ignore_no ha (by decide)) ?_
    refine Rd.bind0 (Rd.ignore_no ha (by decide)) ?_
    refine Rd.bind1 (Rd.ignore_yes hk) ?_
    refine Rd.bind1 (Rd.consume hl) ?_
    refine Rd.bind (params_nonEmpty h hr) ?_
    exact Rd.bind1 (ts := []) (Rd.consume hr) Rd.pure

theorem PrimRd.exit (hk : Tok .kwExit k) (hl : Tok .openParenthesis lp) (h : SepBy (DelRd doc ends) true ts ns)
    (hr : Tok .closeParenthesis rp) : PrimRd doc (k :: lp :: (ts ++ [rp])) (.exitExpr k (some lp) (some ns) (some rp)) where
  first := Tok.start hk (by decide)
  second := .tok hk hl (by decide)
  reads rest hn := by
    have ha : Ahead (k :: lp :: (ts ++ [rp]) ++ rest) (· == .kwExit) := (hk.next (rest := lp :: (ts ++ [rp] ++ rest))).ahead
    refine toIsset hk (by decide) ?_
    unfold primaryIsset
    refine Rd.bind0 (Rd.ignore_no ha (by decide)) ?_
    refine Rd.bind1 (Rd.ignore_yes hk) ?_
    refine Rd.bind1 (Rd.ignore_yes hl) ?_
    refine Rd.bind (params_list h hr) ?_
    exact Rd.bind1 (ts := []) (Rd.consume hr) Rd.pure

theorem ExprRd.exits (hk : Tok .kwExit k) : ExprRd doc [k] (.exitExpr k none none none) [] [] := by
  refine .ofCall (Tok.start hk (by decide)) (.one hk.1) fun rest hf => ?_
  have hb := hf.next
  refine Rd.bind_last (f := primary) (g := fun r e => initCall r e) ?_ (Rd.loop (initCall_stop hb _))
  have ha : Ahead ([k] ++ rest) (· == .kwExit) := (hk.next (rest := rest)).ahead
  refine toIsset hk (by decide) ?_
  unfold primaryIsset
  refine Rd.bind0 (Rd.ignore_no ha (by decide)) ?_
  refine Rd.bind1 (Rd.ignore_yes hk) ?_
  exact Rd.bind0 (ts := []) (Rd.ignore_no hb.ahead (by decide)) Rd.pure

theorem PrimRd.word (hk : Tok t k) (ht : t ∈ [TT.kwStatic, .typeSelf, .kwParent]) : PrimRd doc [k] (.literal k) where
  first := Tok.start hk (by
    have : ∀ t ∈ [TT.kwStatic, .typeSelf, .kwParent], operandStart t = true := by decide
    exact this _ ht)
  second := .one hk.1
  reads rest hn := by
    have ha : Ahead ([k] ++ rest) (· == t) := (hk.next (rest := rest)).ahead
    have key : ∀ t ∈ [TT.kwStatic, .typeSelf, .kwParent], (No t literalSet ∧ No t [.variable] ∧
      No t [.namespaceSeparator, .identifier] ∧ (TT.hereDocStart == t) = false) ∧
      ((TT.kwIsset == t) = false ∧ (TT.kwExit == t) = false ∧ (TT.kwEmpty == t) = false) ∧
      (No t [.typeArray] ∧ No t [.kwList] ∧ No t [.kwRequire, .requireOnce, .kwInclude, .includeOnce] ∧
        No t [.openBrackets] ∧ No t [.openParenthesis]) ∧ (t != .attributeStart) = true ∧ No t [.kwFn] ∧ No t [.kwFunction] := by
      decide
    obtain ⟨k1, k2, k3, k4, k5, k6⟩ := key t ht
    refine toIsset hk k1 (toArray hk k2 (toAttr hk k3 ?_))
    unfold primaryAttr
    refine Rd.bind0 (noAttr hk k4) ?_
    refine Rd.bind0 (Rd.nextOneOf_no ha k5) ?_
    refine Rd.bind0 (Rd.nextOneOf_no ha k6) ?_
    have hself : ∀ (t' : TT), Tok t' k → t' ∈ [TT.typeSelf, .kwParent] → (TT.kwStatic == t') = false →
        Rd doc [] (fun r => (do
          match ← consumeOrIgnore .kwStatic with
          | some token => primaryStatic r token []
          | none => do
            match ← consumeOneOfOrIgnore [.typeSelf, .kwParent] with
            | some token => do
              let _ ← nextOneOf [.paamayimNekudayim]
              pure (.literal token)
            | none => do
              if ← nextOneOf [.kwClass] then anonymousClass r []
              else primaryNew r : P Node)) [k] rest (.literal k) := by
      intro t' hk' h1 h2
      refine Rd.bind0 (Rd.ignore_no (hk'.next (rest := rest)).ahead h2) ?_
      refine Rd.bind1 (ts := []) (Rd.oneOf_yes hk' h1) ?_
      obtain ⟨k', r', rfl, h3, h4⟩ := hn
      refine Rd.bind0 (a := [TT.paamayimNekudayim].contains k'.t) (ts := []) ?_ Rd.pure
      exact Rd.of (p := fun _ => true) (Reads.nextIs h3) ⟨k', r', rfl, h3, rfl⟩
    rcases List.mem_cons.1 ht with rfl | ht
    · refine Rd.bind1 (ts := []) (Rd.ignore_yes hk) ?_
      unfold primaryStatic
      obtain ⟨k', r', rfl, h3, h4⟩ := hn
      have h5 : Ahead (k' :: r') primFollow := .inl ⟨k', r', rfl, h3, h4⟩
      refine Rd.bind0 (ts := []) (a := [TT.paamayimNekudayim].contains k'.t)
        (Rd.of (p := fun _ => true) (Reads.nextIs h3) ⟨k', r', rfl, h3, rfl⟩) ?_
      cases [TT.paamayimNekudayim].contains k'.t with
      | true => exact Rd.pure
      | false =>
        refine Rd.bind0 (ts := []) (Rd.nextOneOf_no h5 (by decide)) ?_
        exact Rd.bind0 (ts := []) (Rd.nextOneOf_no h5 (by decide)) Rd.pure
    · rcases List.mem_cons.1 ht with rfl | ht
      · exact hself _ hk (by decide) (by decide)
      · cases List.mem_singleton.1 ht
        exact hself _ hk (by decide) (by decide)

theorem PrimRd.match {oc cc : Token} (hk : Tok .kwMatch k) (hl : Tok .openParenthesis lp) (h : DelRd doc ends ts n)
    (hr : Tok .closeParenthesis rp) (ho : Tok .openCurly oc) (ha : SepBy (ArmRd doc) true us ns) (hc : Tok .closeCurly cc) :
    PrimRd doc (k :: lp :: (ts ++ rp :: oc :: (us ++ [cc]))) (.matchExpr k oc lp n rp ns cc) where
  first := Tok.start hk (by decide)
  second := .tok hk hl (by decide)
  reads rest hn := by
    have hh : Ahead (k :: lp :: (ts ++ rp :: oc :: (us ++ [cc])) ++ rest) (· == .kwMatch) :=
      (hk.next (rest := lp :: (ts ++ rp :: oc :: (us ++ [cc])) ++ rest)).ahead
    refine toIsset hk (by decide) (toArray hk (by decide) (toAttr hk (by decide) (toNew hk (by decide) (by decide) ?_)))
    unfold primaryNew
    refine Rd.bind0 (Rd.ignore_no hh (by decide)) ?_
    refine Rd.bind0 (Rd.ignore_no hh (by decide)) ?_
    refine Rd.bind0 (Rd.ignore_no hh (by decide)) ?_
    refine Rd.bind1 (Rd.ignore_yes hk) ?_
    refine Rd.bind1 (Rd.consume hl) ?_
    refine Rd.bind (h.tok hr (by decide)) ?_
    refine Rd.bind1 (Rd.consume hr) ?_
    refine Rd.bind1 (Rd.consume ho) ?_
    refine Rd.bind (a := ns) (Rd.loop (match_loop (acc := []) ha hc)) ?_
    exact Rd.bind1 (ts := []) (Rd.consume hc) Rd.pure

theorem ExprRd.yields (hk : Tok .kwYield k) (h : PairRd doc ts n) : ExprRd doc (k :: ts) (.yieldExpr k (some n)) [] [.all] := by
  refine .greedy (Tok.start hk (by decide)) (.next hk.1 h.first start_noColon (by rw [hk.2]; decide)) fun rest hn => ?_
  have hh : Ahead (k :: ts ++ rest) (· == .kwYield) := (hk.next (rest := ts ++ rest)).ahead
  refine toIsset hk (by decide) (toArray hk (by decide) (toAttr hk (by decide) (toNew hk (by decide) (by decide) ?_)))
  unfold primaryNew
  refine Rd.bind0 (Rd.ignore_no hh (by decide)) ?_
  refine Rd.bind1 (Rd.ignore_yes hk) ?_
  refine Rd.bind0 (Rd.nextOneOf_no h.first.append.ahead (by decide)) ?_
  exact Rd.bind_last (h.reads _ hn) Rd.pure

theorem ExprRd.yieldsNothing (hk : Tok .kwYield k) : ExprRd doc [k] (.yieldExpr k none) [] [.bare] := by
  refine .ofCall (Tok.start hk (by decide)) (.one hk.1) fun rest hf => ?_
  have hb := hf.next
  have hn : Next rest (· == .semicolon) := by
    obtain ⟨k, r, e, h1, h2, h3⟩ := hf
    refine ⟨k, r, e, h1, ?_⟩
    have h4 : ¬ (k.t ≠ .semicolon) := h3 _ (List.mem_cons_self ..)
    simpa using h4
  refine Rd.bind_last (f := primary) (g := fun r e => initCall r e) ?_ (Rd.loop (initCall_stop hb _))
  have hh : Ahead ([k] ++ rest) (· == .kwYield) := (hk.next (rest := rest)).ahead
  refine toIsset hk (by decide) (toArray hk (by decide) (toAttr hk (by decide) (toNew hk (by decide) (by decide) ?_)))
  unfold primaryNew
  refine Rd.bind0 (Rd.ignore_no hh (by decide)) ?_
  refine Rd.bind1 (Rd.ignore_yes hk) ?_
  exact Rd.bind0 (ts := []) (Rd.nextOneOf_yes hn fun t ht => by rw [eq_of_beq ht]; decide) Rd.pure

theorem ExprRd.yieldsFrom (hk : Tok .yieldFrom k) (h : DelRd doc ends ts n) : ExprRd doc (k :: ts) (.yieldFrom k n) [] [.all] := by
  refine .greedy (Tok.start hk (by decide)) (.next hk.1 h.first start_noColon (by rw [hk.2]; decide)) fun rest hn => ?_
  have hh : Ahead (k :: ts ++ rest) (· == .yieldFrom) := (hk.next (rest := ts ++ rest)).ahead
  refine toIsset hk (by decide) (toArray hk (by decide) (toAttr hk (by decide) (toNew hk (by decide) (by decide) ?_)))
  unfold primaryNew
  refine Rd.bind0 (Rd.ignore_no hh (by decide)) ?_
  refine Rd.bind0 (Rd.ignore_no hh (by decide)) ?_
  refine Rd.bind1 (Rd.ignore_yes hk) ?_
  exact Rd.bind_last (h.reads _ hn) Rd.pure

theorem ExprRd.includes (hk : Tok t k) (ht : t ∈ [TT.kwRequire, .requireOnce, .kwInclude, .includeOnce])
    (h : DelRd doc ends ts n) : ExprRd doc (k :: ts) (.fileInclude k n) [] [.all] := by
  have key : ∀ t ∈ [TT.kwRequire, .requireOnce, .kwInclude, .includeOnce], operandStart t = true ∧ t ≠ .kwStatic ∧
    (No t literalSet ∧ No t [.variable] ∧
      No t [.namespaceSeparator, .identifier] ∧ (TT.hereDocStart == t) = false) ∧
      ((TT.kwIsset == t) = false ∧ (TT.kwExit == t) = false ∧ (TT.kwEmpty == t) = false) ∧
      (No t [.typeArray] ∧ No t [.kwList]) := by
    decide
  obtain ⟨k1, k2, k3, k4, k5⟩ := key t ht
  refine .greedy (Tok.start hk k1) (.next hk.1 h.first start_noColon (by rw [hk.2]; exact k2)) fun rest hn => ?_
  have hh : Ahead (k :: ts ++ rest) (· == t) := (hk.next (rest := ts ++ rest)).ahead
  refine toIsset hk k3 (toArray hk k4 ?_)
  unfold primaryArray
  refine Rd.bind0 (Rd.nextOneOf_no hh k5.1) ?_
  refine Rd.bind0 (Rd.nextOneOf_no hh k5.2) ?_
  refine Rd.bind1 (Rd.oneOf_yes hk ht) ?_
  exact Rd.bind_last (h.reads _ hn) Rd.pure

/-! ## Functions and classes -/

variable {ss as rs bs es is : List Token} {s a : Option Token} {o c i : Option (List Node)} {rt e : Option Node} {b : Node} {w : Token}

/-- From `primary` to a function, perhaps with `static` in front. -/
theorem static_function (hs : OptTok .kwStatic ss s) (hk : Tok t k) (ht : t = .kwFunction ∨ t = .kwFn)
    (H : ∀ {f : Option Token → Rec → P Node}, (∀ s r, f s r = if t = .kwFunction then anonymousFunction r s [] else arrowFunction r s []) →
      Rd doc [] (f s) (k :: ts) rest n) : Rd doc [] primary (ss ++ k :: ts) rest n := by
  cases hs with
  | none =>
    have ha : Ahead (k :: ts ++ rest) (· == t) := (hk.next (rest := ts ++ rest)).ahead
    rcases ht with rfl | rfl
    · refine toIsset hk (by decide) (toArray hk (by decide) (toAttr hk (by decide) ?_))
      unfold primaryAttr
      refine Rd.bind0 (noAttr hk (by decide)) ?_
      refine Rd.bind0 (Rd.nextOneOf_no ha (by decide)) ?_
      refine Rd.bind0 (Rd.nextOneOf_tok hk (by decide)) ?_
      exact H (f := fun s r => anonymousFunction r s []) fun _ _ => rfl
    · refine toIsset hk (by decide) (toArray hk (by decide) (toAttr hk (by decide) ?_))
      unfold primaryAttr
      refine Rd.bind0 (noAttr hk (by decide)) ?_
      refine Rd.bind0 (Rd.nextOneOf_tok hk (by decide)) ?_
      exact H (f := fun s r => arrowFunction r s []) fun _ _ => rfl
  | @some s hs =>
    have ha : Ahead (s :: (k :: ts) ++ rest) (· == .kwStatic) := (hs.next (rest := (k :: ts) ++ rest)).ahead
    refine toIsset hs (by decide) (toArray hs (by decide) (toAttr hs (by decide) ?_))
    unfold primaryAttr
    refine Rd.bind0 (noAttr hs (by decide)) ?_
    refine Rd.bind0 (Rd.nextOneOf_no ha (by decide)) ?_
    refine Rd.bind0 (Rd.nextOneOf_no ha (by decide)) ?_
    refine Rd.bind1 (Rd.ignore_yes hs) ?_
    unfold primaryStatic
    have ha : Ahead (k :: ts ++ rest) (· == t) := (hk.next (rest := ts ++ rest)).ahead
    rcases ht with rfl | rfl
    · refine Rd.bind0 (Rd.nextOneOf_no ha (by decide)) ?_
      refine Rd.bind0 (Rd.nextOneOf_tok hk (by decide)) ?_
      exact H (f := fun s r => anonymousFunction r s []) fun _ _ => rfl
    · refine Rd.bind0 (Rd.nextOneOf_no ha (by decide)) ?_
      refine Rd.bind0 (Rd.nextOneOf_no ha (by decide)) ?_
      refine Rd.bind0 (Rd.nextOneOf_tok hk (by decide)) ?_
      exact H (f := fun s r => arrowFunction r s []) fun _ _ => rfl

theorem static_first (hs : OptTok .kwStatic ss s) (hk : Tok t k) (ht : t = .kwFunction ∨ t = .kwFn) :
    Next (ss ++ k :: ts) operandStart := by
  refine hs.next (Tok.start hk ?_) (by decide)
  rcases ht with rfl | rfl <;> decide

theorem static_second (hs : OptTok .kwStatic ss s) (hk : Tok t k) (ht : t = .kwFunction ∨ t = .kwFn)
    (ha : OptTok .binaryAnd as a) (hl : Tok .openParenthesis lp) : Second (ss ++ k :: (as ++ lp :: ts)) := by
  cases hs with
  | none =>
    refine second_of_next (t := t) hk (by rcases ht with rfl | rfl <;> decide) ⟨fun t => t != .colon, ?_, rfl⟩
    exact ha.next ⟨lp, _, rfl, hl.1, by rw [hl.2]; rfl⟩ rfl
  | some hs => exact .tok hs hk (by rcases ht with rfl | rfl <;> decide)

theorem PrimRd.closure (hs : OptTok .kwStatic ss s) (hk : Tok .kwFunction k) (ha : OptTok .binaryAnd as a)
    (hl : Tok .openParenthesis lp) (h : ParamsRd doc none ts o) (hr : Tok .closeParenthesis rp) (hu : Captures us c)
    (hrt : RetType rs rt) (hb : BlockRd doc bs b) :
    PrimRd doc (ss ++ k :: (as ++ lp :: (ts ++ rp :: (us ++ (rs ++ bs))))) (.closure s a k lp o rp c rt b []) where
  first := static_first hs hk (.inl rfl)
  second := static_second hs hk (.inl rfl) ha hl
  reads rest hn := by
    refine static_function hs hk (.inl rfl) fun {f} hf => ?_
    have e : f s = fun r => anonymousFunction r s [] := by
      funext r
      rw [hf]
      rfl
    rw [e]
    exact closure_reads hk ha hl h hr hu hrt hb rest

theorem ExprRd.arrow (hs : OptTok .kwStatic ss s) (hk : Tok .kwFn k) (ha : OptTok .binaryAnd as a)
    (hl : Tok .openParenthesis lp) (h : ParamsRd doc none ts o) (hr : Tok .closeParenthesis rp)
    (hrt : RetType rs rt) (hw : Tok .doubleArrow w) (he : DelRd doc ends us n) :
    ExprRd doc (ss ++ k :: (as ++ lp :: (ts ++ rp :: (rs ++ w :: us)))) (.arrowFunction s a k lp o rp w rt n []) [] [.all] := by
  refine .greedy (static_first hs hk (.inr rfl)) (static_second hs hk (.inr rfl) ha hl) fun rest hn => ?_
  refine static_function hs hk (.inr rfl) fun {f} hf => ?_
  have e : f s = fun r => arrowFunction r s [] := by
    funext r
    rw [hf]
    rfl
  rw [e]
  exact arrow_reads hk ha hl h hr hrt hw he rest hn

/-- The body of a class. -/
structure ClassRd (doc : Token → Option Node) (ts : List Token) (n : Node) : Prop where
  first : Next ts (· == .openCurly)
  reads : ∀ rest, Rd doc [] classBlock ts rest n

theorem ClassRd.next (h : ClassRd doc ts n) (hp : p .openCurly = true) : Next (ts ++ rest) p :=
  (h.first.mono fun t ht => by rw [eq_of_beq ht]; exact hp).append

/-- The arguments of an anonymous class. -/
def CtorRd (doc : Token → Option Node) (ts : List Token) (o : Option (List Node)) : Prop :=
  (ts = [] ∧ o = none) ∨ ∃ lp us rp ns, ts = lp :: (us ++ [rp]) ∧ o = some ns ∧ Tok .openParenthesis lp ∧
    SepBy (DelRd doc ends) true us ns ∧ Tok .closeParenthesis rp

theorem PrimRd.anonClass (hk : Tok .kwClass k) (ha : CtorRd doc ts o) (he : Extends es e) (hi : Heirs .kwImplements is i)
    (hb : ClassRd doc bs b) : PrimRd doc (k :: (ts ++ (es ++ (is ++ bs)))) (.anonClass k o e i b []) where
  first := Tok.start hk (by decide)
  second := by
    refine second_of_next hk (by decide) ⟨fun t => t != .colon, ?_, rfl⟩
    have h1 : Next (es ++ (is ++ bs)) fun t => t != .colon :=
      he.next (hi.next (hb.first.mono fun t ht => by rw [eq_of_beq ht]; rfl) rfl) rfl
    rcases ha with ⟨rfl, -⟩ | ⟨lp, us, rp, ns, rfl, -, hl, -⟩
    · exact h1
    · exact ⟨lp, _, rfl, hl.1, by rw [hl.2]; rfl⟩
  reads rest hn := by
    have hh : Ahead (k :: (ts ++ (es ++ (is ++ bs))) ++ rest) (· == .kwClass) :=
      (hk.next (rest := ts ++ (es ++ (is ++ bs)) ++ rest)).ahead
    have n1 : ∀ {q : TT → Bool}, q .openCurly = true → Next (bs ++ rest) q := fun hq => hb.next hq
    have n2 : ∀ {q : TT → Bool}, q .openCurly = true → q .kwImplements = true → Next (is ++ bs ++ rest) q := fun h1 h2 => by
      rw [List.append_assoc]; exact hi.next (n1 h1) h2
    have n3 : ∀ {q : TT → Bool}, q .openCurly = true → q .kwImplements = true → q .kwExtends = true →
        Next (es ++ (is ++ bs) ++ rest) q := fun h1 h2 h3 => by
      rw [List.append_assoc]; exact he.next (n2 h1 h2) h3
    refine toIsset hk (by decide) (toArray hk (by decide) (toAttr hk (by decide) ?_))
    unfold primaryAttr
    refine Rd.bind0 (noAttr hk (by decide)) ?_
    refine Rd.bind0 (Rd.nextOneOf_no hh (by decide)) ?_
    refine Rd.bind0 (Rd.nextOneOf_no hh (by decide)) ?_
    refine Rd.bind0 (Rd.ignore_no hh (by decide)) ?_
    refine Rd.bind0 (Rd.oneOf_no hh (by decide)) ?_
    refine Rd.bind0 (Rd.nextOneOf_tok hk (by decide)) ?_
    unfold anonymousClass
    refine Rd.bind1 (Rd.consume hk) ?_
    refine Rd.bind (a := o) ?_ ?_
    · rcases ha with ⟨rfl, rfl⟩ | ⟨lp, us, rp, ns, rfl, rfl, hl, h, hr⟩
      · exact Rd.bind0 (Rd.nextOneOf_no (p := (· != .openParenthesis)) (n3 rfl rfl rfl).ahead (by decide)) Rd.pure
      · refine Rd.bind0 (Rd.nextOneOf_tok hl (by decide)) ?_
        refine Rd.bind1 (Rd.ffAfter_yes hl) ?_
        refine Rd.bind (params_list h hr) ?_
        exact Rd.bind1 (ts := []) (Rd.ffAfter_yes hr) Rd.pure
    refine Rd.bind (he.reads (n2 rfl rfl)) ?_
    refine Rd.bind (hi.reads (n1 rfl)) ?_
    exact Rd.bind_last (hb.reads _) Rd.pure

end PhpLs.Syntax
