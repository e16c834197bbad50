import Verif.SyntaxStmt

/-!
# Reading whole programs: text outside of the script and trait adaptations
-/

namespace PhpLs.Syntax

open PhpLs PhpLs.Parser PhpLs.Parser.Ex

variable {doc : Token → Option Node} {ts us vs rest : List Token} {k e : Token} {n : Node} {ns : List Node} {p : TT → Bool}
  {t : TT} {o : Tail}

/-! ## Text outside of the script -/

theorem Rd.setScript : Rd doc [] (fun _ => setCtx .script) [] rest () := by
  intro s hd hc hs
  refine ⟨{ s with ctx := .script }, hs, hd, rfl, rfl, 0, fun n _ => rfl⟩

/-- The opening tags. -/
theorem StmtRd.inline {s g : Token} (hs : Tok .scriptEnd s) (hg : Tok t g) (ht : t ∈ [TT.scriptStartRegular, .scriptStartShort]) :
    StmtRd doc .done [s, g] (.inlineHtml s (some g)) := by
  refine .mk' hs (by decide) fun rest _ => ?_
  show Rd doc [] inlineHtml _ _ _
  unfold inlineHtml
  have hno : [TT.scriptStartEcho].all (fun x => !(x == t)) = true := by
    have : ∀ t ∈ [TT.scriptStartRegular, .scriptStartShort], [TT.scriptStartEcho].all (fun x => !(x == t)) = true := by decide
    exact this t ht
  refine Rd.bind1 (Rd.consume hs) ?_
  refine Rd.bind0 (Rd.nextOneOf_no hg.next.ahead hno) ?_
  refine Rd.bind1 (ts := []) (Rd.oneOf_yes hg ht) ?_
  exact Rd.bind0 (ts := []) Rd.setScript Rd.pure

/-- The end of the script at the end of the file. -/
theorem StmtRd.closing {s : Token} (hs : Tok .scriptEnd s) : StmtRd doc .loose [s] (.inlineHtml s none) := by
  refine .mk' hs (by decide) fun rest hf => ?_
  have hf : Ahead rest fun t => !continues.contains t := hf
  show Rd doc [] inlineHtml _ _ _
  unfold inlineHtml
  refine Rd.bind1 (ts := []) (Rd.consume hs) ?_
  refine Rd.bind0 (ts := []) (Rd.nextOneOf_no hf (by decide)) ?_
  refine Rd.bind0 (ts := []) (Rd.oneOf_no hf (by decide)) ?_
  exact Rd.bind0 (ts := []) Rd.setScript Rd.pure

theorem Rd.endOfStatement_tag (h : Tok .scriptEnd k) : Rd doc [] (fun _ => consumeEndOfStatement) [] (k :: rest) () := by
  unfold consumeEndOfStatement
  refine Rd.bind0 (ts := []) (Rd.of (p := fun _ => true) (Reads.takeOr_no h.1 (by simp [h.2])) ⟨k, _, rfl, h.1, rfl⟩) ?_
  show Rd doc [] (fun _ => if k.t = .scriptEnd then pure () else _) _ _ _
  rw [if_pos h.2]
  exact Rd.pure

theorem StmtRd.inlineEcho {s s' g : Token} {es : List Token} {x : Option Token} (hs : Tok .scriptEnd s)
    (hk : Tok .scriptStartEcho k) (h : SepBy (DelRd doc ends) false ts ns) (he : OptTok .semicolon es x) (hs' : Tok .scriptEnd s')
    (hg : Tok t g) (ht : t ∈ [TT.scriptStartRegular, .scriptStartShort]) :
    StmtRd doc .done (s :: k :: (ts ++ (es ++ [s', g]))) (.echoStatement k ns) := by
  refine .mk' hs (by decide) fun rest _ => ?_
  show Rd doc [] inlineHtml _ _ _
  unfold inlineHtml
  refine Rd.bind1 (Rd.consume hs) ?_
  refine Rd.bind0 (Rd.nextOneOf_tok hk (by decide)) ?_
  have e1 : k :: (ts ++ (es ++ [s', g])) = k :: (ts ++ (es ++ [s'])) ++ [g] := by simp
  rw [e1]
  refine Rd.bind (a := Node.echoStatement k ns) ?_ ?_
  · unfold shortTagEchoStatement
    refine Rd.bind1 (Rd.consume hk) (Rd.assoc ?_)
    cases he with
    | none =>
      refine Rd.bind (more_list h ⟨s', _, rfl, hs'.1, by rw [hs'.2]; decide⟩) ?_
      refine Rd.bind0 (Rd.endOfStatement_tag hs') ?_
      exact Rd.bind1 (ts := []) (Rd.ffAfter_yes hs') Rd.pure
    | @some e he =>
      refine Rd.bind (more_list h ⟨e, _, rfl, he.1, by rw [he.2]; decide⟩) ?_
      refine Rd.bind1 (Rd.endOfStatement he) ?_
      exact Rd.bind1 (ts := []) (Rd.ffAfter_yes hs') Rd.pure
  · refine Rd.bind1 (ts := []) (Rd.oneOf_yes hg ht) ?_
    exact Rd.bind0 (ts := []) Rd.setScript Rd.pure

theorem StmtRd.echoTag (hk : Tok .kwEcho k) (h : SepBy (DelRd doc ends) false ts ns) :
    StmtRd doc .tag (k :: ts) (.echoStatement k ns) := by
  refine .mk' hk (by decide) fun rest hf => ?_
  obtain ⟨s, r, rfl, h1, h2⟩ := show Next rest (· == .scriptEnd) from hf
  have hs : Tok .scriptEnd s := ⟨h1, eq_of_beq h2⟩
  show Rd doc [] echoStatement _ _ _
  unfold echoStatement
  refine Rd.bind1 (Rd.consume hk) (Rd.assoc ?_)
  refine Rd.bind_last (more_list h ⟨s, _, rfl, hs.1, by rw [hs.2]; decide⟩) ?_
  exact Rd.bind0 (ts := []) (Rd.endOfStatement_tag hs) Rd.pure

theorem StmtRd.printTag (hk : Tok .kwPrint k) (h : DelRd doc ends ts n) : StmtRd doc .tag (k :: ts) (.printStatement k [n]) := by
  refine .mk' hk (by decide) fun rest hf => ?_
  obtain ⟨s, r, rfl, h1, h2⟩ := show Next rest (· == .scriptEnd) from hf
  have hs : Tok .scriptEnd s := ⟨h1, eq_of_beq h2⟩
  show Rd doc [] printStatement _ _ _
  unfold printStatement
  refine Rd.bind1 (Rd.consume hk) ?_
  refine Rd.bind_last (h.tok hs (by decide)) ?_
  exact Rd.bind0 (ts := []) (Rd.endOfStatement_tag hs) Rd.pure

theorem SeqRd.snoc (h : SeqRd doc o ts ns) (hn : StmtRd doc .loose us n) (hf : Follows o us) :
    SeqRd doc .loose (ts ++ us) (ns ++ [n]) := by
  induction h with
  | nil =>
    have := SeqRd.cons (us := []) hn.top .nil (.inl rfl)
    rwa [List.append_nil] at this
  | @cons o1 o2 ts vs m ns h hm hf' ih =>
    rw [List.append_assoc]
    cases ns with
    | nil =>
      obtain ⟨rfl, rfl⟩ := hm.empty
      exact SeqRd.cons h (ih trivial) (.inr hf)
    | cons m' ns =>
      refine SeqRd.cons (o' := .loose) (ns := m' :: ns ++ [n]) h (ih hf) (.inr ?_)
      have h3 := hm.first (fun e => nomatch e)
      rcases hf' with rfl | hf'
      · rcases h3 with ⟨k, r, e, -⟩ | ⟨c, r, e, -⟩ <;> cases e
      · exact hf'.append h3

/-! ## Trait adaptations -/

theorem names_more {acc : List Node} (h : Names .comma ts ns) (hk : Tok .comma k) (hn : Next rest fun t => nameEnd t && t != .comma) :
    LoopRd doc .other (fun r (acc : List Node) => do
      match ← consumeOrIgnore .comma with
      | some _ => do
        let e ← nonEmptyTypeRef r
        pure (.inl (acc ++ [e]))
      | none => pure (.inr acc)) acc (k :: ts) rest (acc ++ ns) := by
  induction h generalizing acc k with
  | @one ts n h =>
    have e : k :: ts = (k :: ts) ++ [] := by simp
    rw [e]
    refine LoopRd.step (b' := acc ++ [n]) ?_ ?_
    · refine Rd.bind1 (Rd.ignore_yes hk) ?_
      exact Rd.bind_last (h.reads (hn.mono fun t ht => (Bool.and_eq_true_iff.1 ht).1)) Rd.pure
    · exact LoopRd.stop (Rd.bind0 (ts := []) (Rd.ignore_no hn.ahead rfl) Rd.pure)
  | @more ts us k' n ns h hk' hm ih =>
    have e : k :: (ts ++ k' :: us) = (k :: ts) ++ (k' :: us) := by simp
    rw [e]
    refine LoopRd.step (b' := acc ++ [n]) ?_ ?_
    · refine Rd.bind1 (Rd.ignore_yes hk) ?_
      exact Rd.bind_last (h.reads (hk'.next.mono (q := nameEnd) fun t ht => by rw [eq_of_beq ht]; rfl)) Rd.pure
    · have := ih (acc := acc ++ [n]) hk'
      rwa [List.append_assoc] at this

theorem Names.typeRefList (h : Names .comma ts ns) (hn : Next rest fun t => nameEnd t && t != .comma) :
    Rd doc [] Parser.typeRefList ts rest ns := by
  unfold Parser.typeRefList
  cases h with
  | one h =>
    refine Rd.bind_last (h.reads (hn.mono fun t ht => (Bool.and_eq_true_iff.1 ht).1)) ?_
    exact Rd.loop (LoopRd.stop (Rd.bind0 (ts := []) (Rd.ignore_no hn.ahead rfl) Rd.pure))
  | @more ts us k n ns h hk hm =>
    refine Rd.bind (h.reads (hk.next.mono (q := nameEnd) fun t ht => by rw [eq_of_beq ht]; rfl)) ?_
    exact Rd.loop (names_more (acc := [n]) hm hk hn)

/-- The part of `alteration` behind the method. -/
def alterationTail (r : Rec) (left : Option Node) (paa : Option Token) (m : Node) : P (Option Node) := do
  match ← consumeOrIgnore .kwAs with
  | some asToken => do
    let visibility ← consumeOneOfOrIgnore [.kwPrivate, .kwPublic, .kwProtected]
    if ← nextOneOf [.semicolon] then
      pure (some (.useTraitAs left paa m asToken visibility none))
    else do
      let name ← consumeIdentifier
      pure (some (.useTraitAs left paa m asToken visibility (some name)))
  | none => do
    match ← consumeOrIgnore .insteadof with
    | some io => do
      let l ← typeRefList r
      pure (some (.useTraitInsteadOf left paa m io l))
    | none => pure none

/-- A token behind the method of a trait adaptation. -/
def targetEnd (t : TT) : Bool := nameEnd t && t != .paamayimNekudayim

theorem target_reads {l : Option Node} {q : Option Token} {m : Node} {b : Option Node} (h : Target ts l q m)
    (hn : Next (us ++ rest) targetEnd) (ht : Rd doc [] (fun r => alterationTail r l q m) us rest b) :
    Rd doc [] alteration (ts ++ us) rest b := by
  have hn1 : Next (us ++ rest) nameEnd := hn.mono fun t ht => (Bool.and_eq_true_iff.1 ht).1
  unfold alteration
  cases h with
  | plain h =>
    refine Rd.bind (h.reads hn1) ?_
    refine Rd.bind0 (a := (none, none, m)) ?_ ht
    exact Rd.bind0 (ts := []) (Rd.ignore_no hn.ahead rfl) Rd.pure
  | @of ts vs c m k h hk hm =>
    rw [List.append_assoc]
    refine Rd.bind (h.reads (hk.next.mono (q := nameEnd) fun t ht => by rw [eq_of_beq ht]; rfl)) ?_
    refine Rd.bind (ts := k :: vs) (a := (some c, some k, m)) ?_ ht
    refine Rd.bind1 (Rd.ignore_yes hk) ?_
    exact Rd.bind_last (hm.reads hn1) Rd.pure

theorem as_reads {w : Token} {l : Option Node} {q : Option Token} {m : Node} {v x : Option Token} {as bs : List Token}
    (hw : Tok .kwAs w) (hv : Rd doc [] (fun _ => consumeOneOfOrIgnore [.kwPrivate, .kwPublic, .kwProtected]) as (bs ++ rest) v)
    (hx : (bs = [] ∧ x = none ∧ Next rest (· == .semicolon)) ∨ ∃ y, bs = [y] ∧ x = some y ∧ Word y) :
    Rd doc [] (fun r => alterationTail r l q m) (w :: (as ++ bs)) rest (some (.useTraitAs l q m w v x)) := by
  unfold alterationTail
  refine Rd.bind1 (Rd.ignore_yes hw) ?_
  refine Rd.bind hv ?_
  rcases hx with ⟨rfl, rfl, hn⟩ | ⟨y, rfl, rfl, hy⟩
  · exact Rd.bind0 (ts := []) (Rd.nextOneOf_yes hn fun t ht => by rw [eq_of_beq ht]; decide) Rd.pure
  · refine Rd.bind0 (Rd.nextOneOf_no (hy.next (rest := rest)).ahead (by decide)) ?_
    exact Rd.bind1 (ts := []) (Rd.consumeIdentifier hy) Rd.pure

theorem Adaptation.next (h : Adaptation ts n) : Next ts fun t => t == .namespaceSeparator || t.isIdentifier := by
  have key : ∀ {ts l q m}, Target ts l q m → Next ts fun t => t == .namespaceSeparator || t.isIdentifier := by
    intro ts l q m h
    cases h with
    | plain h => exact h.next
    | of h => exact h.next.append
  cases h with
  | instead h => exact (key h).append
  | visible h => exact (key h).append
  | rename h => exact (key h).append
  | both h => exact (key h).append

theorem Adaptation.reads (h : Adaptation ts n) (he : Tok .semicolon e) : Rd doc [] alteration ts (e :: rest) (some n) := by
  have has : ∀ {w : Token} {r : List Token}, Tok .kwAs w → Next (w :: r) targetEnd := fun hw =>
    hw.next.mono fun t ht => by rw [eq_of_beq ht]; decide
  have hmem : ∀ {t}, t ∈ visibilities → t ∈ [TT.kwPrivate, .kwPublic, .kwProtected] := fun h => h
  cases h with
  | @instead ts us l q m w ns h hw hn =>
    refine target_reads h (hw.next.mono fun t ht => by rw [eq_of_beq ht]; decide) ?_
    unfold alterationTail
    refine Rd.bind0 (Rd.ignore_no (p := (· == .insteadof)) hw.next.ahead (by decide)) ?_
    refine Rd.bind1 (Rd.ignore_yes hw) ?_
    exact Rd.bind_last (hn.typeRefList ⟨e, _, rfl, he.1, by rw [he.2]; decide⟩) Rd.pure
  | visible h hw hv ht =>
    refine target_reads h (has hw) ?_
    exact as_reads (as := [_]) (bs := []) hw (Rd.oneOf_yes hv (hmem ht)) (.inl ⟨rfl, rfl, he.next⟩)
  | @rename ts l q m w x h hw hx hv =>
    refine target_reads h (has hw) ?_
    refine as_reads (as := []) (bs := [x]) hw (Rd.oneOf_no (p := fun t => !visibilities.contains t) (.inl ⟨x, _, rfl, hx.1, ?_⟩) (by decide))
      (.inr ⟨x, rfl, rfl, hx⟩)
    show (!visibilities.contains x.t) = true
    rw [hv]; rfl
  | both h hw hv ht hx =>
    refine target_reads h (has hw) ?_
    exact as_reads (as := [_]) (bs := [_]) hw (Rd.oneOf_yes hv (hmem ht)) (.inr ⟨_, rfl, rfl, hx⟩)

theorem adaptations_loop {acc : List Node} {cc : Token} (h : Adaptations ts ns) (hc : Tok .closeCurly cc) :
    LoopRd doc .alterations (fun r (as : List Node) => do
      if ← nextOneOf [.closeCurly] then pure (.inr as)
      else do
        let a ← alteration r
        consumeOrFfAfter .semicolon [.closeCurly]
        pure (.inl (as ++ a.toList))) acc ts (cc :: rest) (acc ++ ns) := by
  induction h generalizing acc with
  | none =>
    rw [List.append_nil]
    exact LoopRd.stop (Rd.bind0 (ts := []) (Rd.nextOneOf_tok hc (by decide)) Rd.pure)
  | @more ts us e n ns h he hm ih =>
    have e1 : ts ++ e :: us = (ts ++ [e]) ++ us := by simp
    rw [e1]
    refine LoopRd.step (b' := acc ++ [n]) ?_ ?_
    · refine Rd.bind0 (Rd.nextOneOf_no (p := fun t => t == .namespaceSeparator || t.isIdentifier) ?_ (by decide)) ?_
      · rw [List.append_assoc]; exact h.next.append.ahead
      refine Rd.bind (h.reads he) ?_
      exact Rd.bind1 (ts := []) (Rd.ffAfter_yes he) Rd.pure
    · have := ih (acc := acc ++ [n])
      rwa [List.append_assoc] at this

theorem adapt_loop {acc : List Node} {oc cc : Token} {as : List Node} (h : Names .comma ts ns) (ho : Tok .openCurly oc)
    (ha : Adaptations us as) (hc : Tok .closeCurly cc) :
    LoopRd doc .other (fun r (ts : List Node) => do
      if ← nextOneOf [.semicolon] then pure (.inr (Sum.inl (β := List Node) ts))
      else do
        let t ← nonEmptyTypeRef r
        if ← nextOneOf [.openCurly] then do
          let g ← traitUsageAlterationGroup r (ts ++ [t])
          pure (.inr (.inr [g]))
        else do
          match ← consumeOrIgnore .comma with
          | some _ => pure (.inl (ts ++ [t]))
          | none => pure (.inr (.inl (ts ++ [t])))) acc (ts ++ oc :: (us ++ [cc])) rest
      (.inr [.useTraitAlterationBlock (acc ++ ns) oc as cc]) := by
  induction h generalizing acc with
  | one h =>
    refine LoopRd.stop ?_
    refine Rd.bind0 (Rd.nextOneOf_no (p := fun t => t == .namespaceSeparator || t.isIdentifier) ?_ (by decide)) ?_
    · rw [List.append_assoc]; exact h.next.append.ahead
    refine Rd.bind (h.reads ⟨oc, _, rfl, ho.1, by rw [ho.2]; decide⟩) ?_
    refine Rd.bind0 (Rd.nextOneOf_tok ho (by decide)) ?_
    refine Rd.bind_last ?_ Rd.pure
    unfold traitUsageAlterationGroup
    refine Rd.bind1 (Rd.consume ho) ?_
    refine Rd.bind (Rd.loop (adaptations_loop (acc := []) ha hc)) ?_
    exact Rd.bind1 (ts := []) (Rd.consume hc) Rd.pure
  | @more ts vs k n ns h hk hm ih =>
    have e1 : (ts ++ k :: vs) ++ oc :: (us ++ [cc]) = (ts ++ [k]) ++ (vs ++ oc :: (us ++ [cc])) := by simp
    rw [e1]
    refine LoopRd.step (b' := acc ++ [n]) ?_ ?_
    · refine Rd.bind0 (Rd.nextOneOf_no (p := fun t => t == .namespaceSeparator || t.isIdentifier) ?_ (by decide)) ?_
      · rw [List.append_assoc]; exact h.next.append.ahead
      refine Rd.bind (h.reads ⟨k, _, rfl, hk.1, by rw [hk.2]; decide⟩) ?_
      refine Rd.bind0 (Rd.nextOneOf_no hk.next.ahead (by decide)) ?_
      exact Rd.bind1 (ts := []) (Rd.ignore_yes hk) Rd.pure
    · have := ih (acc := acc ++ [n])
      rwa [List.append_assoc] at this

theorem EntryRd.adaptTraits {oc cc : Token} {as : List Node} (hk : Tok .kwUse k) (h : Names .comma ts ns) (ho : Tok .openCurly oc)
    (ha : Adaptations us as) (hc : Tok .closeCurly cc) :
    EntryRd doc (k :: (ts ++ oc :: (us ++ [cc]))) (.useTraitStatement k [.useTraitAlterationBlock ns oc as cc]) := by
  refine ⟨[], _, rfl, .inl rfl, ⟨k, _, rfl, hk.1, by rw [hk.2]; rfl⟩, fun rest => ?_⟩
  unfold classBlockStatement
  refine Rd.bind0 (Rd.nextOneOf_tok hk (by decide)) ?_
  unfold useTraitStatement
  refine Rd.bind1 (Rd.consume hk) ?_
  refine Rd.bind_last (a := [Node.useTraitAlterationBlock ns oc as cc]) ?_ Rd.pure
  unfold traitUsages
  exact Rd.bind_last (a := Sum.inr [Node.useTraitAlterationBlock ns oc as cc])
    (Rd.loop (adapt_loop (acc := []) h ho ha hc)) Rd.pure

end PhpLs.Syntax
