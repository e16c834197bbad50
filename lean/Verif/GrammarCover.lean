import Verif.CoverRun

/-!
# Places of the nodes the grammar returns

Every function of the grammar returns nodes that lie between the place where it starts and the place where it ends, and whose
nodes cover their children (`Verif/NodeCover.lean`), if the entry points of the recursion do.
-/

namespace PhpLs.Parser

open PhpLs PhpLs.Suggester

set_option linter.unusedVariables false

namespace Sc

variable {c : Sc}

/-- The entry points of the recursion return nodes at their place. -/
structure RCov (c : Sc) (r : Rec) : Prop where
  doc : ∀ k n, r.doc k = some n → Cov c.le n ∧ Vars (varDocs n)
  expression : ∀ b p, c.Runs p (r.expression b) fun q n => c.Ok p q (.node n)
  statement : ∀ p, c.Runs p r.statement fun q n => c.Ok p q (.node n)
  call : ∀ p, c.Runs p r.call fun q n => c.Ok p q (.node n)

theorem RCov.popDoc {r : Rec} (h : RCov c r) {p : Nat} : c.Runs p (popDoc r.doc) fun q o => c.Att q o.toList := by
  intro s hs
  unfold Parser.popDoc
  cases h1 : s.docs with
  | nil => exact ⟨p, Nat.le_refl _, hs, fun _ d hd => nomatch hd⟩
  | cons k l =>
    simp only
    cases h2 : r.doc k with
    | none => trivial
    | some n =>
      refine ⟨p, Nat.le_refl _, hs, fun _ d hd => ?_⟩
      have : d = n := by simpa using hd
      rw [this]
      exact (h.doc _ _ h2).1

theorem drainDocsOn_vars {r : Rec} (h : RCov c r) : ∀ (l : List Token) (s : PSt),
    match drainDocsOn r.doc l s with
    | .ok a s' => Vars a ∧ s'.errors = s.errors ∧ s'.toks = s.toks
    | .err _ _ => False
    | _ => True
  | [], s => ⟨(fun d hd => by cases hd), rfl, rfl⟩
  | k :: l, s => by
    unfold drainDocsOn
    cases h2 : r.doc k with
    | none => trivial
    | some n =>
      simp only
      have ih := drainDocsOn_vars h l s
      generalize drainDocsOn r.doc l s = x at ih ⊢
      cases x with
      | ok a s' =>
        refine ⟨fun d hd => ?_, ih.2⟩
        rcases List.mem_append.1 hd with hd | hd
        · exact (h.doc _ _ h2).2 d hd
        · exact ih.1 d hd
      | err e s' => exact ih
      | panic => trivial
      | diverge x => trivial

theorem RCov.drainDocs {r : Rec} (h : RCov c r) {p : Nat} : c.Runs p (drainDocs r.doc) fun _ l => Vars l := by
  intro s hs
  have := drainDocsOn_vars h s.docs s
  unfold Parser.drainDocs
  generalize drainDocsOn r.doc s.docs s = x at this
  cases x with
  | ok a s' =>
    refine ⟨p, Nat.le_refl _, ?_, this.1⟩
    unfold At
    rw [this.2.1, this.2.2]
    exact hs
  | err e s' => exact this.elim
  | panic => trivial
  | diverge x => trivial

theorem run_errorFastForward {p : Nat} : c.Runs p errorFastForward fun _ _ => True := run_ffBefore

theorem ok_none {p : Nat} : c.Ok p p (.otok none) := fun _ => ⟨Nat.le_refl _, fun k h => by cases h⟩

theorem seq_node_of_oplain_some {a b p q : Nat} {n : Node} {r : List Part} (h : c.Ok a b (.oplain (some n))) (hp : p ≤ a)
    (hr : c.Seq b q r) : c.Seq p q (.node n :: r) := seq_via h (fun h => (h.2 n rfl).1) hp hr

/-! ## Tactics -/

/-- One part of a sequence. -/
macro "seq_step" : tactic => `(tactic| with_reducible first
  | exact seq_nil (by omega)
  | refine seq_no_tok ?_
  | refine seq_no_node ?_
  | refine seq_no_plain ?_
  | refine seq_no_olist ?_
  | refine seq_no_list ?_
  | refine seq_no_plains ?_
  | refine seq_no_vals ?_
  | refine seq_cons (by assumption) (by omega) ?_
  | refine seq_tok_of_some (by assumption) (by omega) ?_
  | refine seq_node_of_plain (by assumption) (by omega) ?_
  | refine seq_onode_of_oplain (by assumption) (by omega) ?_
  | refine seq_list_of_plains (by assumption) (by omega) ?_
  | refine seq_plain_of_some (by assumption) (by omega) ?_
  | refine seq_node_of_some (by assumption) (by omega) ?_
  | refine seq_node_of_oplain_some (by assumption) (by omega) ?_
  | refine seq_some_tok ?_
  | refine seq_some_node ?_
  | refine seq_some_plain ?_
  | refine seq_some_list ?_
  | refine seq_snoc ?_
  | refine seq_one ?_
  | refine seq_plains_snoc ?_
  | refine seq_plains_one ?_
  | refine seq_path_two ?_
  | refine seq_path_snoc ?_
  | refine seq_path_one ?_
  | refine seq_path_opt ?_
  | refine seq_vals_none ?_
  | refine seq_vals_some ?_
  | refine seq_vars (by assumption) ?_)

/-- The parts of a node. -/
macro "seq_flat" : tactic => `(tactic|
  ((first
    | refine seq_flat (fun _ _ _ h => absurd h List.not_mem_nil) ?_
    | refine seq_flat (fun _ hq => (att_mono (by assumption) (by omega)) hq) ?_);
   simp only [Node.parts, List.cons_append, List.nil_append]))

macro "cov_seq" : tactic => `(tactic| repeat' (first | seq_step | seq_flat))

/-- Closes a goal about the place of a result. -/
macro "cov_leaf" : tactic => `(tactic| first
  | with_reducible assumption
  | with_reducible trivial
  | with_reducible exact ok_dead (by assumption)
  | (with_reducible exact att_of_list (by assumption) (by omega))
  | (with_reducible exact att_mono (by assumption) (by omega))
  | ((with_reducible refine ok_of_seq ?_); cov_seq; done)
  | (cov_seq; done)
  | with_reducible exact ok_dead (by omega))

/-- A hypothesis of a lemma about a function with a node as argument. -/
macro "cov_arg" : tactic => `(tactic| with_reducible first
  | exact ok_to (by assumption) (by omega)
  | exact ok_one (by assumption) (by omega)
  | exact ok_plains_one (by assumption) (by omega)
  | exact att_of_list (by assumption) (by omega)
  | exact att_mono (by assumption) (by omega)
  | exact ok_none)

syntax "cov_lem" : tactic
macro_rules | `(tactic| cov_lem) => `(tactic| fail)
macro_rules | `(tactic| cov_lem) => `(tactic| with_reducible assumption)
macro_rules | `(tactic| cov_lem) => `(tactic| with_reducible first
  | exact RCov.expression ‹_› _ _
  | exact RCov.statement ‹_› _
  | exact RCov.call ‹_› _
  | exact RCov.popDoc ‹_›
  | exact RCov.drainDocs ‹_›
  | exact run_consume
  | exact run_nextOneOf
  | exact run_consumeOrIgnore
  | exact run_consumeOneOfOrIgnore
  | exact run_consumeOrFfAfter
  | exact run_consumeIdentifier
  | exact run_peek
  | exact run_next
  | exact run_nextUnwrap
  | exact run_takeIf
  | exact run_nextIs
  | exact run_nextIsMember
  | exact run_consumeEndOfStatement
  | exact run_consumeOrFfBefore
  | exact run_consumeMember
  | exact run_consumeOneOf
  | exact run_lookahead
  | exact run_hereDocBody
  | exact run_pushErr
  | exact run_setCtx
  | exact run_getCtx
  | exact run_errorFastForward)

syntax "cov_auto" : tactic

macro "cov_loop" : tactic => `(tactic| with_reducible first
  | (refine loop_LL ?_ <;> (cov_auto; done))
  | (refine loop_acc (by cov_arg) ?_ <;> (cov_auto; done))
  | (refine loop_NN (by cov_arg) ?_ <;> (cov_auto; done))
  | (refine loop_LO ?_ <;> (cov_auto; done))
  | (refine loop_LN ?_ <;> (cov_auto; done))
  | (refine loop_PP ?_ <;> (cov_auto; done))
  | (refine loop_Pacc (by cov_arg) ?_ <;> (cov_auto; done))
  | (refine loop_VV ?_ <;> (cov_auto; done)))

macro "cov_step" : tactic => `(tactic| first
  | with_reducible intro _
  | ((with_reducible refine Runs.pure ?_); (try simp only [Sum.elim_inl, Sum.elim_inr]); cov_leaf)
  | with_reducible exact Runs.fail
  | with_reducible exact Runs.panic
  | with_reducible refine Runs.ite ?_ ?_
  | ((with_reducible apply Runs.bind); (focus first | cov_lem | cov_loop))
  | ((first
      | with_reducible refine bind_otok ?_ ?_
      | with_reducible refine bind_onode ?_ ?_
      | with_reducible refine bind_olist ?_ ?_); (focus (cov_auto; done)))
  | cov_lem
  | ((with_reducible apply Runs.mono); (focus cov_lem); (intros; cov_leaf))
  | cov_loop
  | ((with_reducible apply Runs.mono); (focus cov_loop); (intros; cov_leaf))
  | ((with_reducible apply Runs.catchErr); (focus first | cov_lem | cov_loop))
  | split)
macro_rules | `(tactic| cov_auto) => `(tactic| repeat' cov_step)


theorem cov_moreByComma {p0 p : Nat} {r : Rec} {item : P Node} {acc : List Node}
    (hitem : ∀ p, c.Runs p item fun q n => c.Ok p q (.node n)) (hacc : c.Ok p0 p (.list acc)) :
    c.Runs p (moreByComma r item acc) fun q l => c.Ok p0 q (.list l) := by
  unfold moreByComma
  refine loop_acc hacc fun q l hq hl => Runs.bind run_consumeOrIgnore fun q1 o h1 ho => ?_
  split
  · exact Runs.bind (hitem _) fun q2 n h2 hn => Runs.pure (by simp only [Sum.elim_inl]; cov_leaf)
  · exact Runs.pure (by simp only [Sum.elim_inr]; cov_leaf)

macro_rules | `(tactic| cov_lem) => `(tactic| with_reducible (refine cov_moreByComma ?_ (by cov_arg); (intro _; cov_lem)))

theorem cov_attribute' {p : Nat} {r : Rec} (hr : RCov c r) : c.Runs p (attribute' r) fun q n => c.Ok p q (.node n) := by
  unfold Parser.attribute'
  cov_auto

macro_rules | `(tactic| cov_lem) => `(tactic| with_reducible exact cov_attribute' ‹_›)

theorem cov_attributesBlock {p : Nat} {r : Rec} (hr : RCov c r) : c.Runs p (attributesBlock r) fun q n => c.Ok p q (.list n) := by
  unfold Parser.attributesBlock
  cov_auto

macro_rules | `(tactic| cov_lem) => `(tactic| with_reducible exact cov_attributesBlock ‹_›)

theorem placed_typeRef {t : TypeRef} : Placed (.typeRef t) := by
  intro m hm
  cases hm with
  | here => exact id
  | down hc _ => exact absurd hc List.not_mem_nil

theorem placed_dataType {q : Option Token} {ts : List Node} (h : ∀ n ∈ ts, Placed n) : Placed (.dataType q ts) := by
  intro m hm
  cases hm with
  | here => exact id
  | down hc hm => exact h _ hc m hm

/-- A name at its place. -/
theorem ok_name {p q : Nat} {l : List Token} {b : Bool} (h : c.Ok p q (.path l)) : c.Ok p q (.plain (.typeRef ⟨l, b⟩)) := by
  refine fun hq => ⟨?_, placed_typeRef⟩
  have : c.Seq p q [.node (.typeRef ⟨l, b⟩)] := by
    seq_flat
    exact seq_of_ok h
  exact ok_of_seq this hq

theorem cov_nonEmptyTypeRef {p : Nat} {r : Rec} : c.Runs p (nonEmptyTypeRef r) fun q n => c.Ok p q (.plain n) := by
  unfold nonEmptyTypeRef
  refine Runs.bind run_consumeOrIgnore fun q1 ns h1 hns => Runs.bind run_consumeIdentifier fun q2 i h2 hi => ?_
  refine Runs.bind (loop_path (p0 := p) (by cov_leaf) fun q l hq hl => ?_) fun q l hq hl => Runs.pure (ok_name hl)
  refine Runs.bind run_consumeOrIgnore fun q3 o h3 ho => ?_
  split
  · exact Runs.bind run_consumeIdentifier fun q4 i h4 hi => Runs.pure (by simp only [Sum.elim_inl]; cov_leaf)
  · exact Runs.pure (by simp only [Sum.elim_inr]; cov_leaf)

macro_rules | `(tactic| cov_lem) => `(tactic| with_reducible exact cov_nonEmptyTypeRef)

theorem cov_typeRefList {p : Nat} {r : Rec} : c.Runs p (typeRefList r) fun q n => c.Ok p q (.list n) := by
  unfold typeRefList
  refine Runs.bind cov_nonEmptyTypeRef fun q t hq ht => ?_
  refine cov_moreByComma (fun p => cov_nonEmptyTypeRef.mono fun q n h1 h2 => ?_) ?_ <;> cov_leaf

macro_rules | `(tactic| cov_lem) => `(tactic| with_reducible exact cov_typeRefList)

theorem cov_typeRef {p : Nat} {r : Rec} : c.Runs p (typeRef r) fun q n => c.Ok p q (.oplain n) := by
  unfold typeRef
  refine Runs.bind run_consumeOrIgnore fun q1 ns h1 hns => ?_
  refine Runs.bind (loop_path (p0 := p) (by cov_leaf) fun q l hq hl => ?_) fun q l hq hl => Runs.pure ?_
  · refine Runs.bind run_takeIf fun q3 o h3 ho => ?_
    split
    · refine Runs.bind run_consumeOrIgnore fun q4 o2 h4 ho2 => ?_
      split
      · exact Runs.pure (by simp only [Sum.elim_inl]; cov_leaf)
      · exact Runs.pure (by simp only [Sum.elim_inr]; cov_leaf)
    · exact Runs.pure (by simp only [Sum.elim_inr]; cov_leaf)
  · split
    · cov_leaf
    · have := ok_name (b := false) hl
      cov_leaf

macro_rules | `(tactic| cov_lem) => `(tactic| with_reducible exact cov_typeRef)

theorem ok_path_shift {p q : Nat} {l : List Token} {k k1 k2 : Token} (h : c.Seq p q [.path (l ++ [k]), .tok k1, .tok k2]) :
    c.Ok p q (.path ((l ++ [k, k1]) ++ [k2])) := by
  have e : (l ++ [k, k1]) ++ [k2] = (l ++ [k]) ++ [k1, k2] := by simp
  rw [e]
  exact ok_of_seq (seq_path_two h)

theorem cov_nonEmptyNamespaceRef {p : Nat} {r : Rec} :
    c.Runs p (nonEmptyNamespaceRef r) fun q x => c.Ok p q (.path (x.1 ++ [x.2])) := by
  unfold nonEmptyNamespaceRef
  refine Runs.bind run_consumeOrIgnore fun q1 ns h1 hns => Runs.bind run_consumeIdentifier fun q2 i h2 hi => ?_
  refine Runs.loop (I := fun q (x : List Token × Token) => c.Ok p q (.path (x.1 ++ [x.2]))) (fun q x hq hx => ?_) _ _ ?_
  · obtain ⟨l, k⟩ := x
    refine Runs.bind run_consumeOrIgnore fun q3 o h3 ho => ?_
    split
    · refine Runs.bind run_takeIf fun q4 o2 h4 ho2 => ?_
      split
      · refine Runs.pure ?_
        simp only [Sum.elim_inl]
        exact ok_path_shift (seq_cons hx (by omega) (by cov_seq))
      · refine Runs.pure ?_
        simp only [Sum.elim_inr]
        exact ok_of_seq (seq_path_snoc (seq_cons hx (by omega) (by cov_seq)))
    · exact Runs.pure (ok_to hx (by omega))
  · cov_leaf

macro_rules | `(tactic| cov_lem) => `(tactic| with_reducible exact cov_nonEmptyNamespaceRef)

theorem cov_moreByOr {p0 p : Nat} {r : Rec} {acc : List Node} (ha : c.Ok p0 p (.plains acc)) :
    c.Runs p (moreByOr r acc) fun q l => c.Ok p0 q (.plains l) := by
  unfold moreByOr
  refine loop_Pacc ha ?_
  cov_auto

macro_rules | `(tactic| cov_lem) => `(tactic| with_reducible exact cov_moreByOr (by cov_arg))

theorem cov_nonEmptyTypeRefUnion {p : Nat} {r : Rec} : c.Runs p (nonEmptyTypeRefUnion r) fun q n => c.Ok p q (.plains n) := by
  unfold nonEmptyTypeRefUnion
  cov_auto

macro_rules | `(tactic| cov_lem) => `(tactic| with_reducible exact cov_nonEmptyTypeRefUnion)

theorem cov_typeRefUnion {p : Nat} {r : Rec} :
    c.Runs p (typeRefUnion r) fun q o => ∀ l, o = some l → c.Ok p q (.plains l) := by
  unfold typeRefUnion
  refine Runs.bind cov_typeRef fun q o hq ho => ?_
  split
  · refine Runs.bind (cov_moreByOr (p0 := p) (by cov_leaf)) fun q' l hq' hl => Runs.pure ?_
    intro m e; cases e; exact hl
  · exact Runs.pure fun _ h => by cases h

theorem ok_dataType {a b p q : Nat} {o : Option Token} {ts : List Node} (h : c.Ok a b (.otok o)) (h2 : c.Ok p q (.plains ts)) (hb : b ≤ p) :
    c.Ok a q (.plain (.dataType o ts)) := by
  intro hq
  refine ⟨?_, placed_dataType (h2 hq).2⟩
  have : c.Ok a q (.node (.dataType o ts)) := by cov_leaf
  exact this hq

theorem cov_dataType {p : Nat} {r : Rec} : c.Runs p (dataType r) fun q n => c.Ok p q (.plain n) := by
  unfold dataType
  exact Runs.bind run_consumeOrIgnore fun q o hq ho => Runs.bind cov_nonEmptyTypeRefUnion fun q2 l h2 hl =>
    Runs.pure (ok_dataType ho hl (Nat.le_refl _))

macro_rules | `(tactic| cov_lem) => `(tactic| with_reducible exact cov_dataType)

theorem pathR_last {a b : Nat} {l : List Token} {k : Token} (h : c.PathR a b (l ++ [k])) :
    c.PathR a (c.st k) l ∧ c.st k ≤ c.en k ∧ c.en k ≤ b := by
  obtain ⟨h1, h2, h3⟩ := h
  have hk : a ≤ c.st k ∧ c.st k ≤ c.en k ∧ c.en k ≤ b := h2 k (by simp)
  refine ⟨⟨by omega, fun m hm => ?_, (List.pairwise_append.1 h3).1⟩, hk.2⟩
  have hm' : a ≤ c.st m ∧ c.st m ≤ c.en m ∧ c.en m ≤ b := h2 m (by simp [hm])
  have : c.en m ≤ c.st k := (List.pairwise_append.1 h3).2.2 m hm k (by simp)
  exact ⟨by omega, by omega, this⟩

theorem ok_aliases {p q : Nat} : ∀ (l : List Token) (n : Node), c.Seq p q [.path l.reverse, .node n] →
    c.Ok p q (.node (l.foldl (fun root link => Node.aliasedVariable link root) n))
  | [], n, h => by
    intro hq
    obtain ⟨a, b, h1, h2, a', b', h3, h4, h5⟩ := h hq
    have := h2.1
    exact NdR.widen h4 (by omega) h5
  | k :: l, n, h => by
    refine ok_aliases l _ fun hq => ?_
    have h := h hq
    rw [List.reverse_cons] at h
    obtain ⟨a, b, h1, h2, a', b', h3, h4, h5⟩ := h
    obtain ⟨g1, g2, g3⟩ := pathR_last h2
    refine ⟨a, c.st k, h1, g1, c.st k, b', Nat.le_refl _, ?_, h5⟩
    have : c.Seq (c.st k) b' [.node (.aliasedVariable k n)] := by
      seq_flat
      exact seq_cons (a := c.st k) (b := c.en k) (fun _ => ⟨Nat.le_refl _, g2, Nat.le_refl _⟩) (Nat.le_refl _)
        (seq_cons (a := a') (b := b') (fun _ => h4) (by omega) (seq_nil (Nat.le_refl _)))
    have h5' : b' ≤ q := h5
    exact ok_of_seq this (by omega)

theorem cov_variable' {p : Nat} {r : Rec} (hr : RCov c r) : c.Runs p (variable' r) fun q n => c.Ok p q (.node n) := by
  unfold variable'
  refine Runs.bind run_consume fun q v hq hv => Runs.ite (fun _ => Runs.pure (by cov_leaf)) fun _ => ?_
  refine Runs.bind run_consumeOrIgnore fun q1 o h1 ho => ?_
  split
  · cov_auto
  · refine Runs.loop (I := fun q (x : Token × List Token) => c.Ok p q (.path (x.1 :: x.2).reverse)) (fun q2 x h2 hx => ?_) _ _ ?_
    · refine Runs.bind run_nextOneOf fun q3 b h3 _ => Runs.ite (fun _ => ?_) fun _ => ?_
      · refine Runs.bind run_consumeOrFfBefore fun q4 v2 h4 hv2 => Runs.ite (fun _ => Runs.pure ?_) fun _ => Runs.pure ?_
        · simp only [Sum.elim_inr]
          exact ok_aliases (x.1 :: x.2) _ (seq_cons hx (Nat.le_refl _) (by cov_seq))
        · simp only [Sum.elim_inl]
          rw [List.reverse_cons]
          exact ok_of_seq (seq_path_snoc (seq_cons hx (Nat.le_refl _) (by cov_seq)))
      · split
        · exact Runs.panic
        · exact Runs.bind run_pushErr fun q4 _ h4 hd => Runs.pure (ok_dead hd)
    · simp only [List.reverse_cons, List.reverse_nil, List.nil_append]
      cov_leaf

macro_rules | `(tactic| cov_lem) => `(tactic| with_reducible exact cov_variable' ‹_›)

theorem cov_globalVariables {p : Nat} {r : Rec} (hr : RCov c r) : c.Runs p (globalVariables r) fun q n => c.Ok p q (.node n) := by
  unfold Parser.globalVariables
  cov_auto

macro_rules | `(tactic| cov_lem) => `(tactic| with_reducible exact cov_globalVariables ‹_›)

theorem cov_staticVariables {p0 p : Nat} {r : Rec} {token : Token} (hr : RCov c r) (ht : c.Ok p0 p (.tok token)) :
    c.Runs p (staticVariables r token) fun q n => c.Ok p0 q (.node n) := by
  unfold staticVariables
  refine Runs.bind (loop_LL fun q l hq hl => ?_) fun q l hq hl => Runs.pure (by cov_leaf)
  refine Runs.bind run_consume fun q1 v h1 hv => ?_
  refine Runs.bind (Q := fun q' l => c.Ok p q' (.list l)) ?_ fun q2 as h2 has => ?_
  · cov_auto
  · cov_auto

macro_rules | `(tactic| cov_lem) => `(tactic| with_reducible exact cov_staticVariables ‹_› (by cov_arg))

macro_rules | `(tactic| cov_lem) => `(tactic| with_reducible exact cov_staticVariables ‹_› (ok_to (ok_some_tok (by assumption)) (by omega)))

theorem cov_constEntry {p : Nat} {r : Rec} (hr : RCov c r) : c.Runs p (constEntry r) fun q n => c.Ok p q (.node n) := by
  unfold Parser.constEntry
  cov_auto

macro_rules | `(tactic| cov_lem) => `(tactic| with_reducible exact cov_constEntry ‹_›)

theorem cov_constStatement {p : Nat} {r : Rec} (hr : RCov c r) : c.Runs p (constStatement r) fun q n => c.Ok p q (.node n) := by
  unfold Parser.constStatement
  cov_auto

macro_rules | `(tactic| cov_lem) => `(tactic| with_reducible exact cov_constStatement ‹_›)

theorem cov_lexicalVariable {p : Nat} : c.Runs p (lexicalVariable) fun q n => c.Ok p q (.node n) := by
  unfold Parser.lexicalVariable
  cov_auto

macro_rules | `(tactic| cov_lem) => `(tactic| with_reducible exact cov_lexicalVariable)

theorem cov_nonEmptyLexicalVariablesList {p : Nat} {r : Rec} (hr : RCov c r) : c.Runs p (nonEmptyLexicalVariablesList r) fun q n => c.Ok p q (.list n) := by
  unfold Parser.nonEmptyLexicalVariablesList
  cov_auto

macro_rules | `(tactic| cov_lem) => `(tactic| with_reducible exact cov_nonEmptyLexicalVariablesList ‹_›)

theorem cov_arrayPair {p : Nat} {r : Rec} (hr : RCov c r) : c.Runs p (arrayPair r) fun q n => c.Ok p q (.node n) := by
  unfold Parser.arrayPair
  cov_auto

macro_rules | `(tactic| cov_lem) => `(tactic| with_reducible exact cov_arrayPair ‹_›)

theorem cov_pairsUntil {p : Nat} {r : Rec} {close : TT} (hr : RCov c r) : c.Runs p (pairsUntil r close) fun q n => c.Ok p q (.list n) := by
  unfold pairsUntil
  cov_auto

macro_rules | `(tactic| cov_lem) => `(tactic| with_reducible exact cov_pairsUntil ‹_›)

theorem cov_array {p : Nat} {r : Rec} (hr : RCov c r) : c.Runs p (array r) fun q n => c.Ok p q (.node n) := by
  unfold Parser.array
  cov_auto

macro_rules | `(tactic| cov_lem) => `(tactic| with_reducible exact cov_array ‹_›)

theorem cov_oldArray {p : Nat} {r : Rec} (hr : RCov c r) : c.Runs p (oldArray r) fun q n => c.Ok p q (.node n) := by
  unfold Parser.oldArray
  cov_auto

macro_rules | `(tactic| cov_lem) => `(tactic| with_reducible exact cov_oldArray ‹_›)

theorem cov_list {p : Nat} {r : Rec} (hr : RCov c r) : c.Runs p (list r) fun q n => c.Ok p q (.node n) := by
  unfold Parser.list
  cov_auto

macro_rules | `(tactic| cov_lem) => `(tactic| with_reducible exact cov_list ‹_›)

theorem cov_statementInto {p0 p : Nat} {r : Rec} {stmts : List Node} (hr : RCov c r) (hs : c.Ok p0 p (.list stmts)) :
    c.Runs p (statementInto r stmts) fun q l => c.Ok p0 q (.list l) := by
  unfold statementInto
  refine Runs.catchErr (hr.statement _) (fun q n hq hn => ?_) (fun q e hq => ?_)
  · exact Runs.bind hr.drainDocs fun q1 ds h1 hds => Runs.pure (by cov_leaf)
  · exact Runs.bind run_pushErr fun q1 _ h1 hd => Runs.bind run_errorFastForward fun q2 _ h2 _ => Runs.pure (by cov_leaf)

macro_rules | `(tactic| cov_lem) => `(tactic| with_reducible exact cov_statementInto ‹_› (by cov_arg))

theorem cov_statementsUntil {p : Nat} {r : Rec} {site : Site} {stop : List TT} (hr : RCov c r) :
    c.Runs p (statementsUntil r site stop) fun q n => c.Ok p q (.list n) := by
  unfold statementsUntil
  cov_auto

macro_rules | `(tactic| cov_lem) => `(tactic| with_reducible exact cov_statementsUntil ‹_›)

theorem cov_block {p : Nat} {r : Rec} (hr : RCov c r) : c.Runs p (block r) fun q n => c.Ok p q (.node n) := by
  unfold Parser.block
  cov_auto

macro_rules | `(tactic| cov_lem) => `(tactic| with_reducible exact cov_block ‹_›)

theorem cov_alternativeBlock {p : Nat} {r : Rec} {terminator : TT} (hr : RCov c r) :
    c.Runs p (alternativeBlock r terminator) fun q n => c.Ok p q (.node n) := by
  unfold Parser.alternativeBlock
  cov_auto

macro_rules | `(tactic| cov_lem) => `(tactic| with_reducible exact cov_alternativeBlock ‹_›)

theorem cov_alternativeBlockOrStatement {p : Nat} {r : Rec} {terminator : TT} (hr : RCov c r) :
    c.Runs p (alternativeBlockOrStatement r terminator) fun q n => c.Ok p q (.node n) := by
  unfold Parser.alternativeBlockOrStatement
  cov_auto

macro_rules | `(tactic| cov_lem) => `(tactic| with_reducible exact cov_alternativeBlockOrStatement ‹_›)

theorem cov_argumentType {p : Nat} {r : Rec} : c.Runs p (argumentType r) fun q n => c.Ok p q (.onode n) := by
  unfold argumentType
  refine Runs.bind run_consumeOrIgnore fun q1 o h1 ho => ?_
  split
  · exact Runs.bind cov_nonEmptyTypeRefUnion fun q2 l h2 hl => Runs.pure (by
      have := ok_dataType ho hl (Nat.le_refl _)
      cov_leaf)
  · refine Runs.bind cov_typeRefUnion fun q2 o2 h2 ho2 => ?_
    split
    · have := ok_dataType ho (ho2 _ rfl) (Nat.le_refl _)
      exact Runs.pure (by cov_leaf)
    · exact Runs.pure (by cov_leaf)

macro_rules | `(tactic| cov_lem) => `(tactic| with_reducible exact cov_argumentType)

theorem cov_argument {p : Nat} {r : Rec} {doc : Option Node} (hr : RCov c r) :
    c.Runs p (argument r doc) fun q n => c.Ok p q (.node n) := by
  unfold Parser.argument
  cov_auto

macro_rules | `(tactic| cov_lem) => `(tactic| with_reducible exact cov_argument ‹_›)

theorem cov_argumentList {p : Nat} {r : Rec} {doc : Option Node} (hr : RCov c r) :
    c.Runs p (argumentList r doc) fun q n => c.Ok p q (.olist n) := by
  unfold Parser.argumentList
  cov_auto

macro_rules | `(tactic| cov_lem) => `(tactic| with_reducible exact cov_argumentList ‹_›)

theorem cov_returnType {p : Nat} {r : Rec} (hr : RCov c r) : c.Runs p (returnType r) fun q n => c.Ok p q (.onode n) := by
  unfold Parser.returnType
  cov_auto

macro_rules | `(tactic| cov_lem) => `(tactic| with_reducible exact cov_returnType ‹_›)

theorem cov_anonymousFunctionStatement {p : Nat} {r : Rec} {doc : Option Node} (hr : RCov c r) :
    c.Runs p (anonymousFunctionStatement r doc) fun q n => c.Ok p q (.node n) := by
  unfold Parser.anonymousFunctionStatement
  cov_auto

macro_rules | `(tactic| cov_lem) => `(tactic| with_reducible exact cov_anonymousFunctionStatement ‹_›)

theorem cov_namedFunction {p : Nat} {r : Rec} {doc : Option Node} {attributes : List Node} (hr : RCov c r) (ha : c.Att p attributes) :
    c.Runs p (namedFunction r doc attributes) fun q n => c.Ok p q (.node n) := by
  unfold namedFunction
  cov_auto

macro_rules | `(tactic| cov_lem) => `(tactic| with_reducible exact cov_namedFunction ‹_› (by cov_arg))

theorem cov_arrowFunction {p0 p : Nat} {r : Rec} {isStatic : Option Token} {attributes : List Node} (hr : RCov c r)
    (hs : c.Ok p0 p (.otok isStatic)) : c.Runs p (arrowFunction r isStatic attributes) fun q n => c.Ok p0 q (.node n) := by
  unfold arrowFunction
  cov_auto

macro_rules | `(tactic| cov_lem) => `(tactic| with_reducible exact cov_arrowFunction ‹_› (by cov_arg))

theorem cov_anonymousFunction {p0 p : Nat} {r : Rec} {isStatic : Option Token} {attributes : List Node} (hr : RCov c r)
    (hs : c.Ok p0 p (.otok isStatic)) : c.Runs p (anonymousFunction r isStatic attributes) fun q n => c.Ok p0 q (.node n) := by
  unfold anonymousFunction
  cov_auto

macro_rules | `(tactic| cov_lem) => `(tactic| with_reducible exact cov_anonymousFunction ‹_› (by cov_arg))

theorem cov_parametersUntil {p0 p : Nat} {r : Rec} {acc : List Node} (hr : RCov c r) (hacc : c.Ok p0 p (.list acc)) :
    c.Runs p (parametersUntil r acc) fun q l => c.Ok p0 q (.list l) := by
  unfold parametersUntil
  cov_auto

macro_rules | `(tactic| cov_lem) => `(tactic| with_reducible exact cov_parametersUntil ‹_› (by cov_arg))

theorem cov_nonEmptyParameterList {p : Nat} {r : Rec} (hr : RCov c r) : c.Runs p (nonEmptyParameterList r) fun q n => c.Ok p q (.list n) := by
  unfold Parser.nonEmptyParameterList
  cov_auto

macro_rules | `(tactic| cov_lem) => `(tactic| with_reducible exact cov_nonEmptyParameterList ‹_›)

theorem cov_parameterList {p : Nat} {r : Rec} (hr : RCov c r) : c.Runs p (parameterList r) fun q l => c.Ok p q (.list l) := by
  unfold parameterList
  exact cov_parametersUntil hr (by cov_leaf)

macro_rules | `(tactic| cov_lem) => `(tactic| with_reducible exact cov_parameterList ‹_›)

theorem cov_returnStatement {p : Nat} {r : Rec} (hr : RCov c r) : c.Runs p (returnStatement r) fun q n => c.Ok p q (.node n) := by
  unfold Parser.returnStatement
  cov_auto

macro_rules | `(tactic| cov_lem) => `(tactic| with_reducible exact cov_returnStatement ‹_›)

theorem cov_identifierList {p : Nat} {r : Rec} : c.Runs p (identifierList r) fun q l => c.Ok p q (.list l) := by
  unfold identifierList
  cov_auto

macro_rules | `(tactic| cov_lem) => `(tactic| with_reducible exact cov_identifierList)

theorem cov_alteration {p : Nat} {r : Rec} : c.Runs p (alteration r) fun _ _ => True := by
  unfold alteration
  refine Runs.bind cov_nonEmptyTypeRef fun q1 n h1 hn => ?_
  refine Runs.bind (Q := fun _ _ => True) ?_ fun q2 x h2 _ => ?_
  · cov_auto
  · obtain ⟨x1, x2, x3⟩ := x
    refine Runs.bind run_consumeOrIgnore fun q3 o h3 ho => ?_
    split
    · refine Runs.bind run_consumeOneOfOrIgnore fun q4 o h4 ho => Runs.bind run_nextOneOf fun q5 b h5 _ => ?_
      refine Runs.ite (fun _ => Runs.pure trivial) fun _ => Runs.bind run_consumeIdentifier fun _ _ _ _ => Runs.pure trivial
    · refine Runs.bind run_consumeOrIgnore fun q4 o h4 ho => ?_
      split
      · exact Runs.bind cov_typeRefList fun _ _ _ _ => Runs.pure trivial
      · exact Runs.pure trivial

theorem cov_traitUsageAlterationGroup {p : Nat} {r : Rec} {ts : List Node} :
    c.Runs p (traitUsageAlterationGroup r ts) fun q n => c.Ok p q (.node n) := by
  unfold traitUsageAlterationGroup
  refine Runs.bind run_consume fun q1 oc h1 hoc => ?_
  refine Runs.bind (Runs.loop (I := fun _ _ => True) (Q := fun _ _ => True) (fun q l hq _ => ?_) _ _ trivial) fun q2 as h2 _ => ?_
  · refine Runs.bind run_nextOneOf fun q3 b h3 _ => Runs.ite (fun _ => Runs.pure trivial) fun _ => ?_
    exact Runs.bind cov_alteration fun _ _ _ _ => Runs.bind run_consumeOrFfAfter fun _ _ _ _ => Runs.pure trivial
  · exact Runs.bind run_consume fun q3 cc h3 hcc => Runs.pure (by cov_leaf)

theorem seq_useTraits {p q : Nat} {l : List Node} (h : c.Ok p q (.plains l)) : c.Ok p q (.list (l.map Node.useTrait)) := by
  intro hq
  obtain ⟨⟨h1, h2, h3⟩, h4⟩ := h hq
  have key : ∀ {a b : Nat} {n : Node}, c.NdR a b n → Placed n → c.NdR a b (.useTrait n) := by
    intro a b n hn hp
    have : c.Seq a b [.node (.useTrait n)] := by
      seq_flat
      exact seq_cons (a := a) (b := b) (fun _ => ⟨hn, hp⟩) (Nat.le_refl _) (seq_nil (Nat.le_refl _))
    exact nodeR_of_seq (n := .useTrait n) ⟨a, b, Nat.le_refl _, ⟨hn, hp⟩, Nat.le_refl _⟩ (fun d hd => absurd hd List.not_mem_nil)
  refine ⟨h1, fun m hm => ?_, ?_⟩
  · obtain ⟨n, hn, rfl⟩ := List.mem_map.1 hm
    exact key (h2 n hn) (h4 n hn)
  · refine List.pairwise_map.2 (h3.imp_of_mem fun {a b} ha hb hab => ?_)
    intro _ _ r r' e1 e2
    exact hab (h4 a ha) (h4 b hb) r r' e1 e2

theorem cov_traitUsages {p : Nat} {r : Rec} : c.Runs p (traitUsages r) fun q l => c.Ok p q (.list l) := by
  unfold traitUsages
  refine Runs.bind (Q := fun q res => Sum.elim (fun l => c.Ok p q (.plains l)) (fun l => c.Ok p q (.list l)) res)
    (Runs.loop (I := fun q l => c.Ok p q (.plains l)) (fun q l hq hl => ?_) _ _ (by cov_leaf)) fun q res hq hres => ?_
  · refine Runs.bind run_nextOneOf fun q1 b h1 _ => Runs.ite (fun _ => Runs.pure (by simp only [Sum.elim_inl, Sum.elim_inr]; cov_leaf)) fun _ => ?_
    refine Runs.bind cov_nonEmptyTypeRef fun q2 t h2 ht => Runs.bind run_nextOneOf fun q3 b h3 _ => Runs.ite (fun _ => ?_) fun _ => ?_
    · exact Runs.bind cov_traitUsageAlterationGroup fun q4 g h4 hg => Runs.pure (by simp only [Sum.elim_inr]; cov_leaf)
    · refine Runs.bind run_consumeOrIgnore fun q4 o h4 ho => ?_
      split
      · exact Runs.pure (by simp only [Sum.elim_inl]; cov_leaf)
      · exact Runs.pure (by simp only [Sum.elim_inl, Sum.elim_inr]; cov_leaf)
  · split
    · exact Runs.pure hres
    · exact Runs.bind run_consumeOrFfAfter fun q1 _ h1 _ => Runs.pure (seq_useTraits (ok_to hres h1))

macro_rules | `(tactic| cov_lem) => `(tactic| with_reducible exact cov_traitUsages)

theorem cov_useTraitStatement {p : Nat} {r : Rec} : c.Runs p (useTraitStatement r) fun q l => c.Ok p q (.node l) := by
  unfold useTraitStatement
  cov_auto

macro_rules | `(tactic| cov_lem) => `(tactic| with_reducible exact cov_useTraitStatement)

theorem cov_modifiers {p : Nat} {r : Rec} :
    c.Runs p (modifiers r) fun q m => c.Seq p q [.otok m.1, .otok m.2.1, .otok m.2.2.1] := by
  unfold modifiers
  refine Runs.loop (I := fun q (m : Modifiers) => c.Seq p q [.otok m.1, .otok m.2.1, .otok m.2.2.1]) (fun q m hq hm => ?_) _ _ (by cov_seq)
  refine Runs.bind run_nextOneOf fun q1 b h1 _ => Runs.ite (fun _ => ?_) fun _ => ?_
  · refine Runs.bind run_consumeOrIgnore fun q2 a h2 ha => Runs.bind run_consumeOrIgnore fun q3 f h3 hf => ?_
    refine Runs.bind run_consumeOneOfOrIgnore fun q4 v h4 hv => Runs.bind run_consumeOrIgnore fun q5 st h5 hst => Runs.pure ?_
    simp only [Sum.elim_inl]
    cov_seq
  · refine Runs.pure ?_
    simp only [Sum.elim_inr]
    intro hb
    obtain ⟨a1, b1, g1, g2, a2, b2, g3, g4, a3, b3, g5, g6, g7⟩ := hm (by omega)
    have g7' : b3 ≤ q := g7
    exact ⟨a1, b1, g1, g2, a2, b2, g3, g4, a3, b3, g5, g6, (by omega : b3 ≤ q1)⟩

theorem cov_classConsts {p : Nat} {r : Rec} {visibility : Option Token} (hr : RCov c r) :
    c.Runs p (classConsts r visibility) fun q l => c.Ok p q (.list l) := by
  unfold classConsts
  cov_auto

macro_rules | `(tactic| cov_lem) => `(tactic| with_reducible exact cov_classConsts ‹_›)

theorem cov_classProps {p : Nat} {r : Rec} (hr : RCov c r) : c.Runs p (classProps r) fun q n => c.Ok p q (.list n) := by
  unfold Parser.classProps
  cov_auto

macro_rules | `(tactic| cov_lem) => `(tactic| with_reducible exact cov_classProps ‹_›)

theorem cov_classMember {p : Nat} {r : Rec} {doc : Option Node} {attributes : List Node} (hr : RCov c r) (ha : c.Att p attributes) :
    c.Runs p (classMember r doc attributes) fun q n => c.Ok p q (.node n) := by
  unfold classMember
  refine Runs.bind cov_modifiers fun q m hq hm => ?_
  obtain ⟨ab, fi, vi, st⟩ := m
  simp only
  refine Runs.bind run_consumeOrIgnore fun q1 o h1 ho => ?_
  split
  · cov_auto
  · refine Runs.bind run_consumeOrIgnore fun q2 o h2 ho2 => ?_
    split
    · rename_i token
      refine Runs.bind run_consumeOrIgnore fun q3 br h3 hbr => Runs.bind run_consumeIdentifier fun q4 name h4 hname => ?_
      refine Runs.bind (cov_anonymousFunctionStatement hr) fun q5 f h5 hf => Runs.pure (ok_of_seq ?_)
      seq_flat
      have rest : c.Seq q q5 [.tok token, .otok br, .tok name, .node f] := by cov_seq
      intro hb
      have hr := rest hb
      obtain ⟨a1, b1, g1, g2, a2, b2, g3, g4, a3, b3, g5, g6, g7⟩ := hm (by omega)
      have g7' : b3 ≤ q := g7
      exact ⟨a1, b1, g1, g2, a2, b2, g3, g4, a3, b3, g5, g6, seqR_start hr g7'⟩
    · cov_auto

macro_rules | `(tactic| cov_lem) => `(tactic| with_reducible exact cov_classMember ‹_› (by cov_arg))

end Sc
end PhpLs.Parser
