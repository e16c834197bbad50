import Verif.GrammarCover3

/-!
# Places of the nodes the grammar returns, imports and the recursion

Imports, the alternative form of `if`, the choice between the statements, and the recursion of the parser.
-/

namespace PhpLs.Parser

open PhpLs PhpLs.Suggester

set_option linter.unusedVariables false

namespace Sc

variable {c : Sc}

/-! ## Imports -/

theorem hi_useDeclaration {q q' : Nat} {t : Option Token} {d : Node} {al a : Option Token} {x : NodeRange}
    (h : c.SeqR q q' [.plain d, .otok al, .otok a]) (hx : (Node.useDeclaration t d al a).range = some x) : q ≤ c.hi x := by
  obtain ⟨a1, b1, g1, ⟨g2, g3⟩, a2, b2, g4, ⟨g5, g6⟩, a3, b3, g7, ⟨g8, g9⟩, g10⟩ := h
  have g2' : ∀ x, d.range = some x → a1 ≤ c.lo x ∧ c.lo x ≤ c.hi x ∧ c.hi x ≤ b1 := fun x hx => g2.2.2.1 g3 x hx
  have g10' : b3 ≤ q' := g10
  have g11 := g2.1
  cases a with
  | none =>
    simp only [Node.range, Option.bind_eq_bind, Option.pure_def] at hx
    cases t <;> simp only [Option.bind_eq_some_iff] at hx <;> grind
  | some k =>
    have g9' : a3 ≤ c.st k ∧ c.st k ≤ c.en k ∧ c.en k ≤ b3 := g9 k rfl
    simp only [Node.range, Option.bind_eq_bind, Option.pure_def] at hx
    cases t <;> simp only [Option.bind_eq_some_iff] at hx <;> grind

theorem hi_useFunction {q q' : Nat} {t : Option Token} {d : Node} {al a : Option Token} {x : NodeRange}
    (h : c.SeqR q q' [.plain d, .otok al, .otok a]) (hx : (Node.useFunction t d al a).range = some x) : q ≤ c.hi x := by
  obtain ⟨a1, b1, g1, ⟨g2, g3⟩, a2, b2, g4, ⟨g5, g6⟩, a3, b3, g7, ⟨g8, g9⟩, g10⟩ := h
  have g2' : ∀ x, d.range = some x → a1 ≤ c.lo x ∧ c.lo x ≤ c.hi x ∧ c.hi x ≤ b1 := fun x hx => g2.2.2.1 g3 x hx
  have g10' : b3 ≤ q' := g10
  have g11 := g2.1
  cases a with
  | none =>
    simp only [Node.range, Option.bind_eq_bind, Option.pure_def] at hx
    cases t <;> simp only [Option.bind_eq_some_iff] at hx <;> grind
  | some k =>
    have g9' : a3 ≤ c.st k ∧ c.st k ≤ c.en k ∧ c.en k ≤ b3 := g9 k rfl
    simp only [Node.range, Option.bind_eq_bind, Option.pure_def] at hx
    cases t <;> simp only [Option.bind_eq_some_iff] at hx <;> grind

theorem hi_useConst {q q' : Nat} {t : Option Token} {d : Node} {al a : Option Token} {x : NodeRange}
    (h : c.SeqR q q' [.plain d, .otok al, .otok a]) (hx : (Node.useConst t d al a).range = some x) : q ≤ c.hi x := by
  obtain ⟨a1, b1, g1, ⟨g2, g3⟩, a2, b2, g4, ⟨g5, g6⟩, a3, b3, g7, ⟨g8, g9⟩, g10⟩ := h
  have g2' : ∀ x, d.range = some x → a1 ≤ c.lo x ∧ c.lo x ≤ c.hi x ∧ c.hi x ≤ b1 := fun x hx => g2.2.2.1 g3 x hx
  have g10' : b3 ≤ q' := g10
  have g11 := g2.1
  cases a with
  | none =>
    simp only [Node.range, Option.bind_eq_bind, Option.pure_def] at hx
    cases t <;> simp only [Option.bind_eq_some_iff] at hx <;> grind
  | some k =>
    have g9' : a3 ≤ c.st k ∧ c.st k ≤ c.en k ∧ c.en k ≤ b3 := g9 k rfl
    simp only [Node.range, Option.bind_eq_bind, Option.pure_def] at hx
    cases t <;> simp only [Option.bind_eq_some_iff] at hx <;> grind

theorem over_snoc {a b b' : Nat} {l : List Node} {n : Node} (h : c.OverR a b l) (hn : c.NdR a b' n) (hb : b ≤ b')
    (hh : ∀ x, n.range = some x → b ≤ c.hi x) : c.OverR a b' (l ++ [n]) := by
  refine ⟨hn.1, fun m hm => ?_, ?_⟩
  · rcases List.mem_append.1 hm with hm | hm
    · exact (h.2.1 m hm).widen (Nat.le_refl _) hb
    · cases List.mem_singleton.1 hm; exact hn
  · refine List.pairwise_append.2 ⟨h.2.2, List.pairwise_singleton _ _, fun x hx y hy => ?_⟩
    cases List.mem_singleton.1 hy
    intro p1 p2 r r' e1 e2
    have := (h.2.1 x hx).2.2.1 p1 r e1
    have := hh r' e2
    omega

/-- The imports after a token, the next of which is parsed from `q` to `q'`. -/
theorem ok_over_snoc {p0 p q0 q q' : Nat} {token : Token} {l : List Node} {n : Node} (ht : c.Ok p0 p (.tok token)) (hpq : p ≤ q0)
    (hl : c.Ok p0 q0 (.over token l)) (hq : q0 ≤ q) (hqq : q ≤ q') (hn : q' < c.bound → c.TkR (c.st token) q0 token →
      c.NdR (c.st token) q' n ∧ ∀ x, n.range = some x → q0 ≤ c.hi x) : c.Ok p0 q' (.over token (l ++ [n])) := by
  intro hb
  obtain ⟨h1, h2⟩ := hl (by omega)
  have htk : p0 ≤ c.st token ∧ c.st token ≤ c.en token ∧ c.en token ≤ p := ht (by omega)
  obtain ⟨g1, g2⟩ := hn hb ⟨Nat.le_refl _, by omega, by omega⟩
  exact ⟨h1, over_snoc h2 g1 (by omega) g2⟩

theorem ok_over_nil {p0 p : Nat} {token : Token} (ht : c.Ok p0 p (.tok token)) : c.Ok p0 p (.over token []) := by
  intro hb
  have htk : p0 ≤ c.st token ∧ c.st token ≤ c.en token ∧ c.en token ≤ p := ht hb
  exact ⟨htk.1, by omega, fun n hn => (by cases hn), List.Pairwise.nil⟩

theorem seqR_end : ∀ {l : List Part} {p q q' : Nat}, c.SeqR p q l → q ≤ q' → c.SeqR p q' l
  | [], _, _, _, h, hq => Nat.le_trans h hq
  | i :: r, p, q, q', ⟨a, b, h1, h2, h3⟩, hq => ⟨a, b, h1, h2, seqR_end h3 hq⟩

/-- A name and its alias, as parsed. -/
theorem alias_seq {p q q1 : Nat} {n : Node} {x : Option Token × Option Token} (hn : c.Ok p q (.plain n))
    (hx : c.Seq q q1 [.otok x.1, .otok x.2]) : c.Seq p q1 [.plain n, .otok x.1, .otok x.2] :=
  seq_cons hn (Nat.le_refl _) hx

theorem cov_useFunctionStatement {p0 p : Nat} {r : Rec} {token : Token} (ht : c.Ok p0 p (.tok token)) :
    c.Runs p (useFunctionStatement r token) fun q n => c.Ok p0 q (.node n) := by
  unfold useFunctionStatement
  have key : ∀ {q0 q2 q3 : Nat} {l : List Node} {n : Node} {x : Option Token × Option Token}, p ≤ q0 → c.Ok p0 q0 (.over token l) →
      c.Seq q0 q2 [.plain n, .otok x.1, .otok x.2] → q0 ≤ q2 → q2 ≤ q3 → c.Ok p0 q3 (.over token (l ++ [.useFunction (some token) n x.1 x.2])) := by
    intro q0 q2 q3 l n x hq hl hs h2 h3
    refine ok_over_snoc ht hq hl (Nat.le_refl _) (Nat.le_trans h2 h3) fun hb htk => ?_
    have hs' := seqR_end (hs (by omega)) h3
    refine ⟨part_useFunction ⟨c.st token, q0, Nat.le_refl _, ⟨by have := tkR_le htk; omega, fun k e => by cases e; exact htk⟩, hs'⟩, fun y hy => ?_⟩
    exact hi_useFunction hs' hy
  refine Runs.bind (Runs.loop (I := fun q l => c.Ok p0 q (.over token l)) (Q := fun q l => c.Ok p0 q (.over token l)) (fun q l hq hl => ?_) _ _
    (ok_over_nil ht)) fun q l hq hl => ?_
  · refine Runs.bind cov_nonEmptyTypeRef fun q1 n h1 hn => Runs.bind cov_importAlias fun q2 x h2 hx => ?_
    have hs := alias_seq hn hx
    refine Runs.bind run_consumeOrIgnore fun q3 o h3 _ => ?_
    split
    · exact Runs.pure (key hq hl hs (by omega) h3)
    · exact Runs.pure (key hq hl hs (by omega) h3)
  · exact Runs.bind run_consumeOrFfAfter fun q1 _ h1 _ => Runs.pure (ok_of_seq (by
      seq_flat
      cov_seq))

theorem cov_useConstStatement {p0 p : Nat} {r : Rec} {token : Token} (ht : c.Ok p0 p (.tok token)) :
    c.Runs p (useConstStatement r token) fun q n => c.Ok p0 q (.node n) := by
  unfold useConstStatement
  have key : ∀ {q0 q2 q3 : Nat} {l : List Node} {n : Node} {x : Option Token × Option Token}, p ≤ q0 → c.Ok p0 q0 (.over token l) →
      c.Seq q0 q2 [.plain n, .otok x.1, .otok x.2] → q0 ≤ q2 → q2 ≤ q3 → c.Ok p0 q3 (.over token (l ++ [.useConst (some token) n x.1 x.2])) := by
    intro q0 q2 q3 l n x hq hl hs h2 h3
    refine ok_over_snoc ht hq hl (Nat.le_refl _) (Nat.le_trans h2 h3) fun hb htk => ?_
    have hs' := seqR_end (hs (by omega)) h3
    refine ⟨part_useConst ⟨c.st token, q0, Nat.le_refl _, ⟨by have := tkR_le htk; omega, fun k e => by cases e; exact htk⟩, hs'⟩, fun y hy => ?_⟩
    exact hi_useConst hs' hy
  refine Runs.bind (Runs.loop (I := fun q l => c.Ok p0 q (.over token l)) (Q := fun q l => c.Ok p0 q (.over token l)) (fun q l hq hl => ?_) _ _
    (ok_over_nil ht)) fun q l hq hl => ?_
  · refine Runs.bind cov_nonEmptyTypeRef fun q1 n h1 hn => Runs.bind cov_importAlias fun q2 x h2 hx => ?_
    have hs := alias_seq hn hx
    refine Runs.bind run_consumeOrIgnore fun q3 o h3 _ => ?_
    split
    · exact Runs.pure (key hq hl hs (by omega) h3)
    · exact Runs.pure (key hq hl hs (by omega) h3)
  · exact Runs.bind run_consumeOrFfAfter fun q1 _ h1 _ => Runs.pure (ok_of_seq (by
      seq_flat
      cov_seq))

theorem cov_symbolImport {p : Nat} {r : Rec} : c.Runs p (symbolImport r) fun _ _ => True := by
  unfold symbolImport
  refine Runs.bind run_consumeOrIgnore fun _ _ _ _ => ?_
  split
  · exact Runs.bind cov_nonEmptyTypeRef fun _ _ _ _ => Runs.bind cov_importAlias fun _ _ _ _ => Runs.pure trivial
  · refine Runs.bind run_consumeOrIgnore fun _ _ _ _ => ?_
    split
    · exact Runs.bind cov_nonEmptyTypeRef fun _ _ _ _ => Runs.bind cov_importAlias fun _ _ _ _ => Runs.pure trivial
    · exact Runs.bind cov_nonEmptyTypeRef fun _ _ _ _ => Runs.bind cov_importAlias fun _ _ _ _ => Runs.pure trivial

theorem cov_symbolImports {p : Nat} {r : Rec} : c.Runs p (symbolImports r) fun _ _ => True := by
  unfold symbolImports
  refine Runs.bind cov_symbolImport fun _ _ _ _ => Runs.loop (I := fun _ _ => True) (fun _ _ _ _ => ?_) _ _ trivial
  refine Runs.bind run_consumeOrIgnore fun _ _ _ _ => ?_
  split
  · refine Runs.bind run_nextOneOf fun _ _ _ _ => Runs.ite (fun _ => ?_) fun _ => Runs.pure trivial
    exact Runs.bind cov_symbolImport fun _ _ _ _ => Runs.pure trivial
  · exact Runs.pure trivial

theorem cov_useImport {p : Nat} {r : Rec} {token : Token} :
    c.Runs p (useImport r token) fun q n => q < c.bound → c.TkR (c.st token) p token →
      c.NdR (c.st token) q n ∧ ∀ x, n.range = some x → p ≤ c.hi x := by
  unfold useImport
  refine Runs.bind cov_nonEmptyNamespaceRef fun q x hq hx => ?_
  obtain ⟨i, l⟩ := x
  simp only at hx ⊢
  have hn := ok_name (b := false) hx
  refine Runs.ite (fun _ => ?_) fun _ => ?_
  · refine Runs.bind run_consume fun q1 oc h1 hoc => Runs.bind cov_symbolImports fun q2 us h2 _ => ?_
    refine Runs.bind run_consume fun q3 cc h3 hcc => Runs.pure fun hb htk => ?_
    have hs : c.Seq p q3 [.plain (.typeRef ⟨i ++ [l], false⟩), .tok oc, .tok cc] := by cov_seq
    refine ⟨part_groupedUse ⟨c.st token, p, Nat.le_refl _, htk, hs hb⟩, fun y hy => ?_⟩
    have hc : q2 ≤ c.st cc ∧ c.st cc ≤ c.en cc ∧ c.en cc ≤ q3 := hcc hb
    have := range_TT (c := c) hy
    omega
  · refine Runs.bind cov_importAlias fun q1 x h1 hx2 => Runs.pure fun hb htk => ?_
    have hs := alias_seq hn hx2 hb
    refine ⟨part_useDeclaration ⟨c.st token, p, Nat.le_refl _, ⟨by have := tkR_le htk; omega, fun k e => by cases e; exact htk⟩, hs⟩, fun y hy => ?_⟩
    exact hi_useDeclaration hs hy

theorem cov_useStatement {p0 p : Nat} {r : Rec} {token : Token} (ht : c.Ok p0 p (.tok token)) :
    c.Runs p (useStatement r token) fun q n => c.Ok p0 q (.node n) := by
  unfold useStatement
  refine Runs.bind (Runs.loop (I := fun q l => c.Ok p0 q (.over token l)) (Q := fun q l => c.Ok p0 q (.over token l)) (fun q l hq hl => ?_) _ _
    (ok_over_nil ht)) fun q l hq hl => Runs.pure (ok_of_seq (by
      seq_flat
      cov_seq))
  refine Runs.bind cov_useImport fun q1 n h1 hn => Runs.bind run_consumeOrIgnore fun q2 o h2 _ => ?_
  have key : ∀ q3, q2 ≤ q3 → c.Ok p0 q3 (.over token (l ++ [n])) := fun q3 h3 =>
    ok_over_snoc ht hq hl (Nat.le_refl _) (by omega) fun hb htk => by
      obtain ⟨g1, g2⟩ := hn (by omega) htk
      exact ⟨g1.widen (Nat.le_refl _) (by omega), g2⟩
  split
  · exact Runs.pure (key q2 (Nat.le_refl _))
  · exact Runs.bind run_consumeOrFfAfter fun q3 _ h3 _ => Runs.pure (key q3 h3)

theorem cov_useCase {p : Nat} {r : Rec} : c.Runs p (useCase r) fun q n => c.Ok p q (.node n) := by
  unfold useCase
  refine Runs.bind run_consume fun q t hq ht => Runs.bind run_consumeOrIgnore fun q1 o h1 _ => ?_
  split
  · exact cov_useFunctionStatement (ok_to ht h1)
  · refine Runs.bind run_consumeOrIgnore fun q2 o h2 _ => ?_
    split
    · exact cov_useConstStatement (ok_to ht (by omega))
    · exact cov_useStatement (ok_to ht (by omega))

macro_rules | `(tactic| cov_lem) => `(tactic| with_reducible exact cov_useCase)

/-! ## Alternative `if` -/

/-- Branches of an alternative `if`, the last of which ends with the token. -/
def Chain (c : Sc) (p q : Nat) (l : List Node) (t : Token) : Prop :=
  c.NdLR p q l ∧ c.TkR p q t ∧ ∀ n ∈ l, Placed n → ∀ r, n.range = some r → c.lo r ≤ c.st t ∧ c.hi r ≤ c.en t

theorem branch_range {t op cp colon t' : Token} {e : Node} {ss : List Node} {x : NodeRange}
    (h : (Node.ifBranch t op e cp (.alternativeBlock colon ss t')).range = some x) : c.lo x = c.st t ∧ c.hi x = c.en t' := by
  simp only [Node.range] at h
  obtain ⟨y, hy, h1, h2⟩ := range_TN (c := c) h
  have := range_TT (c := c) hy
  omega

/-- A branch at its place. -/
theorem branchR {p q : Nat} {t op cp colon t' : Token} {e : Node} {ss : List Node}
    (h : c.SeqR p q [.tok t, .tok op, .node e, .tok cp, .tok colon, .list ss, .tok t']) :
    c.NdR p q (.ifBranch t op e cp (.alternativeBlock colon ss t')) := by
  obtain ⟨a1, b1, g1, g2, a2, b2, g3, g4, a3, b3, g5, g6, a4, b4, g7, g8, rest⟩ := h
  exact part_ifBranch ⟨a1, b1, g1, g2, a2, b2, g3, g4, a3, b3, g5, g6, a4, b4, g7, g8, b4, q, Nat.le_refl _,
    part_alternativeBlock rest, Nat.le_refl _⟩

theorem tok_mem : ∀ {l : List Part} {p q : Nat} {t : Token}, c.SeqR p q l → .tok t ∈ l → p ≤ c.st t ∧ c.st t ≤ c.en t ∧ c.en t ≤ q
  | i :: r, p, q, t, ⟨a, b, h1, h2, h3⟩, hm => by
    have hb := seqR_le h3
    have hab : a ≤ b := seqR_le (c := c) (l := [i]) (p := a) (q := b) ⟨a, b, Nat.le_refl _, h2, Nat.le_refl _⟩
    cases hm with
    | head =>
      have : a ≤ c.st t ∧ c.st t ≤ c.en t ∧ c.en t ≤ b := h2
      omega
    | tail _ hm =>
      have := tok_mem h3 hm
      omega

theorem chain_snoc {p q q' : Nat} {l : List Node} {t op cp colon t' : Token} {e : Node} {ss : List Node} (h : c.Chain p q l t)
    (hs : c.SeqR q q' [.tok op, .node e, .tok cp, .tok colon, .list ss, .tok t']) :
    c.Chain p q' (l ++ [.ifBranch t op e cp (.alternativeBlock colon ss t')]) t' := by
  obtain ⟨h1, h2, h3⟩ := h
  have htk : p ≤ c.st t ∧ c.st t ≤ c.en t ∧ c.en t ≤ q := h2
  have ht' := tok_mem (t := t') hs (by simp)
  have hqq := seqR_le hs
  have hb : c.NdR (c.st t) q' (.ifBranch t op e cp (.alternativeBlock colon ss t')) :=
    branchR ⟨c.st t, q, Nat.le_refl _, ⟨Nat.le_refl _, htk.2.1, htk.2.2⟩, hs⟩
  refine ⟨⟨by omega, fun m hm => ?_, ?_⟩, ⟨by omega, by omega, by omega⟩, fun m hm hp r hr => ?_⟩
  · rcases List.mem_append.1 hm with hm | hm
    · exact (h1.2.1 m hm).widen (Nat.le_refl _) hqq
    · cases List.mem_singleton.1 hm
      exact hb.widen htk.1 (Nat.le_refl _)
  · refine List.pairwise_append.2 ⟨h1.2.2, List.pairwise_singleton _ _, fun x hx y hy => ?_⟩
    cases List.mem_singleton.1 hy
    intro p1 p2 r r' e1 e2
    have := h3 x hx p1 r e1
    have := branch_range (c := c) e2
    omega
  · rcases List.mem_append.1 hm with hm | hm
    · have := h3 m hm hp r hr
      omega
    · cases List.mem_singleton.1 hm
      have := branch_range (c := c) hr
      omega

theorem cov_altElseifs {p0 p : Nat} {r : Rec} {i : Node} {terminator : Token} (hr : RCov c r) (h : p < c.bound → c.Chain p0 p [i] terminator) :
    c.Runs p (altElseifs r terminator) fun q x => q < c.bound → c.Chain p0 q (i :: x.1) x.2 := by
  unfold altElseifs
  refine Runs.loop (I := fun q (x : List Node × Token) => q < c.bound → c.Chain p0 q (i :: x.1) x.2) (fun q st hq hst => ?_) _ _ h
  refine Runs.ite (fun _ => ?_) fun _ => Runs.pure hst
  refine Runs.bind run_consume fun q1 op h1 hop => Runs.bind (hr.expression _ _) fun q2 e h2 he => ?_
  refine Runs.bind run_consume fun q3 cp h3 hcp => Runs.bind run_consume fun q4 colon h4 hcolon => ?_
  refine Runs.bind (cov_plainStatements hr) fun q5 ss h5 hss => Runs.bind run_consumeOneOf fun q6 t h6 ht => Runs.pure ?_
  have hs : c.Seq q q6 [.tok op, .node e, .tok cp, .tok colon, .list ss, .tok t] := by cov_seq
  simp only [Sum.elim_inl]
  intro hb
  have := chain_snoc (hst (by omega)) (hs hb)
  simpa using this

theorem cov_ifAlternative {p0 p : Nat} {r : Rec} {token op : Token} {cond : Node} {cp colon : Token} (hr : RCov c r)
    (h : c.Seq p0 p [.tok token, .tok op, .node cond, .tok cp, .tok colon]) :
    c.Runs p (ifAlternative r token op cond cp colon) fun q n => c.Ok p0 q (.node n) := by
  unfold ifAlternative
  refine Runs.bind (cov_plainStatements hr) fun q1 ss h1 hss => Runs.bind run_consumeOneOf fun q2 t h2 ht => ?_
  simp only
  refine Runs.bind (cov_altElseifs (p0 := p0) (i := .ifBranch token op cond cp (.alternativeBlock colon ss t)) hr fun hb => ?_) fun q3 x h3 hx => ?_
  · have rest : c.Seq p q2 [.list ss, .tok t] := by cov_seq
    have hs : c.SeqR p0 q2 [.tok token, .tok op, .node cond, .tok cp, .tok colon, .list ss, .tok t] := by
      obtain ⟨a1, b1, g1, g2, a2, b2, g3, g4, a3, b3, g5, g6, a4, b4, g7, g8, a5, b5, g9, g10, g11⟩ := h (by omega)
      exact ⟨a1, b1, g1, g2, a2, b2, g3, g4, a3, b3, g5, g6, a4, b4, g7, g8, a5, b5, g9, g10, seqR_start (rest hb) g11⟩
    have hbr := branchR hs
    have k1 := tok_mem (t := t) hs (by simp)
    have k3 := tok_mem (t := t) (rest hb) (by simp)
    have k2 : p0 ≤ c.st token ∧ c.st token ≤ c.en token ∧ c.en token ≤ p := tok_mem (t := token) (h (by omega)) (by simp)
    refine ⟨⟨hbr.1, fun n hn => by cases List.mem_singleton.1 hn; exact hbr, List.pairwise_singleton _ _⟩, k1, fun n hn _ x hx => ?_⟩
    cases List.mem_singleton.1 hn
    have := branch_range (c := c) hx
    omega
  · obtain ⟨es, t'⟩ := x
    simp only at hx ⊢
    refine Runs.ite (fun _ => ?_) fun _ => Runs.pure fun hb => ?_
    · refine Runs.bind (cov_alternativeBlock hr) fun q4 b h4 hb => Runs.pure fun hbd => ?_
      obtain ⟨g1, g2, g3⟩ := hx (by omega)
      have htk : p0 ≤ c.st t' ∧ c.st t' ≤ c.en t' ∧ c.en t' ≤ q3 := g2
      have hbk := hb hbd
      have hel : c.NdR (c.st t') q4 (.elseBranch t' b) :=
        part_elseBranch ⟨c.st t', q3, Nat.le_refl _, ⟨Nat.le_refl _, htk.2.1, htk.2.2⟩, q3, q4, Nat.le_refl _, hbk, Nat.le_refl _⟩
      refine if_of_list ⟨by omega, fun m hm => ?_, ?_⟩
      · rcases List.mem_append.1 (show m ∈ (Node.ifBranch token op cond cp (.alternativeBlock colon ss t) :: es) ++ [.elseBranch t' b] from hm) with hm | hm
        · exact (g1.2.1 m hm).widen (Nat.le_refl _) h4
        · cases List.mem_singleton.1 hm
          exact hel.widen htk.1 (Nat.le_refl _)
      · show List.Pairwise _ ((Node.ifBranch token op cond cp (.alternativeBlock colon ss t) :: es) ++ [.elseBranch t' b])
        refine List.pairwise_append.2 ⟨g1.2.2, List.pairwise_singleton _ _, fun x hx y hy => ?_⟩
        cases List.mem_singleton.1 hy
        intro p1 p2 r r' e1 e2
        have k1 := g3 x hx p1 r e1
        have k2 := hel.2.2.1 p2 r' e2
        simp only [Node.range] at e2
        obtain ⟨y, hy, k3, k4⟩ := range_TN (c := c) e2
        have k5 := hbk.2.2.1 (p2.child (by simp [Node.children])) y hy
        omega
    · obtain ⟨g1, g2, g3⟩ := hx hb
      refine if_of_list ?_
      simpa using g1

theorem cov_ifStatement {p : Nat} {r : Rec} (hr : RCov c r) : c.Runs p (ifStatement r) fun q n => c.Ok p q (.node n) := by
  unfold ifStatement
  refine Runs.bind run_consume fun q1 t h1 ht => Runs.bind run_consume fun q2 op h2 hop => ?_
  refine Runs.bind (hr.expression _ _) fun q3 e h3 he => Runs.bind run_consume fun q4 cp h4 hcp => ?_
  refine Runs.bind run_consumeOrIgnore fun q5 o h5 ho => ?_
  split
  · exact cov_ifAlternative hr (by cov_seq)
  · cov_auto

macro_rules | `(tactic| cov_lem) => `(tactic| with_reducible exact cov_ifStatement ‹_›)

/-! ## Dispatch and recursion -/

theorem cov_dispatch {p : Nat} {r : Rec} {attributes : List Node} {t : TT} (hr : RCov c r) (ha : c.Att p attributes) :
    c.Runs p (dispatch r attributes t) fun q n => c.Ok p q (.node n) := by
  unfold dispatch
  split
  · exact cov_inlineHtml hr
  · exact Runs.bind hr.popDoc fun q d hq _ => (cov_namedFunction hr (att_mono ha hq)).mono fun q2 n h2 hn => ok_widen hn hq (Nat.le_refl _)
  · exact cov_namespaceStatement hr
  · exact cov_useCase
  · exact cov_constStatement hr
  · exact cov_globalVariables hr
  · exact cov_echoStatement hr
  · exact cov_printStatement hr
  · exact cov_gotoStatement
  · exact cov_returnStatement hr
  · exact cov_throwStatement hr
  · exact cov_classStatement hr ok_none ok_none
  · exact cov_traitStatement hr
  · exact cov_abstractClassStatement hr
  · exact cov_finalClassStatement hr
  · exact cov_interface' hr
  · exact cov_whileStatement hr
  · exact cov_doWhileStatement hr
  · exact cov_forStatement hr
  · exact cov_foreachStatement hr
  · exact cov_ifStatement hr
  · exact cov_block hr
  · exact cov_switchStatement hr
  · exact Runs.bind run_consume fun q k hq hk => Runs.pure (ok_of_seq (by
      seq_flat
      cov_seq))
  · exact cov_breakStatement hr
  · exact cov_breakStatement hr
  · exact cov_tryCatchStatement hr
  · exact cov_declareStatement
  · exact cov_unsetStatement hr
  · exact cov_dieStatement hr
  · exact cov_defineStatement hr
  · exact cov_defaultStatement hr

theorem cov_scriptStatement {p : Nat} {r : Rec} (hr : RCov c r) : c.Runs p (scriptStatement r) fun q n => c.Ok p q (.node n) := by
  unfold scriptStatement
  refine Runs.bind (cov_attributesBlock hr) fun q a hq ha => Runs.bind run_peek fun q1 o h1 _ => ?_
  split
  · exact (cov_dispatch hr (att_of_list ha h1)).mono fun q2 n h2 hn => ok_widen hn (by omega) (Nat.le_refl _)
  · exact Runs.fail

theorem cov_reopen {p : Nat} : c.Runs p reopen fun _ _ => True := by
  unfold reopen
  cov_auto

theorem cov_statementF {p : Nat} {r : Rec} (hr : RCov c r) : c.Runs p (statementF r) fun q n => c.Ok p q (.node n) := by
  unfold statementF
  have hsc : ∀ q, p ≤ q → c.Runs q (scriptStatement r) fun q n => c.Ok p q (.node n) := fun q hq =>
    (cov_scriptStatement hr).mono fun q2 n h2 hn => ok_widen hn hq (Nat.le_refl _)
  refine Runs.bind run_getCtx fun q x hq _ => ?_
  split
  · exact hsc q hq
  · refine Runs.bind run_takeOr fun q1 o h1 _ => ?_
    split
    · exact hsc q1 (by omega)
    · refine Runs.ite (fun _ => ?_) fun _ => Runs.ite (fun _ => ?_) fun _ => Runs.fail
      · refine Runs.bind run_setCtx fun q2 _ h2 _ => Runs.bind run_peek fun q3 o h3 _ => ?_
        split
        · exact Runs.pure (by cov_leaf)
        · exact hsc q3 (by omega)
      · refine Runs.catchErr (cov_shortTagEchoStatement hr) (fun q2 n h2 hn => ?_) fun q2 e h2 => ?_
        · exact Runs.bind cov_reopen fun q3 _ h3 _ => Runs.pure (by cov_leaf)
        · exact Runs.bind cov_reopen fun q3 _ h3 _ => Runs.fail

theorem cov_callF' {p : Nat} {r : Rec} (hr : RCov c r) : c.Runs p (callF r) fun q n => c.Ok p q (.node n) := cov_callF hr

theorem cov_knot {doc : Token → Option Node} (hd : ∀ k n, doc k = some n → Cov c.le n ∧ Vars (varDocs n)) :
    ∀ n, RCov c (knot doc n)
  | 0 => ⟨hd, fun _ _ => Runs.diverge, fun _ => Runs.diverge, fun _ => Runs.diverge⟩
  | n + 1 =>
    have ih := cov_knot hd n
    ⟨hd, fun _ _ => cov_expressionF ih, fun _ => cov_statementF ih, fun _ => cov_callF ih⟩

theorem cov_astLoop {p : Nat} {r : Rec} (hr : RCov c r) : c.Runs p (astLoop r) fun q l => c.Ok p q (.list l) := by
  unfold astLoop
  cov_auto

end Sc
end PhpLs.Parser
