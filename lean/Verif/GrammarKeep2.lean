import Verif.GrammarKeep

/-!
# Which tokens the grammar keeps: classes, attributes and statements

The functions of the grammar that lose tokens of other than the lost kinds, the functions that call them, and the knot.
-/

namespace PhpLs.Parser

open PhpLs
open scoped List

set_option linter.unusedVariables false

namespace Kp

variable {c : Kp} {r : Rec} {A : Prop}

/-! ## Excuses that are local to a run -/

/-- The same token in a part of the text, with one more excuse. -/
def under (c : Kp) (L : List Token) (M : Prop) : Kp := ⟨L, c.k, c.X ∨ M, fun h => .inl (c.lost h)⟩

theorem Keeps.under {f : P α} {Q : α → Prop} {L : List Token} {M : Prop} (h : c.Keeps A f Q) (hL : Rest L c.all) :
    (c.under L M).Keeps A f Q := by
  intro s hs
  have := h s (hs.trans hL)
  cases hf : f s with
  | ok a s' =>
    rw [hf] at this
    refine ⟨this.1, this.2.1, fun ha => ?_⟩
    have key : c.At A s → (c.under L M).At (Q a) s' := fun h => by
      rcases this.2.2 h with g | g | g | g
      · exact .inl g
      · exact .inr (.inl (.inl g))
      · exact .inr (.inr (.inl g))
      · exact .inr (.inr (.inr g))
    rcases ha with ha | (ha | ha) | ha | ha
    · exact key (.inl ha)
    · exact key (.inr (.inl ha))
    · exact .inr (.inl (.inr ha))
    · exact key (.inr (.inr (.inl ha)))
    · exact key (.inr (.inr (.inr ha)))
  | err e s' => rw [hf] at this; exact this
  | panic => trivial
  | diverge x => trivial

theorem RKeep.under {L : List Token} {M : Prop} (h : RKeep c r) (hL : Rest L c.all) : RKeep (c.under L M) r where
  expression b A := (h.expression b A).under hL
  statement A := (h.statement A).under hL
  call A := (h.call A).under hL
  member f s n s' s1 e s2 hc hs := fun a b d e f g i j => .inl (h.member _ _ _ _ _ _ _ hc (hs.trans hL) a b d e f g i j)
  alteration f s n s' s0 n0 s0' sg tr ng sg' s1 s2 hc hs := fun a b d e f g i j k l m o p q r u =>
    .inl (h.alteration _ _ _ _ _ _ _ _ _ _ _ _ _ hc (hs.trans hL) a b d e f g i j k l m o p q r u)
  statics s t s0 n s' s1 s2 s3 hs := fun a b d e f g i j => .inl (h.statics _ _ _ _ _ _ _ _ (hs.trans hL) a b d e f g i j)
  attrStatement s l s1 n s' hs := fun a b d e f g => .inl (h.attrStatement _ _ _ _ _ (hs.trans hL) a b d e f g)
  attrExpression s l s1 n s' hs := fun a b d e f g => .inl (h.attrExpression _ _ _ _ _ (hs.trans hL) a b d e f g)

/-- An excuse for a part of a run is an excuse for the run. -/
theorem KeepsAt.within {f : P α} {Q : α → Prop} {M : Prop} {s : PSt} (h : (c.under s.toks M).KeepsAt s A f Q)
    (hX : ∀ a s', f s = .ok a s' → s'.errors = [] → c.k ∉ s'.toks → M → c.X) : c.KeepsAt s A f Q := by
  unfold KeepsAt at *
  cases hf : f s with
  | ok a s' =>
    rw [hf] at h
    refine ⟨h.1, h.2.1, fun ha => ?_⟩
    have ha' : (c.under s.toks M).At A s := by
      rcases ha with g | g | g | g
      · exact .inl g
      · exact .inr (.inl (.inl g))
      · exact .inr (.inr (.inl g))
      · exact .inr (.inr (.inr g))
    rcases h.2.2 ha' with g | (g | g) | g | g
    · exact .inl g
    · exact .inr (.inl g)
    · by_cases he : s'.errors = []
      · by_cases hk : c.k ∈ s'.toks
        · exact .inr (.inr (.inl hk))
        · exact .inr (.inl (hX a s' hf he hk g))
      · exact .inl he
    · exact .inr (.inr (.inl g))
    · exact .inr (.inr (.inr g))
  | err e s' => rw [hf] at h; exact h
  | panic => trivial
  | diverge x => trivial

theorem Keeps.within {f : P α} {Q : α → Prop} {M : PSt → Prop} (h : ∀ s, c.In s → (c.under s.toks (M s)).Keeps A f Q)
    (hX : ∀ s a s', c.In s → f s = .ok a s' → s'.errors = [] → c.k ∉ s'.toks → M s → c.X) : c.Keeps A f Q :=
  fun s hs => KeepsAt.within (h s hs s (.refl _)) (hX s · · hs)

/-- What a run loses may be excused. -/
theorem Keeps.excuse {f : P α} {Q Q' : α → Prop} (h : c.Keeps A f Q) (hA : ∀ a, A → Q' a)
    (hq : ∀ s a s', f s = .ok a s' → s'.errors = [] → c.In s → c.k ∈ s.toks → c.k ∉ s'.toks → Q a → Q' a ∨ c.X) :
    c.Keeps A f Q' := by
  intro s hs
  have := h s hs
  cases hf : f s with
  | ok a s' =>
    rw [hf] at this
    obtain ⟨h1, h2, h3⟩ := this
    refine ⟨h1, h2, fun ha => ?_⟩
    rcases ha with ha | ha | ha | ha
    · exact .inl (h2 ha)
    · exact .inr (.inl ha)
    · by_cases hk : c.k ∈ s'.toks
      · exact .inr (.inr (.inl hk))
      · by_cases he : s'.errors = []
        · rcases h3 (.inr (.inr (.inl ha))) with g | g | g | g
          · exact .inl g
          · exact .inr (.inl g)
          · exact absurd g hk
          · rcases hq s a s' hf he hs ha hk g with g | g
            · exact .inr (.inr (.inr g))
            · exact .inr (.inl g)
        · exact .inl he
    · exact .inr (.inr (.inr (hA a ha)))
  | err e s' => rw [hf] at this; exact this
  | panic => trivial
  | diverge x => trivial

/-- As `Keeps.bind`, going on from the states the first function leaves. -/
theorem KeepsAt.bind {f : P α} {g : α → P β} {Q : α → Prop} {R : β → Prop} {s : PSt} (h : c.KeepsAt s A f Q) (hs : c.In s)
    (hg : ∀ a s', f s = .ok a s' → c.In s' → c.KeepsAt s' (Q a) (g a) R) : c.KeepsAt s A (f >>= g) R := by
  unfold KeepsAt at *
  rw [show (f >>= g) = P.bind f g from rfl]
  unfold P.bind
  cases hf : f s with
  | ok a s' =>
    rw [hf] at h
    have := hg a s' hf (h.1.trans hs)
    cases hx : g a s' with
    | ok b s'' => rw [hx] at this; simp only [hx]; exact ⟨this.1.trans h.1, fun h1 => this.2.1 (h.2.1 h1), fun h1 => this.2.2 (h.2.2 h1)⟩
    | err e s'' => rw [hx] at this; simp only [hx]; exact ⟨this.1.trans h.1, fun h1 => this.2 (h.2.1 h1)⟩
    | panic => simp only [hx]
    | diverge x => simp only [hx]
  | err e s' => rw [hf] at h; exact h
  | panic => trivial
  | diverge x => trivial

theorem Keeps.bindR {f : P α} {g : α → P β} {Q : α → Prop} {R : β → Prop} (h : c.Keeps A f Q)
    (hg : ∀ s a s', c.In s → f s = .ok a s' → c.In s' → c.KeepsAt s' (Q a) (g a) R) : c.Keeps A (f >>= g) R :=
  fun s hs => KeepsAt.bind (h s hs) hs (hg s · · hs)

theorem Keeps.at {f : P α} {Q : α → Prop} {s : PSt} (h : c.Keeps A f Q) (hs : c.In s) : c.KeepsAt s A f Q := h s hs

theorem KeepsAt.pre {f : P α} {Q : α → Prop} {s : PSt} {B : Prop} (h : c.KeepsAt s B f Q) (hp : c.At A s → c.At B s) :
    c.KeepsAt s A f Q := by
  unfold KeepsAt at *
  cases hf : f s with
  | ok a s' => rw [hf] at h; exact ⟨h.1, h.2.1, fun ha => h.2.2 (hp ha)⟩
  | err e s' => rw [hf] at h; exact h
  | panic => trivial
  | diverge x => trivial

theorem P.bind_assoc (f : P α) (g : α → P β) (h : β → P γ) : ((f >>= g) >>= h) = (f >>= fun a => g a >>= h) := by
  funext s
  show P.bind (P.bind f g) h s = P.bind f (fun a => P.bind (g a) h) s
  unfold P.bind
  cases f s <;> rfl

theorem P.pure_bind (a : α) (g : α → P β) : (pure a >>= g) = g a := rfl

/-! ## Trait uses -/

/-- Losing an alteration is excused. -/
def AltExcuse (c : Kp) (r : Rec) : Prop := ∀ s s', c.In s → alteration r s = .ok none s' → s'.errors = [] → c.k ∈ s.toks →
  c.k ∉ s'.toks → c.X

theorem k_alteration (h : RKeep c r) (hx : AltExcuse c r) : c.Keeps A (alteration r) fun n => A ∨ Has c.k n := by
  have h1 : c.Keeps A (alteration r) fun n => n = none ∨ A ∨ Has c.k n := by
    unfold alteration
    refine Keeps.bind (k_nonEmptyTypeRef h) fun x => ?_
    refine Keeps.bind (Q := fun (p : Option Node × Option Token × Node) => A ∨ Has c.k p) ?_ fun p => ?_
    · keep_auto
    · obtain ⟨left, paa, m⟩ := p
      keep_auto
  refine h1.excuse (fun _ h => .inl h) fun s a s' hf he hs hk hk' hq => ?_
  rcases hq with hq | hq
  · subst hq
    exact .inr (hx s s' hs hf he hk hk')
  · exact .inl hq
macro_rules | `(tactic| keep_lem) => `(tactic| with_reducible exact k_alteration ‹_› ‹_›)

theorem k_traitUsageAlterationGroup0 {typeRefs : List Node} (h : RKeep c r) (hx : AltExcuse c r) :
    c.Keeps A (traitUsageAlterationGroup r typeRefs) fun n => A ∧ ¬ Has c.k typeRefs ∨ Has c.k n := by
  unfold traitUsageAlterationGroup
  keep_auto

/-- Losing an alteration of a block is excused. -/
def GroupExcuse (c : Kp) (r : Rec) : Prop := ∀ s tr n s' s1 s2, c.In s → traitUsageAlterationGroup r tr s = .ok n s' → s'.errors = [] →
  c.k ∉ s'.toks → Rest s1.toks s.toks → alteration r s1 = .ok none s2 → s2.errors = [] → c.k ∈ s1.toks → c.k ∉ s2.toks → c.X

theorem k_traitUsageAlterationGroup {typeRefs : List Node} (h : RKeep c r) (hx : GroupExcuse c r) :
    c.Keeps A (traitUsageAlterationGroup r typeRefs) fun n => A ∧ ¬ Has c.k typeRefs ∨ Has c.k n := by
  refine Keeps.within (M := fun s => ∃ s1 s2, Rest s1.toks s.toks ∧ alteration r s1 = .ok none s2 ∧ s2.errors = [] ∧ c.k ∈ s1.toks ∧
    c.k ∉ s2.toks) (fun s hs => ?_) fun s a s' hs hf he hk hm => ?_
  · exact k_traitUsageAlterationGroup0 (c := c.under _ _) (h.under hs) fun s1 s2 a b d e f => .inr ⟨s1, s2, a, b, d, e, f⟩
  · obtain ⟨s1, s2, a, b, d, e, f⟩ := hm
    exact hx s _ _ s' s1 s2 hs hf he hk a b d e f
macro_rules | `(tactic| keep_lem) => `(tactic| with_reducible exact k_traitUsageAlterationGroup ‹_› ‹_›)

theorem good_useTraits {T : Token → Prop} (l : List Node) : Good T (l.map Node.useTrait) ↔ Good T l := by
  induction l with
  | nil => simp only [List.map_nil]
  | cons n l ih => simp only [List.map_cons, good_cons, good_n_useTrait, ih]

theorem k_traitUsages (h : RKeep c r) (hx : GroupExcuse c r) : c.Keeps A (traitUsages r) fun n => A ∨ Has c.k n := by
  unfold traitUsages
  keep_auto
  refine Keeps.pure fun h => ?_
  simp only [has_iff, good_useTraits] at h ⊢
  simp only [good] at h ⊢
  grind
macro_rules | `(tactic| keep_lem) => `(tactic| with_reducible exact k_traitUsages ‹_› ‹_›)

theorem k_useTraitStatement0 (h : RKeep c r) (hx : GroupExcuse c r) : c.Keeps A (useTraitStatement r) fun n => A ∨ Has c.k n := by
  unfold useTraitStatement
  keep_auto

/-- Losing a member or an alteration is excused. -/
structure MemberExcuse (c : Kp) (r : Rec) : Prop where
  member : ∀ s e s', c.In s → classBlockStatement r s = .err e s' → s'.errors = [] → c.k ∈ s.toks → c.k ∉ s'.toks → c.X
  alteration : ∀ s0 n0 s0' sg tr ng sg' s1 s2, c.In s0 → useTraitStatement r s0 = .ok n0 s0' → s0'.errors = [] → c.k ∉ s0'.toks →
    Rest sg.toks s0.toks → traitUsageAlterationGroup r tr sg = .ok ng sg' → sg'.errors = [] → c.k ∉ sg'.toks →
    Rest s1.toks sg.toks → Parser.alteration r s1 = .ok none s2 → s2.errors = [] → c.k ∈ s1.toks → c.k ∉ s2.toks → c.X

theorem k_useTraitStatement (h : RKeep c r) (hx : MemberExcuse c r) : c.Keeps A (useTraitStatement r) fun n => A ∨ Has c.k n := by
  refine Keeps.within (M := fun s => ∃ sg tr ng sg' s1 s2, Rest sg.toks s.toks ∧ traitUsageAlterationGroup r tr sg = .ok ng sg' ∧
    sg'.errors = [] ∧ c.k ∉ sg'.toks ∧ Rest s1.toks sg.toks ∧ alteration r s1 = .ok none s2 ∧ s2.errors = [] ∧ c.k ∈ s1.toks ∧
    c.k ∉ s2.toks) (fun s hs => ?_) fun s a s' hs hf he hk hm => ?_
  · exact k_useTraitStatement0 (c := c.under _ _) (h.under hs) fun sg tr ng sg' s1 s2 a b d e f g i j l =>
      .inr ⟨sg, tr, ng, sg', s1, s2, a, b, d, e, f, g, i, j, l⟩
  · obtain ⟨sg, tr, ng, sg', s1, s2, a, b, d, e, f, g, i, j, l⟩ := hm
    exact hx.alteration s _ s' sg tr ng sg' s1 s2 hs hf he hk a b d e f g i j l
macro_rules | `(tactic| keep_lem) => `(tactic| with_reducible exact k_useTraitStatement ‹_› ‹_›)

theorem k_modifiers : c.Keeps A (modifiers r) fun _ => A := by
  unfold modifiers
  refine Keeps.loopI (I := fun _ => A) (Q := fun _ => A) (fun b => ?_) _ _
  refine Keeps.bind (Q := fun _ => A) keeps_nextOneOf fun _ => Keeps.ite (fun _ => ?_) fun _ => Keeps.pure fun h => h
  exact Keeps.bind (keeps_consumeOrIgnore_lost (by decide)) fun _ => Keeps.bind (keeps_consumeOrIgnore_lost (by decide)) fun _ =>
    Keeps.bind (keeps_consumeOneOfOrIgnore_lost (by decide)) fun _ => Keeps.bind (keeps_consumeOrIgnore_lost (by decide)) fun _ =>
    Keeps.pure fun h => h
macro_rules | `(tactic| keep_lem) => `(tactic| with_reducible exact k_modifiers)

theorem k_classMember {doc : Option Node} {attributes : List Node} (h : RKeep c r) (hx : MemberExcuse c r) :
    c.Keeps A (classMember r doc attributes) fun n => A ∧ ¬ Has c.k attributes ∨ Has c.k n := by
  unfold classMember
  keep_auto
macro_rules | `(tactic| keep_lem) => `(tactic| with_reducible exact k_classMember ‹_› ‹_›)

theorem k_classBlockStatement (h : RKeep c r) (hx : MemberExcuse c r) : c.Keeps A (classBlockStatement r) fun n => A ∨ Has c.k n := by
  unfold classBlockStatement
  keep_auto

/-- A member that fails excuses what was read for it. -/
theorem k_memberInto {stmts : List Node} (h : RKeep c r) (hx : MemberExcuse c r) :
    c.Keeps A (P.catchErr (classBlockStatement r) (fun n => pure (stmts ++ [n])) (fun _ => pure stmts)) fun l =>
      A ∧ ¬ Has c.k stmts ∨ Has c.k l := by
  intro s hs
  have hm := k_classBlockStatement (A := A) h hx s hs
  unfold P.catchErr
  cases hf : classBlockStatement r s with
  | ok n s' =>
    rw [hf] at hm
    refine ⟨hm.1, hm.2.1, fun ha => (hm.2.2 ha).mono ?_⟩
    keep_leaf
  | err e s' =>
    rw [hf] at hm
    refine ⟨hm.1, hm.2, fun ha => ?_⟩
    rcases ha with ha | ha | ha | ha
    · exact .inl (hm.2 ha)
    · exact .inr (.inl ha)
    · by_cases hk : c.k ∈ s'.toks
      · exact .inr (.inr (.inl hk))
      · by_cases he : s'.errors = []
        · exact .inr (.inl (hx.member s e s' hs hf he ha hk))
        · exact .inl he
    · refine .inr (.inr (.inr ?_))
      by_cases hk : Has c.k stmts
      · exact .inr hk
      · exact .inl ⟨ha, hk⟩
  | panic => trivial
  | diverge x => trivial
macro_rules | `(tactic| keep_lem) => `(tactic| with_reducible exact k_memberInto ‹_› ‹_›)

theorem k_classBlock (h : RKeep c r) (hx : MemberExcuse c r) : c.Keeps A (classBlock r) fun n => A ∨ Has c.k n := by
  unfold classBlock
  keep_auto
macro_rules | `(tactic| keep_lem) => `(tactic| with_reducible exact k_classBlock ‹_› ‹_›)

/-- The excuse for a member that fails is one for the declaration. -/
theorem k_classLike {f : P Node} {Q : Node → Prop} (hf : ClassLike r f) (h : RKeep c r)
    (h0 : ∀ L M, RKeep (c.under L M) r → MemberExcuse (c.under L M) r → (c.under L M).Keeps A f Q) : c.Keeps A f Q := by
  refine Keeps.within (M := fun s => (∃ s1 e s2, Rest s1.toks s.toks ∧ classBlockStatement r s1 = .err e s2 ∧ s2.errors = [] ∧
    c.k ∈ s1.toks ∧ c.k ∉ s2.toks) ∨ ∃ s0 n0 s0' sg tr ng sg' s1 s2, Rest s0.toks s.toks ∧ useTraitStatement r s0 = .ok n0 s0' ∧
    s0'.errors = [] ∧ c.k ∉ s0'.toks ∧ Rest sg.toks s0.toks ∧ traitUsageAlterationGroup r tr sg = .ok ng sg' ∧ sg'.errors = [] ∧
    c.k ∉ sg'.toks ∧ Rest s1.toks sg.toks ∧ alteration r s1 = .ok none s2 ∧ s2.errors = [] ∧ c.k ∈ s1.toks ∧ c.k ∉ s2.toks)
    (fun s hs => ?_) fun s a s' hs hr he hk hm => ?_
  · exact h0 _ _ (h.under hs) {
      member := fun s1 e s2 a b d e' f => .inr (.inl ⟨s1, e, s2, a, b, d, e', f⟩)
      alteration := fun s0 n0 s0' sg tr ng sg' s1 s2 a b d e f g i j l m o p q =>
        .inr (.inr ⟨s0, n0, s0', sg, tr, ng, sg', s1, s2, a, b, d, e, f, g, i, j, l, m, o, p, q⟩) }
  · rcases hm with ⟨s1, e, s2, a, b, d, e', g⟩ | ⟨s0, n0, s0', sg, tr, ng, sg', s1, s2, a, b, d, e, g, i, j, l, m, o, p, q, u⟩
    · exact h.member f s _ s' s1 e s2 hf hs hr he hk a b d e' g
    · exact h.alteration f s _ s' s0 n0 s0' sg tr ng sg' s1 s2 hf hs hr he hk a b d e g i j l m o p q u

theorem k_classStatement0 {a b : Option Token} {attributes : List Node} (h : RKeep c r) (hx : MemberExcuse c r) :
    c.Keeps A (classStatement r a b attributes) fun n => A ∧ ¬ Has c.k a ∧ ¬ Has c.k b ∧ ¬ Has c.k attributes ∨ Has c.k n := by
  unfold classStatement
  keep_auto

theorem k_classStatement {a b : Option Token} {attributes : List Node} (h : RKeep c r) :
    c.Keeps A (classStatement r a b attributes) fun n => A ∧ ¬ Has c.k a ∧ ¬ Has c.k b ∧ ¬ Has c.k attributes ∨ Has c.k n :=
  k_classLike (.class _ _ _) h fun _ _ h' hx => k_classStatement0 h' hx
macro_rules | `(tactic| keep_lem) => `(tactic| with_reducible exact k_classStatement ‹_›)

theorem k_abstractClassStatement {attributes : List Node} (h : RKeep c r) :
    c.Keeps A (abstractClassStatement r attributes) fun n => A ∧ ¬ Has c.k attributes ∨ Has c.k n := by
  unfold abstractClassStatement
  keep_auto
macro_rules | `(tactic| keep_lem) => `(tactic| with_reducible exact k_abstractClassStatement ‹_›)

theorem k_finalClassStatement {attributes : List Node} (h : RKeep c r) :
    c.Keeps A (finalClassStatement r attributes) fun n => A ∧ ¬ Has c.k attributes ∨ Has c.k n := by
  unfold finalClassStatement
  keep_auto
macro_rules | `(tactic| keep_lem) => `(tactic| with_reducible exact k_finalClassStatement ‹_›)

theorem k_anonymousClass0 {attributes : List Node} (h : RKeep c r) (hx : MemberExcuse c r) :
    c.Keeps A (anonymousClass r attributes) fun n => A ∧ ¬ Has c.k attributes ∨ Has c.k n := by
  unfold anonymousClass
  keep_auto

theorem k_anonymousClass {attributes : List Node} (h : RKeep c r) :
    c.Keeps A (anonymousClass r attributes) fun n => A ∧ ¬ Has c.k attributes ∨ Has c.k n :=
  k_classLike (.anonymous _) h fun _ _ h' hx => k_anonymousClass0 h' hx
macro_rules | `(tactic| keep_lem) => `(tactic| with_reducible exact k_anonymousClass ‹_›)

theorem k_interface0 (h : RKeep c r) (hx : MemberExcuse c r) : c.Keeps A (interface' r) fun n => A ∨ Has c.k n := by
  unfold interface'
  keep_auto

theorem k_interface' (h : RKeep c r) : c.Keeps A (interface' r) fun n => A ∨ Has c.k n :=
  k_classLike .interface h fun _ _ h' hx => k_interface0 h' hx
macro_rules | `(tactic| keep_lem) => `(tactic| with_reducible exact k_interface' ‹_›)

theorem k_traitStatement0 (h : RKeep c r) (hx : MemberExcuse c r) : c.Keeps A (traitStatement r) fun n => A ∨ Has c.k n := by
  unfold traitStatement
  keep_auto

theorem k_traitStatement (h : RKeep c r) : c.Keeps A (traitStatement r) fun n => A ∨ Has c.k n :=
  k_classLike .trait h fun _ _ h' hx => k_traitStatement0 h' hx
macro_rules | `(tactic| keep_lem) => `(tactic| with_reducible exact k_traitStatement ‹_›)

/-! ## Static variables -/

/-- Losing a variable without a value is excused. -/
def StaticExcuse (c : Kp) : Prop := ∀ s s1 s2, c.In s → consume .variable s = .ok c.k s1 → consumeOrIgnore .assignment s1 = .ok none s2 →
  s2.errors = [] → c.X

theorem k_staticVariables {token : Token} (h : RKeep c r) (hx : StaticExcuse c) :
    c.Keeps A (staticVariables r token) fun n => A ∧ ¬ Has c.k token ∨ Has c.k n := by
  unfold staticVariables
  refine Keeps.bind (Keeps.loop fun b A => ?_) fun _ => by keep_auto
  refine Keeps.bindR keeps_consume fun s v s1 hs hf hs1 => ?_
  rw [P.bind_assoc]
  refine KeepsAt.bind (keeps_consumeOrIgnore_lost (by decide) s1 hs1) hs1 fun o s2 ht hs2 => ?_
  cases o with
  | none =>
    refine KeepsAt.pre (B := A) (Keeps.at (by simp only [P.pure_bind]; keep_auto) hs2) fun ha => ?_
    rcases ha with g | g | g | g | g
    · exact .inl g
    · exact .inr (.inl g)
    · exact .inr (.inr (.inl g))
    · exact .inr (.inr (.inr g))
    · by_cases he : s2.errors = []
      · have e : c.k = v := by simpa [Has, Val.toks] using g
        exact .inr (.inl (hx s s1 s2 hs (e ▸ hf) ht he))
      · exact .inl he
  | some a =>
    refine Keeps.at ?_ hs2
    simp only [P.bind_assoc, P.pure_bind]
    keep_auto

/-- A `static` statement. -/
theorem k_staticStatement {g : P Node} (h : RKeep c r) (hg : c.Keeps A g fun n => A ∨ Has c.k n) :
    c.Keeps A (lookahead (fun k => k.t == .kwStatic) (fun k => k.t == .variable) >>= fun o => match o with
      | some token => staticVariables r token
      | none => g) fun n => A ∨ Has c.k n := by
  refine Keeps.bindR keeps_lookahead fun s o s0 hs hf hs0 => ?_
  cases o with
  | none => exact KeepsAt.pre (Keeps.at hg hs0) fun ha => ha.mono fun h => h.elim id fun h => by simp [Has, Val.toks] at h
  | some t =>
    refine KeepsAt.within (M := ∃ s1 s2 s3, Rest s1.toks s0.toks ∧ consume .variable s1 = .ok c.k s2 ∧
      consumeOrIgnore .assignment s2 = .ok none s3 ∧ s3.errors = []) ?_ fun n s' hr he hk hm => ?_
    · refine Keeps.at (c := c.under _ _) ?_ (Rest.refl _)
      refine (k_staticVariables (c := c.under _ _) (h.under hs0) fun s1 s2 s3 a b d e => .inr ⟨s1, s2, s3, a, b, d, e⟩).mono fun n hn => ?_
      simp only [has_iff, good] at hn ⊢
      revert hn
      change _ ∨ ¬ Good (· ≠ c.k) n → A ∨ ¬ Good (· ≠ c.k) n
      intro hn
      rcases hn with ⟨h1 | h1, h2⟩ | h1
      · exact .inl h1
      · exact absurd h1 h2
      · exact .inr h1
    · obtain ⟨s1, s2, s3, a, b, d, e⟩ := hm
      exact h.statics s t s0 n s' s1 s2 s3 hs hf hr he hk a b d e

/-! ## Attributes -/

theorem peekOn_same {s s' : PSt} {x : Token} (h : peekOn s.toks s = (some x, s')) : peekOn s'.toks s' = (some x, s') := by
  obtain ⟨r, hr, he, hm, ht⟩ := peekOn_front s.toks s x (by rw [h])
  rw [h] at hr
  simp only at hr
  rw [hr]
  unfold peekOn
  rw [if_neg he, if_neg hm, if_neg (by rw [ht]; decide), ← hr]

/-- After looking at the next token a run goes on from a state with the same next token. -/
theorem at_peek {x : Token} {s : PSt} {g : Option Token → P β} {R : β → Prop} (hx : (peekOn s.toks s).1 = some x) (hs : c.In s)
    (h : ∀ s', (peekOn s'.toks s').1 = some x → c.In s' → c.KeepsAt s' A (g (some x)) R) : c.KeepsAt s A (peek >>= g) R := by
  have hk := keeps_peek (c := c) (A := A) s hs
  unfold KeepsAt
  rw [show (peek >>= g) = P.bind peek g from rfl]
  unfold P.bind peek at *
  cases hp : peekOn s.toks s with
  | mk o s1 =>
    rw [hp] at hx hk
    simp only at hx hk ⊢
    subst hx
    obtain ⟨h1, h2, h3⟩ := hk
    have h := h s1 (by rw [peekOn_same hp]) (h1.trans hs)
    unfold KeepsAt at h
    cases hg : g (some x) s1 with
    | ok a s2 => rw [hg] at h; exact ⟨h.1.trans h1, fun e => h.2.1 (h2 e), fun ha => h.2.2 (h3 ha)⟩
    | err e s2 => rw [hg] at h; exact ⟨h.1.trans h1, fun e => h.2 (h2 e)⟩
    | panic => trivial
    | diverge x => trivial

theorem KeepsAt.cast {f g : P α} {Q : α → Prop} {s : PSt} (e : f = g) (h : c.KeepsAt s A g Q) : c.KeepsAt s A f Q := e ▸ h

theorem at_nextOneOf {x : Token} {s : PSt} {ts : List TT} {g : Bool → P β} {R : β → Prop} (hx : (peekOn s.toks s).1 = some x)
    (hs : c.In s) (h : ∀ s', (peekOn s'.toks s').1 = some x → c.In s' → c.KeepsAt s' A (g (ts.contains x.t)) R) :
    c.KeepsAt s A (nextOneOf ts >>= g) R := by
  unfold nextOneOf nextIs
  rw [P.bind_assoc]
  exact at_peek hx hs h

theorem at_takeIf {x : Token} {s : PSt} {f : Token → Bool} {g : Option Token → P β} {R : β → Prop}
    (hx : (peekOn s.toks s).1 = some x) (hs : c.In s) (hf : f x = false)
    (h : ∀ s', (peekOn s'.toks s').1 = some x → c.In s' → c.KeepsAt s' A (g none) R) :
    c.KeepsAt s A (takeIf f >>= g) R := by
  unfold takeIf
  rw [P.bind_assoc]
  refine at_peek hx hs fun s' hx' hs' => ?_
  simp only [hf, Bool.false_eq_true, if_false]
  exact h s' hx' hs'

/-- Attributes are kept by what follows them, or their loss is excused. -/
theorem k_attrThen {g : List Node → P Node} {L : List TT} (h : RKeep c r)
    (hX : ∀ s l s1 n s', Rest s.toks c.all → attributesBlock r s = .ok l s1 → (attributesBlock r >>= g) s = .ok n s' →
      s'.errors = [] → c.k ∈ s.toks → Has c.k l → (∀ x, (peekOn s1.toks s1).1 = some x → x.t ∉ L) → c.X)
    (h1 : ∀ A l, c.Keeps A (g l) fun n => A ∨ Has c.k n)
    (h2 : ∀ A l s x, c.In s → (peekOn s.toks s).1 = some x → x.t ∈ L → c.KeepsAt s A (g l) fun n => A ∧ ¬ Has c.k l ∨ Has c.k n) :
    c.Keeps A (attributesBlock r >>= g) fun n => A ∨ Has c.k n := by
  intro s hs
  have ha := k_attributesBlock (A := A) h s hs
  have hX := hX s
  rw [show (attributesBlock r >>= g) = P.bind (attributesBlock r) g from rfl] at *
  cases hb : attributesBlock r s with
  | ok l s1 =>
    rw [hb] at ha
    obtain ⟨i1, i2, i3⟩ := ha
    have e : P.bind (attributesBlock r) g s = g l s1 := by unfold P.bind; rw [hb]
    rw [e] at hX ⊢
    by_cases hL : ∃ x, (peekOn s1.toks s1).1 = some x ∧ x.t ∈ L
    · obtain ⟨x, hx, hxL⟩ := hL
      have := h2 (A ∨ Has c.k l) l s1 x (i1.trans hs) hx hxL
      unfold KeepsAt at this
      cases hg : g l s1 with
      | ok n s2 =>
        rw [hg] at this
        refine ⟨this.1.trans i1, fun e => this.2.1 (i2 e), fun ha => (this.2.2 (i3 ha)).mono ?_⟩
        grind
      | err e s2 => rw [hg] at this; exact ⟨this.1.trans i1, fun e => this.2 (i2 e)⟩
      | panic => trivial
      | diverge x => trivial
    · have := h1 A l s1 (i1.trans hs)
      cases hg : g l s1 with
      | ok n s2 =>
        rw [hg] at this
        refine ⟨this.1.trans i1, fun e => this.2.1 (i2 e), fun ha => ?_⟩
        by_cases hA : A
        · exact .inr (.inr (.inr (.inl hA)))
        rcases i3 ha with g1 | g1 | g1 | g1 | g1
        · exact this.2.2 (.inl g1)
        · exact .inr (.inl g1)
        · exact this.2.2 (.inr (.inr (.inl g1)))
        · exact this.2.2 (.inr (.inr (.inr g1)))
        · rcases ha with ha | ha | ha | ha
          · exact .inl (this.2.1 (i2 ha))
          · exact .inr (.inl ha)
          · by_cases he : s2.errors = []
            · exact .inr (.inl (hX l s1 n s2 hs hb hg he ha g1 (by intro x hx hxL; exact hL ⟨x, hx, hxL⟩)))
            · exact .inl he
          · exact absurd ha hA
      | err e s2 => rw [hg] at this; exact ⟨this.1.trans i1, fun e => this.2 (i2 e)⟩
      | panic => trivial
      | diverge x => trivial
  | err e s1 => rw [hb] at ha; unfold P.bind; rw [hb]; exact ha
  | panic => unfold P.bind; rw [hb]; trivial
  | diverge x => unfold P.bind; rw [hb]; trivial

/-! ## Primary expressions -/

theorem k_primaryStatic {token : Token} {attributes : List Node} (h : RKeep c r) :
    c.Keeps A (primaryStatic r token attributes) fun n => A ∧ ¬ Has c.k token ∨ Has c.k n := by
  unfold primaryStatic
  keep_auto
macro_rules | `(tactic| keep_lem) => `(tactic| with_reducible exact k_primaryStatic ‹_›)

theorem k_primaryAttr (h : RKeep c r) : c.Keeps A (primaryAttr r) fun n => A ∨ Has c.k n := by
  have hX := h.attrExpression
  unfold primaryAttr at hX ⊢
  refine k_attrThen h hX (fun A l => ?_) fun A l s x hs hx hL => ?_
  · keep_auto
  · refine at_nextOneOf hx hs fun s hx hs => ?_
    rcases (by simpa using hL : x.t = .kwFunction ∨ x.t = .kwClass ∨ x.t = .kwFn) with e | e | e
    · rw [e]
      refine KeepsAt.cast (if_neg (by decide)) ?_
      refine at_nextOneOf hx hs fun s hx hs => ?_
      rw [e]
      refine KeepsAt.cast (if_pos (by decide)) ?_
      refine Keeps.at ?_ hs
      keep_auto
    · rw [e]
      refine KeepsAt.cast (if_neg (by decide)) ?_
      refine at_nextOneOf hx hs fun s hx hs => ?_
      rw [e]
      refine KeepsAt.cast (if_neg (by decide)) ?_
      refine at_takeIf hx hs (by simp only [e]; decide) fun s hx hs => ?_
      refine at_takeIf hx hs (by simp only [e]; decide) fun s hx hs => ?_
      refine at_nextOneOf hx hs fun s hx hs => ?_
      rw [e]
      refine KeepsAt.cast (if_pos (by decide)) ?_
      refine Keeps.at ?_ hs
      keep_auto
    · rw [e]
      refine KeepsAt.cast (if_pos (by decide)) ?_
      refine Keeps.at ?_ hs
      keep_auto
macro_rules | `(tactic| keep_lem) => `(tactic| with_reducible exact k_primaryAttr ‹_›)

theorem k_primaryArray (h : RKeep c r) : c.Keeps A (primaryArray r) fun n => A ∨ Has c.k n := by
  unfold primaryArray
  keep_auto
macro_rules | `(tactic| keep_lem) => `(tactic| with_reducible exact k_primaryArray ‹_›)

theorem k_primaryIsset (h : RKeep c r) : c.Keeps A (primaryIsset r) fun n => A ∨ Has c.k n := by
  unfold primaryIsset
  keep_auto
macro_rules | `(tactic| keep_lem) => `(tactic| with_reducible exact k_primaryIsset ‹_›)

theorem k_primary (h : RKeep c r) : c.Keeps A (primary r) fun n => A ∨ Has c.k n := by
  unfold primary
  keep_auto
macro_rules | `(tactic| keep_lem) => `(tactic| with_reducible exact k_primary ‹_›)

theorem k_callF (h : RKeep c r) : c.Keeps A (callF r) fun n => A ∨ Has c.k n := by
  unfold callF
  keep_auto

/-! ## Statements -/

theorem k_defaultStatement (h : RKeep c r) : c.Keeps A (defaultStatement r) fun n => A ∨ Has c.k n := by
  unfold defaultStatement
  refine k_staticStatement h ?_
  keep_auto
macro_rules | `(tactic| keep_lem) => `(tactic| with_reducible exact k_defaultStatement ‹_›)

theorem k_dispatch {attributes : List Node} {t : TT} (h : RKeep c r) :
    c.Keeps A (dispatch r attributes t) fun n => A ∨ Has c.k n := by
  have w : ∀ {f : P Node} {B : Node → Prop}, c.Keeps A f (fun n => A ∧ B n ∨ Has c.k n) → c.Keeps A f fun n => A ∨ Has c.k n :=
    fun hf => hf.mono fun n hn => hn.imp (fun h => h.1) fun h => h
  unfold dispatch
  split
  · exact k_inlineHtml h
  · exact Keeps.bind keeps_popDoc fun _ => w (k_namedFunction h)
  · exact k_namespaceStatement h
  · exact k_useCase h
  · exact k_constStatement h
  · exact k_globalVariables h
  · exact k_echoStatement h
  · exact k_printStatement h
  · exact k_gotoStatement h
  · exact k_returnStatement h
  · exact k_throwStatement h
  · exact w (k_classStatement h)
  · exact k_traitStatement h
  · exact w (k_abstractClassStatement h)
  · exact w (k_finalClassStatement h)
  · exact k_interface' h
  · exact k_whileStatement h
  · exact k_doWhileStatement h
  · exact k_forStatement h
  · exact k_foreachStatement h
  · exact k_ifStatement h
  · exact k_block h
  · exact k_switchStatement h
  · exact Keeps.bind keeps_consume fun k => Keeps.pure (by keep_leaf)
  · exact k_breakStatement h
  · exact k_breakStatement h
  · exact k_tryCatchStatement h
  · exact k_declareStatement h
  · exact k_unsetStatement h
  · exact k_dieStatement h
  · exact k_defineStatement h
  · exact k_defaultStatement h

theorem k_scriptStatement (h : RKeep c r) : c.Keeps A (scriptStatement r) fun n => A ∨ Has c.k n := by
  have hX := h.attrStatement
  unfold scriptStatement at hX ⊢
  refine k_attrThen h hX (fun A l => ?_) fun A l s x hs hx hL => ?_
  · refine Keeps.bind keeps_peek fun o => ?_
    split
    · exact k_dispatch h
    · exact Keeps.fail
  · refine at_peek hx hs fun s hx hs => ?_
    simp only
    refine Keeps.at ?_ hs
    rcases (by simpa using hL : x.t = .kwFunction ∨ x.t = .kwClass ∨ x.t = .kwAbstract ∨ x.t = .kwFinal) with e | e | e | e
    · rw [e]
      exact Keeps.bind keeps_popDoc fun _ => k_namedFunction h
    · rw [e]
      exact (k_classStatement (a := none) (b := none) h).mono (by intro n; keep_leaf)
    · rw [e]
      exact k_abstractClassStatement h
    · rw [e]
      exact k_finalClassStatement h
macro_rules | `(tactic| keep_lem) => `(tactic| with_reducible exact k_scriptStatement ‹_›)

theorem k_reopen : c.Keeps A reopen fun _ => A := by
  unfold reopen
  keep_auto
macro_rules | `(tactic| keep_lem) => `(tactic| with_reducible exact k_reopen)

theorem k_statementF (h : RKeep c r) : c.Keeps A (statementF r) fun n => A ∨ Has c.k n := by
  unfold statementF
  refine Keeps.bind keeps_getCtx fun x => ?_
  split
  · exact k_scriptStatement h
  · refine Keeps.bind (keeps_takeOr_lost fun k hk => by
      rcases (by simpa using hk : k.t = .scriptStartRegular ∨ k.t = .scriptStartShort) with e | e <;> rw [e] <;> decide) fun o => ?_
    keep_auto

end Kp
end PhpLs.Parser
